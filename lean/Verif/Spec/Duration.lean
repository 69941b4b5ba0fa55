import Verif.Model.Duration

/-!
# Specification: the number an `f32` stands for
-/

namespace Mirror

/-- The number of seconds `b` stands for, in units of `2^-149`: all ones in the exponent are infinities
and NaNs. -/
def f32Units (b : BitVec 32) : Option Int :=
  let e : Nat := b.toNat / 2 ^ 23 % 256
  let m : Nat := b.toNat % 2 ^ 23
  let sign : Int := if 2 ^ 31 ≤ b.toNat then -1 else 1
  if e = 255 then none
  else if e = 0 then some (sign * m)
  else some (sign * ((2 ^ 23 + m) * 2 ^ (e - 1)))

/-- `b` is a number from 0 up to but not including `2^64`: the seconds a `Duration` can hold. -/
def FitsDuration (b : BitVec 32) : Prop :=
  ∃ u, f32Units b = some u ∧ 0 ≤ u ∧ u < 2 ^ 64 * 2 ^ 149

/-- `d` is the number of seconds `b` stands for, rounded to the nearest nanosecond: at most half a
nanosecond away, and an even number of nanoseconds if it is exactly half a nanosecond away. Both sides
are in units of `2^-149` nanoseconds, doubled. -/
def NearestDuration (b : BitVec 32) (d : Duration) : Prop :=
  ∃ u, f32Units b = some u ∧
    let total : Nat := d.secs * 10 ^ 9 + d.nanos
    let err : Int := 2 * ((total : Int) * 2 ^ 149 - u * 10 ^ 9)
    err ≤ 2 ^ 149 ∧ -2 ^ 149 ≤ err ∧ ((err = 2 ^ 149 ∨ err = -2 ^ 149) → total % 2 = 0)

end Mirror
