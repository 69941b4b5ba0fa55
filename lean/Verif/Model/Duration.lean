import Verif.Model.Obj

/-!
# `Duration`

Models the `impl_reflect_via_scalar!` instance for `Duration` (foreign_impls/via_scalar.rs:14-86,100).
The standard library functions it calls are modelled from their documentation.
-/

namespace Mirror

/-- `core::time::Duration`. -/
structure Duration where
  secs : Nat
  nanos : Nat
  secs_lt : secs < 2 ^ 64
  nanos_lt : nanos < 10 ^ 9

/-- What a call does: return, or panic. -/
inductive Outcome (α : Type)
  | ret (a : α)
  | panic

/-- The exponent field of an `f32`. -/
def f32Exp (b : BitVec 32) : Nat := b.toNat / 2 ^ 23 % 2 ^ 8

/-- The mantissa field of an `f32`. -/
def f32Mant (b : BitVec 32) : Nat := b.toNat % 2 ^ 23

/-- Rounded division, ties to even. -/
def roundDiv (a d : Nat) : Nat :=
  if 2 * (a % d) < d then a / d
  else if d < 2 * (a % d) then a / d + 1
  else if a / d % 2 = 0 then a / d else a / d + 1

/-- The magnitude of a finite `f32` in nanoseconds, rounded. -/
def f32Nanos (b : BitVec 32) : Nat :=
  if f32Exp b = 0 then roundDiv (f32Mant b * 10 ^ 9) (2 ^ 149)
  else roundDiv ((2 ^ 23 + f32Mant b) * 2 ^ (f32Exp b - 1) * 10 ^ 9) (2 ^ 149)

/-- `Duration::from_secs_f32` (std, called from via_scalar.rs:100): "panics if `secs` is negative,
overflows `Duration` or not finite"; otherwise rounds to nanoseconds. Negative zero is zero. -/
def fromSecsF32 (b : BitVec 32) : Outcome Duration :=
  if f32NaN b then .panic
  else if f32Neg b ∧ f32Mag b ≠ 0 then .panic
  else
    if h : f32Nanos b / 10 ^ 9 < 2 ^ 64 then
      .ret ⟨f32Nanos b / 10 ^ 9, f32Nanos b % 10 ^ 9, h, Nat.mod_lt _ (by decide)⟩
    else .panic

/-- What `Duration::from_reflect` looks at: a `Duration`, or anything else. -/
inductive DSrc
  | dur (d : Duration)
  | other (o : Obj)

/-- `Duration::from_reflect` (via_scalar.rs:68-77): a `Duration` is copied, an `f32` is passed to
`from_secs_f32`, anything else gives `None` (`f32::from_reflect`, lib.rs:588-592). -/
def durFromReflect : DSrc → Outcome (Option Duration)
  | .dur d => .ret (some d)
  | .other (.scalar (.f32 b)) =>
    match fromSecsF32 b with
    | .ret d => .ret (some d)
    | .panic => .panic
  | .other _ => .ret none

/-- `Duration::patch` (via_scalar.rs:44-48). -/
def durPatch (d : Duration) (v : DSrc) : Outcome Duration :=
  match durFromReflect v with
  | .ret (some d') => .ret d'
  | .ret none => .ret d
  | .panic => .panic

/-- `Duration::to_value` (via_scalar.rs:51-53), for any `as_secs_f32` (std, not modelled). -/
def durToValue (asSecs : Duration → BitVec 32) (d : Duration) : Value := .scalar (.f32 (asSecs d))

end Mirror
