import Mathlib.Data.Fintype.Card
import Verif.Model.Duration
import Verif.Spec.Duration

set_option linter.unusedSimpArgs false

/-!
# `Duration` (C48)
-/

namespace Mirror

/-- Rounding to nanoseconds stays below `2^64` seconds exactly for numbers below `2^64`. -/
theorem f32Nanos_lt_iff {b : BitVec 32} (he : f32Exp b ≠ 255) :
    f32Nanos b / 10 ^ 9 < 2 ^ 64 ↔
      (if f32Exp b = 0 then f32Mant b else (2 ^ 23 + f32Mant b) * 2 ^ (f32Exp b - 1)) < 2 ^ 213 := by
  have hlt : f32Exp b < 256 := Nat.mod_lt _ (by decide)
  have hm : f32Mant b < 2 ^ 23 := Nat.mod_lt _ (by decide)
  have hr : ∀ a d, roundDiv a d ≤ a / d + 1 := by
    intro a d; unfold roundDiv; split <;> [omega; split <;> [omega; split <;> omega]]
  have hr' : ∀ a d, a / d ≤ roundDiv a d := by
    intro a d; unfold roundDiv; split <;> [omega; split <;> [omega; split <;> omega]]
  unfold f32Nanos
  by_cases h0 : f32Exp b = 0
  · rw [if_pos h0, if_pos h0]
    have h1 := hr (f32Mant b * 10 ^ 9) (2 ^ 149)
    have h2 : f32Mant b * 10 ^ 9 / 2 ^ 149 = 0 := Nat.div_eq_of_lt (by omega)
    constructor <;> intro _ <;> omega
  · rw [if_neg h0, if_neg h0]
    generalize hM : 2 ^ 23 + f32Mant b = M
    have hM1 : 2 ^ 23 ≤ M := by omega
    have hM2 : M < 2 ^ 24 := by omega
    by_cases hx : f32Exp b - 1 < 190
    · have : M * 2 ^ (f32Exp b - 1) < 2 ^ 213 := by
        calc M * 2 ^ (f32Exp b - 1) ≤ M * 2 ^ 189 :=
              Nat.mul_le_mul_left _ (Nat.pow_le_pow_right (by decide) (by omega))
          _ < 2 ^ 24 * 2 ^ 189 := Nat.mul_lt_mul_of_pos_right hM2 (by decide)
          _ = 2 ^ 213 := by decide
      refine ⟨fun _ => this, fun _ => ?_⟩
      have e : M * 2 ^ (f32Exp b - 1) ≤ (2 ^ 24 - 1) * 2 ^ 189 :=
        Nat.mul_le_mul (by omega) (Nat.pow_le_pow_right (by decide) (by omega))
      have h1 := hr (M * 2 ^ (f32Exp b - 1) * 10 ^ 9) (2 ^ 149)
      have h2 : M * 2 ^ (f32Exp b - 1) * 10 ^ 9 / 2 ^ 149 ≤ (2 ^ 24 - 1) * 2 ^ 189 * 10 ^ 9 / 2 ^ 149 :=
        Nat.div_le_div_right (Nat.mul_le_mul_right _ e)
      omega
    · have : 2 ^ 213 ≤ M * 2 ^ (f32Exp b - 1) := by
        calc 2 ^ 213 = 2 ^ 23 * 2 ^ 190 := by decide
          _ ≤ M * 2 ^ (f32Exp b - 1) :=
              Nat.mul_le_mul hM1 (Nat.pow_le_pow_right (by decide) (by omega))
      refine ⟨fun h => ?_, fun h => absurd h (by omega)⟩
      exfalso
      have h1 := hr' (M * 2 ^ (f32Exp b - 1) * 10 ^ 9) (2 ^ 149)
      have h2 : 2 ^ 213 * 10 ^ 9 / 2 ^ 149 ≤ M * 2 ^ (f32Exp b - 1) * 10 ^ 9 / 2 ^ 149 :=
        Nat.div_le_div_right (Nat.mul_le_mul_right _ this)
      omega

theorem f32_nan_inf {b : BitVec 32} (h : f32Exp b = 255) (hn : f32NaN b = false) :
    ¬ f32Nanos b / 10 ^ 9 < 2 ^ 64 := by
  have hr' : ∀ a d, a / d ≤ roundDiv a d := by
    intro a d; unfold roundDiv; split <;> [omega; split <;> [omega; split <;> omega]]
  unfold f32Nanos
  rw [h, if_neg (by decide)]
  have h1 := hr' ((2 ^ 23 + f32Mant b) * 2 ^ (255 - 1) * 10 ^ 9) (2 ^ 149)
  have h2 : 2 ^ 23 * 2 ^ 254 * 10 ^ 9 / 2 ^ 149 ≤ (2 ^ 23 + f32Mant b) * 2 ^ 254 * 10 ^ 9 / 2 ^ 149 :=
    Nat.div_le_div_right (Nat.mul_le_mul_right _ (Nat.mul_le_mul_right _ (by omega)))
  omega

/-- `from_secs_f32` returns exactly for numbers a `Duration` can hold. -/
theorem fromSecsF32_iff (b : BitVec 32) : (∃ d, fromSecsF32 b = .ret d) ↔ FitsDuration b := by
  have hb := b.isLt
  have hE : b.toNat / 2 ^ 23 % 256 = f32Exp b := rfl
  have hM : b.toNat % 2 ^ 23 = f32Mant b := rfl
  have hmag : f32Mag b = f32Exp b * 2 ^ 23 + f32Mant b := by
    unfold f32Mag f32Exp f32Mant; omega
  have hmlt : f32Mant b < 2 ^ 23 := Nat.mod_lt _ (by decide)
  have hnan : f32NaN b = true ↔ f32Exp b = 255 ∧ f32Mant b ≠ 0 := by
    have : f32Exp b < 256 := Nat.mod_lt _ (by decide)
    simp only [f32NaN, hmag, decide_eq_true_eq]; omega
  have hneg : f32Neg b = true ↔ 2 ^ 31 ≤ b.toNat := by simp [f32Neg]
  have hret : (∃ d, fromSecsF32 b = .ret d) ↔
      f32NaN b = false ∧ ¬ (f32Neg b ∧ f32Mag b ≠ 0) ∧ f32Nanos b / 10 ^ 9 < 2 ^ 64 := by
    unfold fromSecsF32
    by_cases h1 : f32NaN b = true
    · simp [h1]
    · rw [if_neg h1]
      by_cases h2 : f32Neg b = true ∧ f32Mag b ≠ 0
      · rw [if_pos h2]; simp [h2]
      · rw [if_neg h2]
        by_cases h3 : f32Nanos b / 10 ^ 9 < 2 ^ 64
        · rw [dif_pos h3]; simp only [Bool.not_eq_true] at h1; exact ⟨fun _ => ⟨h1, h2, h3⟩, fun _ => ⟨_, rfl⟩⟩
        · rw [dif_neg h3]; simp [h3]
  rw [hret]
  unfold FitsDuration f32Units
  simp only [hE, hM]
  by_cases h255 : f32Exp b = 255
  · rw [if_pos h255]
    constructor
    · rintro ⟨hn, _, hl⟩; exact absurd hl (f32_nan_inf h255 hn)
    · rintro ⟨u, hu, _⟩; cases hu
  · rw [if_neg h255, f32Nanos_lt_iff h255]
    have hn : f32NaN b = false := by
      cases h : f32NaN b with
      | false => rfl
      | true => exact absurd (hnan.mp h).1 h255
    simp only [hn, hneg, true_and]
    by_cases h0 : f32Exp b = 0
    · simp only [h0, if_pos]
      have hmag' : f32Mag b = f32Mant b := by rw [hmag, h0]; omega
      rw [hmag']
      by_cases hs : 2 ^ 31 ≤ b.toNat
      · simp only [hs, if_pos, true_and]
        constructor
        · rintro ⟨h1, h2⟩; exact ⟨_, rfl, by omega, by omega⟩
        · rintro ⟨u, hu, h1, h2⟩
          simp only [Option.some.injEq] at hu
          exact ⟨by omega, by omega⟩
      · simp only [hs, if_false, false_and, not_false_iff, true_and]
        constructor
        · intro h; exact ⟨_, rfl, by omega, by omega⟩
        · intro _; omega
    · simp only [h0, if_false]
      have hp : 0 < (2 ^ 23 + f32Mant b) * 2 ^ (f32Exp b - 1) :=
        Nat.mul_pos (by omega) (Nat.two_pow_pos _)
      have hcast : ((2 ^ 23 + (f32Mant b : Int)) * 2 ^ (f32Exp b - 1)) =
          (((2 ^ 23 + f32Mant b) * 2 ^ (f32Exp b - 1) : Nat) : Int) := by
        rw [Int.natCast_mul, Int.natCast_add, Int.natCast_pow, Int.natCast_pow]; rfl
      rw [hcast]
      generalize (2 ^ 23 + f32Mant b) * 2 ^ (f32Exp b - 1) = U at *
      have hmag' : f32Mag b ≠ 0 := by rw [hmag]; omega
      by_cases hs : 2 ^ 31 ≤ b.toNat
      · simp only [hs, if_pos, true_and]
        constructor
        · rintro ⟨h1, h2⟩; exact absurd hmag' h1
        · rintro ⟨u, hu, h1, h2⟩
          simp only [Option.some.injEq] at hu
          omega
      · simp only [hs, if_false, false_and, not_false_iff, true_and]
        constructor
        · intro h; exact ⟨_, rfl, by omega, by omega⟩
        · rintro ⟨u, hu, h1, h2⟩
          simp only [Option.some.injEq] at hu
          omega

/-- Rounded division is at most half a unit off, and even if it is exactly half a unit off. -/
theorem roundDiv_nearest (a d : Nat) (hd : 0 < d) :
    2 * a ≤ 2 * (d * roundDiv a d) + d ∧ 2 * (d * roundDiv a d) ≤ 2 * a + d ∧
      ((2 * a = 2 * (d * roundDiv a d) + d ∨ 2 * (d * roundDiv a d) = 2 * a + d) →
        roundDiv a d % 2 = 0) := by
  have h1 := Nat.div_add_mod a d
  have h2 := Nat.mod_lt a hd
  unfold roundDiv
  generalize hq : a / d = q at *
  generalize hr : a % d = r at *
  have hs : d * (q + 1) = d * q + d := Nat.mul_succ d q
  split
  · refine ⟨by omega, by omega, fun h => by omega⟩
  · split
    · rw [hs]; refine ⟨by omega, by omega, fun h => by omega⟩
    · split
      · refine ⟨by omega, by omega, fun h => by omega⟩
      · rw [hs]; refine ⟨by omega, by omega, fun h => by omega⟩

/-- The `Duration` that `from_secs_f32` returns is the nearest one. -/
theorem fromSecsF32_nearest {b : BitVec 32} {d : Duration} (h : fromSecsF32 b = .ret d) :
    NearestDuration b d := by
  have hf := (fromSecsF32_iff b).mp ⟨d, h⟩
  obtain ⟨u, hu, hu0, _⟩ := hf
  refine ⟨u, hu, ?_⟩
  have ht : d.secs * 10 ^ 9 + d.nanos = f32Nanos b := by
    unfold fromSecsF32 at h
    split at h
    · cases h
    · split at h
      · cases h
      · split at h
        · cases h
          have := Nat.div_add_mod (f32Nanos b) (10 ^ 9)
          simp only; omega
        · cases h
  simp only [ht]
  have hE : b.toNat / 2 ^ 23 % 256 = f32Exp b := rfl
  have hM : b.toNat % 2 ^ 23 = f32Mant b := rfl
  obtain ⟨U, hU, hn⟩ : ∃ U : Nat, u = U ∧ f32Nanos b = roundDiv (U * 10 ^ 9) (2 ^ 149) := by
    unfold f32Units at hu
    simp only [hE, hM] at hu
    unfold f32Nanos
    split at hu
    · cases hu
    · by_cases h0 : f32Exp b = 0
      · rw [if_pos h0] at hu ⊢
        refine ⟨f32Mant b, ?_, rfl⟩
        injection hu with hu
        split at hu <;> omega
      · rw [if_neg h0] at hu ⊢
        refine ⟨(2 ^ 23 + f32Mant b) * 2 ^ (f32Exp b - 1), ?_, rfl⟩
        have hcast : ((2 ^ 23 + (f32Mant b : Int)) * 2 ^ (f32Exp b - 1)) =
            (((2 ^ 23 + f32Mant b) * 2 ^ (f32Exp b - 1) : Nat) : Int) := by
          rw [Int.natCast_mul, Int.natCast_add, Int.natCast_pow, Int.natCast_pow]; rfl
        rw [hcast] at hu
        generalize (2 ^ 23 + f32Mant b) * 2 ^ (f32Exp b - 1) = U at *
        injection hu with hu
        split at hu <;> omega
  obtain ⟨h1, h2, h3⟩ := roundDiv_nearest (U * 10 ^ 9) (2 ^ 149) (Nat.two_pow_pos _)
  rw [← hn] at h1 h2 h3
  subst hU
  refine ⟨by omega, by omega, fun hh => h3 (by omega)⟩

/-- C48: an `f32` that fits gives the nearest `Duration`, by `from_reflect` and by `patch`. -/
theorem C48_nearest (b : BitVec 32) (h : FitsDuration b) :
    ∃ d, NearestDuration b d ∧ durFromReflect (.other (.scalar (.f32 b))) = .ret (some d) ∧
      ∀ d₀, durPatch d₀ (.other (.scalar (.f32 b))) = .ret d := by
  obtain ⟨d, hd⟩ := (fromSecsF32_iff b).mpr h
  refine ⟨d, fromSecsF32_nearest hd, by simp [durFromReflect, hd], fun d₀ => ?_⟩
  simp [durPatch, durFromReflect, hd]

/-- C48: a `Duration` gives itself, by `from_reflect` and by `patch`. -/
theorem C48_same (d d₀ : Duration) :
    durFromReflect (.dur d) = .ret (some d) ∧ durPatch d₀ (.dur d) = .ret d := ⟨rfl, rfl⟩

/-- C48, the part that holds: building a `Duration` from anything but an `f32` outside of what a
`Duration` can hold does not panic. Missing for the full property: the others, which all panic
(`duration_from_reflect_panics`). -/
theorem duration_from_reflect_partial (v : DSrc)
    (h : ∀ b, v = .other (.scalar (.f32 b)) → FitsDuration b) : ∃ r, durFromReflect v = .ret r := by
  cases v with
  | dur d => exact ⟨_, rfl⟩
  | other o =>
    cases o with
    | scalar s =>
      cases s with
      | f32 b =>
        obtain ⟨d, hd⟩ := (fromSecsF32_iff b).mpr (h b rfl)
        exact ⟨some d, by simp [durFromReflect, hd]⟩
      | _ => exact ⟨none, rfl⟩
    | _ => exact ⟨none, rfl⟩

/-- C48 fails: every `f32` that is NaN, infinite, below zero or at least `2^64` makes `from_reflect`
panic, where other types give `None`. -/
theorem duration_from_reflect_panics (b : BitVec 32) (h : ¬ FitsDuration b) :
    durFromReflect (.other (.scalar (.f32 b))) = .panic := by
  rw [← fromSecsF32_iff] at h
  cases hd : fromSecsF32 b with
  | ret d => exact absurd ⟨d, hd⟩ h
  | panic => simp [durFromReflect, hd]

/-- C48 for `patch`, the part that holds; what is no `Duration` and no `f32` changes nothing. -/
theorem duration_patch_partial (d : Duration) (v : DSrc)
    (h : ∀ b, v = .other (.scalar (.f32 b)) → FitsDuration b) :
    ∃ d', durPatch d v = .ret d' ∧
      ((∀ d₁, v ≠ .dur d₁) → (∀ b, v ≠ .other (.scalar (.f32 b))) → d' = d) := by
  obtain ⟨r, hr⟩ := duration_from_reflect_partial v h
  unfold durPatch
  rw [hr]
  cases r with
  | none => exact ⟨d, rfl, fun _ _ => rfl⟩
  | some d' =>
    refine ⟨d', rfl, fun h1 h2 => ?_⟩
    exfalso
    cases v with
    | dur d₁ => exact h1 d₁ rfl
    | other o =>
      cases o with
      | scalar s =>
        cases s with
        | f32 b => exact h2 b rfl
        | _ => simp [durFromReflect] at hr
      | _ => simp [durFromReflect] at hr

/-- C48 fails for `patch` in the same cases, whatever the old value. -/
theorem duration_patch_panics (d : Duration) (b : BitVec 32) (h : ¬ FitsDuration b) :
    durPatch d (.other (.scalar (.f32 b))) = .panic := by
  unfold durPatch
  rw [duration_from_reflect_panics b h]

/-- `Duration` also breaks the round trip through `to_value` (C01), however `as_secs_f32` rounds: there
are more durations than `f32`s. -/
theorem duration_roundtrip_fails (asSecs : Duration → BitVec 32) :
    ∃ d, durFromReflect (.other (durToValue asSecs d).toObj) ≠ .ret (some d) := by
  by_contra hcon
  have hall : ∀ d, durFromReflect (.other (durToValue asSecs d).toObj) = .ret (some d) := by
    intro d
    by_contra h
    exact hcon ⟨d, h⟩
  have hlt : ∀ i : Fin (2 ^ 33), i.1 < 2 ^ 64 := fun i => by have := i.2; omega
  let f : Fin (2 ^ 33) → Fin (2 ^ 32) := fun i =>
    (asSecs ⟨i.1, 0, hlt i, by decide⟩).toFin
  have hinj : Function.Injective f := by
    intro i j hij
    have hbv : asSecs ⟨i.1, 0, hlt i, by decide⟩ = asSecs ⟨j.1, 0, hlt j, by decide⟩ :=
      BitVec.toFin_inj.mp hij
    have h1 := hall ⟨i.1, 0, hlt i, by decide⟩
    have h2 := hall ⟨j.1, 0, hlt j, by decide⟩
    unfold durToValue at h1 h2
    rw [hbv, h2] at h1
    simp only [Outcome.ret.injEq, Option.some.injEq, Duration.mk.injEq] at h1
    exact Fin.ext h1.1.symm
  have := Fintype.card_le_of_injective f hinj
  rw [Fintype.card_fin, Fintype.card_fin] at this
  omega

/-! ## Concrete cases -/

/-- `-1.0`, NaN, infinity and `2^64` do not fit; `-0.0`, `1.5` and the largest `f32` below `2^64` do. -/
example : ¬ FitsDuration 0xBF800000#32 ∧ ¬ FitsDuration 0x7FC00000#32 ∧ ¬ FitsDuration 0x7F800000#32 ∧
    ¬ FitsDuration 0x5F800000#32 ∧ FitsDuration 0x80000000#32 ∧ FitsDuration 0x3FC00000#32 ∧
    FitsDuration 0x5F7FFFFF#32 := by
  refine ⟨?_, ?_, ?_, ?_, ?_, ?_, ?_⟩
  · rintro ⟨u, hu, h⟩; simp [f32Units] at hu; omega
  · rintro ⟨u, hu, h⟩; simp [f32Units] at hu
  · rintro ⟨u, hu, h⟩; simp [f32Units] at hu
  · rintro ⟨u, hu, h⟩; simp [f32Units] at hu; omega
  · exact ⟨_, rfl, by decide, by decide⟩
  · exact ⟨_, rfl, by decide, by decide⟩
  · exact ⟨_, rfl, by decide, by decide⟩

/-- 1.5 seconds. -/
example : durFromReflect (.other (.scalar (.f32 0x3FC00000#32))) =
    .ret (some ⟨1, 500000000, by decide, by decide⟩) := rfl

end Mirror
