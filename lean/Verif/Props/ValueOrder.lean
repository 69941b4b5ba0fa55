import Verif.Lemmas.Order

/-!
# C20, C21: `Value` is a lawful map and set key
-/

namespace Mirror

/-- C20: `Ord for Value` is a total order whose equality is exactly `==`:
comparing twice the other way round gives the swapped answer, `cmp` is `Equal` exactly when `==`
holds, `==` is an equivalence, `Less` is transitive, and `==` values compare the same with everything. -/
theorem C20_value_total_order (a b c : Value) :
    (Value.cmp b a = (Value.cmp a b).swap) ∧
    (Value.cmp a b = .eq ↔ Value.beq a b = true) ∧
    (Value.beq a a = true) ∧
    (Value.beq a b = true → Value.beq b a = true) ∧
    (Value.beq a b = true → Value.beq b c = true → Value.beq a c = true) ∧
    (Value.cmp a b = .lt → Value.cmp b c = .lt → Value.cmp a c = .lt) ∧
    (Value.beq a b = true → Value.cmp a c = Value.cmp b c) := by
  refine ⟨Value.cmp_swap a b, ?_, ?_, ?_, ?_, Value.cmp_lt_trans, ?_⟩
  · rw [Value.cmp_eq_iff, Value.beq_enc]
  · rw [Value.beq_enc]
  · simp only [Value.beq_enc]; exact Eq.symm
  · simp only [Value.beq_enc]; exact Eq.trans
  · intro h
    rw [Value.beq_enc] at h
    rw [Value.cmp_enc, Value.cmp_enc, h]

/-- C20: every two NaNs are `==`, the zeros are `==`, and a NaN is above every number
(the behaviour that makes floats usable as keys). -/
theorem C20_float_keys (x y : BitVec 32) :
    (f32NaN x = true → f32NaN y = true → Value.beq (.scalar (.f32 x)) (.scalar (.f32 y)) = true) ∧
    (f32Mag x = 0 → f32Mag y = 0 → Value.beq (.scalar (.f32 x)) (.scalar (.f32 y)) = true) ∧
    (f32NaN x = false → f32NaN y = true →
      Value.cmp (.scalar (.f32 x)) (.scalar (.f32 y)) = .lt) := by
  refine ⟨?_, ?_, ?_⟩
  · intro hx hy; simp [Value.beq, Scalar.ordEq, hx, hy]
  · intro hx hy
    simp [Value.beq, Scalar.ordEq, f32Eq, f32NaN, f32Key, hx, hy]
  · intro hx hy
    have hm : f32Mag x < 2 ^ 31 := Nat.mod_lt _ (by decide)
    simp only [Value.cmp, Scalar.cmp, Scalar.kind, ScalarKind.idx]
    have : compare (f32OrdKey x) (f32OrdKey y) = .lt := by
      rw [int_cmp_lt]
      simp only [f32OrdKey, hx, hy, f32Key]
      simp; split <;> omega
    rw [this]; rfl

/-- C21: equal values write the same data to the hasher. -/
theorem C21_equal_values_hash_equal (a b : Value) (h : Value.beq a b = true) :
    a.hashFeed = b.hashFeed :=
  Value.hash_of_beq a b h

/-- Non-vacuity of C21: `==` is more than identity, `0.0` and `-0.0` are equal but distinct. -/
example : ∃ a b : Value, a ≠ b ∧ Value.beq a b = true ∧ a.hashFeed = b.hashFeed := by
  refine ⟨.list [.scalar (.f32 0#32)], .list [.scalar (.f32 0x80000000#32)], ?_, ?_, ?_⟩
  · simp
  · simp [Value.beq, Value.beqList, Scalar.ordEq]; decide
  · simp [Value.hashFeed, Scalar.hashFeed]; decide

/-- Non-vacuity of C20: a chain of three values of different shapes. -/
example : Value.cmp (.scalar (.int .u8 3)) (.list [.scalar (.bool true)]) = .lt ∧
    Value.cmp (.list [.scalar (.bool true)]) (.list [.scalar (.bool true), .tuple []]) = .lt := by
  constructor
  · simp [Value.cmp, Value.idx, Scalar.kind, ScalarKind.idx, IntKind.idx]; decide
  · simp [Value.cmp, Value.cmpList, Scalar.cmp]

end Mirror
