import Verif.Lemmas.ReflectEqAgree
import Verif.Lemmas.Demo

set_option linter.unusedSimpArgs false

/-!
# `reflect_eq`: permuted `StructValue`s, plain keys
-/

namespace Mirror

/-- Dynamic values contain no fixed-size arrays. -/
theorem Value.WF.arrayFree {v : Value} (h : v.WF) : v.toObj.ArrayFree := by
  have named : ∀ {fs : List (String × Value)}, (∀ p ∈ fs, p.2.toObj.ArrayFree) →
      ∀ p ∈ fs.map (fun p => (p.1, p.2.toObj)), p.2.ArrayFree := by
    intro fs h p hp
    obtain ⟨q, hq, rfl⟩ := List.mem_map.mp hp
    exact h q hq
  have pos : ∀ {fs : List Value}, (∀ p ∈ fs, p.toObj.ArrayFree) →
      ∀ p ∈ fs.map (fun p => p.toObj), p.ArrayFree := by
    intro fs h p hp
    obtain ⟨q, hq, rfl⟩ := List.mem_map.mp hp
    exact h q hq
  induction h with
  | scalar s => rw [Value.toObj]; exact .scalar s
  | struct ns fs _ _ _ ih => rw [Value.toObj]; exact .struct _ _ (named ih)
  | enumS v ns fs _ _ _ ih => rw [Value.toObj]; exact .enumS _ _ _ (named ih)
  | enumT v fs _ ih => rw [Value.toObj]; exact .enumT _ _ _ (pos ih)
  | enumU v => rw [Value.toObj]; exact .enumU _ _
  | tupleStruct fs _ ih => rw [Value.toObj]; exact .tupleStruct _ _ (pos ih)
  | tuple fs _ ih => rw [Value.toObj]; exact .tuple _ _ (pos ih)
  | list fs _ ih => rw [Value.toObj]; exact .vec _ _ (pos ih)
  | map kvs _ _ _ ih1 ih2 =>
    rw [Value.toObj]
    refine .map _ _ _ ?_ ?_
    · intro p hp; obtain ⟨q, hq, rfl⟩ := List.mem_map.mp hp; exact ih1 q hq
    · intro p hp; obtain ⟨q, hq, rfl⟩ := List.mem_map.mp hp; exact ih2 q hq

theorem Obj.ArrayFree.keysArrayFree {x : Obj} (h : x.ArrayFree) : x.KeysArrayFree := by
  induction x using Obj.ind with
  | h x ih =>
    refine .mk x ?_ fun y hy => ih y (Obj.parts_size hy) (h.parts hy)
    rintro kt vt kvs rfl p hp
    cases h with
    | map _ _ _ h _ => exact h p hp

/-- Two `StructValue`s with the same map of fields, listing the names in different orders. -/
theorem reflectEq_permuted_names {E : Env} (hD : DeclsOK E) (hO : OrdLaws E) (hK : KeysShown E)
    {ns ms : List String} {fs : List (String × Value)} (hp : ns.Perm ms)
    (hw : (Value.struct ns fs).WF) (hn : (Value.struct ns fs).toObj.NoNaN) :
    reflectEq E (Value.struct ns fs).toObj (Value.struct ms fs).toObj = some true := by
  have h := reflectEq_self hD hO hK (hw.ok (E := E)) hn hw.arrayFree.keysArrayFree
  rw [Value.toObj] at h
  rw [Value.toObj, Value.toObj]
  rw [reflectEq_iff] at h ⊢
  exact ⟨rfl, h.shown, rfl, rfl, hp.length_eq, by simp [Obj.asScalar], h.named,
    by simp [Obj.posIter], by simp [Obj.entries]⟩

/-- Scalars and `Value` as key types. -/
def PlainKey : Ty → Prop
  | .scalar _ => True
  | .value => True
  | _ => False

theorem Value.toObj_isTy_scalar {v : Value} {k : ScalarKind} (h : v.toObj.isTy (.scalar k) = true) :
    ∃ s, v = .scalar s ∧ s.kind = k := by
  cases v <;> simp [Value.toObj, Obj.isTy, Obj.typeOf] at h
  exact ⟨_, rfl, h⟩

theorem Scalar.cmp_eq_kind {s s' : Scalar} (h : Scalar.cmp s s' = .eq) : s.kind = s'.kind := by
  unfold Scalar.cmp at h
  rw [Ordering.then_eq_eq] at h
  exact Scalar.kind_idx_inj (by simpa using h.1)

theorem Value.cmp_scalar_eq {s : Scalar} {v : Value} (h : Value.cmp v (.scalar s) = .eq) :
    ∃ s', v = .scalar s' ∧ s'.kind = s.kind := by
  cases v with
  | scalar s' => rw [Value.cmp] at h; exact ⟨s', rfl, Scalar.cmp_eq_kind h⟩
  | _ =>
    simp [Value.cmp, Value.idx, Nat.compare_eq_eq] at h
    have := s.kind_idx_lt
    omega

/-- Keys that are scalars or `Value`s are found by their `Value`. -/
theorem keysByValue_plain (decl : String → Option TyDef) :
    KeysByValue (valueOrdEnv decl) PlainKey := by
  have look : ∀ {t o}, PlainKey t → HasTy (valueOrdEnv decl) t o → ∃ v : Value, v.WF ∧ o = v.toObj := by
    intro t o ht ho
    cases ho with
    | scalar s => exact ⟨.scalar s, .scalar s, by rw [Value.toObj]⟩
    | value v _ hw h => exact ⟨v, hw, h⟩
    | _ => cases ht
  intro t u k o ht hu hk ho
  obtain ⟨vo, wo, rfl⟩ := look hu ho
  cases hk with
  | scalar s =>
    rw [fromReflect_scalar]
    constructor
    · rintro ⟨k', h, he⟩
      split at h
      · cases h; exact he
      · cases h
    · intro h
      rw [Value.toObj_toValue wo, Obj.toValue] at h
      obtain ⟨s', rfl, hk⟩ := Value.cmp_scalar_eq h
      rw [if_pos (by simp [Value.toObj, Obj.isTy, Obj.typeOf, hk])]
      refine ⟨_, rfl, ?_⟩
      simp only [valueOrdEnv, Value.toObj, Obj.toValue]
      exact h
  | value v _ hw hv =>
    subst hv
    rw [fromReflect_value]
    simp only [Option.some.injEq, exists_eq_left', valueOrdEnv, Value.toObj_toValue wo]
  | _ => cases ht

end Mirror
