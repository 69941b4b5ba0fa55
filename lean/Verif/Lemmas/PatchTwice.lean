import Verif.Lemmas.PatchIdem
import Verif.Lemmas.ToValue

set_option linter.unusedSimpArgs false

/-!
# Patching a dynamic enum twice
-/

namespace Mirror

variable {E : Env}

theorem patchPos_at {E : Env} {v : Obj} {fs : List Obj} {j : Nat} {c w : Obj} (hc : fs[j]? = some c)
    (hw : v.fieldAt j = some w) : (patchPos E v fs)[j]? = some (patch E c w) := by
  simp [patchPos, List.getElem?_mapIdx, hc, hw, patchO]

/-- A value whose copy has, at some position, another scalar of the same kind than itself changes its copy when the
copy is patched with it. -/
theorem patch_copy_ne {w : Obj} (hk : w.kind = .tupleStruct ∨ w.variantKind = some .tuple) {j : Nat}
    {s s' : Scalar} (hs : w.fieldAt j = some (.scalar s)) (hs' : w.toValue.toObj.fieldAt j = some (.scalar s'))
    (hkind : s.kind = s'.kind) (hne : s ≠ s') : patch E w.toValue.toObj w ≠ w.toValue.toObj := by
  have hsc : patch E (.scalar s') (.scalar s) = .scalar s := by
    rw [patch_scalar]; simp [Obj.isTy, Obj.typeOf, hkind]
  have key : ∀ {ys : List Obj}, visAt ys j = some (.scalar s') → patchPos E w ys ≠ ys := by
    intro ys hy e
    have hy : ys[j]? = some (.scalar s') := by
      simp only [visAt] at hy
      cases hz : ys[j]? with
      | none => rw [hz] at hy; cases hy
      | some z =>
        rw [hz] at hy
        simp only at hy
        split at hy <;> cases hy
        rfl
    have := patchPos_at (E := E) hy hs
    rw [e, hy, hsc] at this
    cases this
    exact hne rfl
  cases w <;> simp [Obj.kind, Obj.variantKind] at hk
  case tupleStruct tag fs =>
    rw [toValue_tupleStruct] at hs' ⊢
    simp only [Value.toObj] at hs' ⊢
    rw [patch_tupleStruct]
    simp only [Obj.kind, if_true]
    intro e
    injection e with _ e
    exact key hs' e
  case enumT tag vn fs =>
    rw [toValue_enumT] at hs' ⊢
    simp only [Value.toObj] at hs' ⊢
    rw [patch_enum_dyn E rfl rfl]
    simp only [Obj.kind, Obj.variantName, if_true, patchFields]
    intro e
    injection e with _ _ e
    exact key hs' e

theorem takeWhile_getElem {α : Type} {p : α → Bool} {l : List α} {k : Nat} {a : α}
    (h : (l.takeWhile p)[k]? = some a) : l[k]? = some a ∧ p a = true := by
  refine ⟨?_, List.all_eq_true.mp List.all_takeWhile _ (List.mem_of_getElem? h)⟩
  obtain ⟨t, ht⟩ := List.takeWhile_prefix (l := l) p
  obtain ⟨hlt, _⟩ := List.getElem?_eq_some_iff.mp h
  rw [← ht, List.getElem?_append_left hlt]
  exact h

theorem enumValue_kind {x : Obj} (h : HasTy E .enumValue x) : x.kind = .enum ∧ x.typeOf = some .enumValue := by
  cases h <;> subst_vars <;> simp [Value.toObj, Obj.kind, Obj.typeOf]

/-- An enum value of another variant becomes the copy of the patch. -/
theorem patch_other_variant {x v : Obj} (hx : x.kind = .enum) (ht : x.typeOf = some .enumValue) (hv : v.kind = .enum)
    (hne : v.variantName ≠ x.variantName) : ∃ y, fromReflect E .enumValue v = some y ∧ patch E x v = y := by
  obtain ⟨y, hy⟩ := fromReflect_enumValue_some E hv
  refine ⟨y, hy, ?_⟩
  rw [patch_enum_dyn E hx ht, if_pos hv, if_neg hne, hy]
  rfl

end Mirror
