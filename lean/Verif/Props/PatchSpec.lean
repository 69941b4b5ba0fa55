import Verif.Lemmas.PatchSpec
import Verif.Lemmas.Demo

set_option linter.unusedSimpArgs false

/-!
# C51: `patch` does exactly what its specification says
-/

namespace Mirror

/-- C51: after `x.patch(&v)`, the content of `x` is `z` exactly when the specification says that
patching `x` with `v` makes it `z`. -/
theorem C51_patch_iff {E : Env} (hD : DeclsOK E) (hO : OrdLaws E) {S T : Ty} {x v z : Obj}
    (hx : HasTy E T x) (hv : HasTy E S v) : patch E x v = z ↔ PatchesTo E x v z := by
  constructor
  · rintro rfl
    exact patch_patchesTo hD hO v ⟨S, hv⟩ x ⟨T, hx⟩
  · intro h
    exact (h (IsPatch E) (fun _ _ _ => isPatch_of_step hD hO) ⟨T, hx⟩ ⟨S, hv⟩).symm

/-- C51: the outcome of a patch is determined: there is exactly one. -/
theorem C51_patch_unique {E : Env} (hD : DeclsOK E) (hO : OrdLaws E) {S T : Ty} {x v : Obj}
    (hx : HasTy E T x) (hv : HasTy E S v) : ∃ z, PatchesTo E x v z ∧ ∀ z', PatchesTo E x v z' → z' = z :=
  ⟨_, (C51_patch_iff hD hO hx hv).mp rfl, fun _ h => ((C51_patch_iff hD hO hx hv).mpr h).symm⟩

/-- Non-vacuity: a list patched with a shorter list of another type; one element does not fit. -/
example : PatchesTo demoEnv
    (.vec (.scalar (.int .u8)) [.scalar (.int .u8 1), .scalar (.int .u8 2), .scalar (.int .u8 3)])
    (.vec .value [.scalar (.int .u8 9), .scalar (.bool true)])
    (.vec (.scalar (.int .u8)) [.scalar (.int .u8 9), .scalar (.int .u8 2), .scalar (.int .u8 3)]) := by
  refine (C51_patch_iff demo_declsOK demo_ordLaws (T := .vec (.scalar (.int .u8))) (S := .vec .value)
    ?_ ?_).mp ?_
  · refine .vec _ _ ?_
    intro x hx; simp at hx; rcases hx with rfl | rfl | rfl <;> exact .scalar' rfl
  · refine .vec _ _ ?_
    intro x hx; simp at hx
    rcases hx with rfl | rfl
    · exact .value (.scalar _) _ (.scalar _) (by rw [Value.toObj])
    · exact .value (.scalar _) _ (.scalar _) (by rw [Value.toObj])
  · simp [patch_vec, Obj.kind, patchPos, Obj.fieldAt, patchO, patch_scalar, Obj.isTy, Obj.typeOf,
      Scalar.kind]

/-- ... and a patch that is not the identity on a derived enum: `Shape` patched with another value
of its type becomes that value. -/
example (z : Obj) (hz : HasTy demoEnv (.named "Shape") z) :
    PatchesTo demoEnv demoShape z z := by
  intro R hR
  refine hR _ _ _ (.enumTake "Shape" _ _ _ rfl rfl rfl rfl ?_)
  cases hz with
  | struct _ _ _ _ hd => cases hd
  | tupleStruct _ _ _ _ hd => cases hd
  | enumS => rfl
  | enumT => rfl
  | enumU => rfl

end Mirror
