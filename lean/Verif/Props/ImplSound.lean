import Verif.Lemmas.ImplSound
import Verif.Props.ImplPatch
import Verif.Lemmas.Demo

/-!
# C99 and C100: hand-written sources and patches cannot break the types
-/

namespace Mirror

/-- Whatever `from_reflect` returns is a value of the target type: whoever implemented the source, and
whatever lengths, names and elements it answers with. -/
theorem C99_sound {A : Type} (S : SrcImpl A) (E : Env) (hO : OrdLaws E) (hS : S.Proper E) (t : Ty) (a : A)
    (n : Nat) (y : Obj) (h : S.from E n t a = some (some y)) : HasTy E t y :=
  S.from_sound hO hS n t a y h

/-- Patching keeps the type of the patched value, whoever implemented the patch. -/
theorem C100_keeps_type {A : Type} (S : SrcImpl A) (E : Env) (hO : OrdLaws E) (hS : S.Proper E) (t : Ty)
    (x : Obj) (hx : HasTy E t x) (a : A) (n : Nat) (y : Obj) (h : S.patch E n x a = some y) :
    HasTy E t y :=
  S.patch_sound hO hS n a y hx h

/-! ## A case that meets the hypotheses -/

/-- The program with the fixed-size array is proper. -/
theorem Fixed.src_proper (E : Env) : Fixed.src.Proper E := by
  constructor
  · intro a o h
    cases a <;> cases h
    exact ⟨_, .scalar (.int .i32 _)⟩
  · intro a
    cases a <;> simp only [Fixed.src]
    · exact .scalar _
    all_goals exact .list _ fun x hx => by cases hx

/-- What a list that announces a wrong length is read as is a `Vec` of numbers. -/
example (n : Nat) (y : Obj)
    (h : Fixed.src.from demoEnv n (.vec (.scalar (.int .i32))) (.quiet 1 2) = some (some y)) :
    HasTy demoEnv (.vec (.scalar (.int .i32))) y :=
  C99_sound Fixed.src demoEnv demo_ordLaws (Fixed.src_proper _) _ _ n y h

/-- An array of two numbers patched with a hand-written array stays one. -/
example (n : Nat) (y : Obj)
    (h : Fixed.src.patch demoEnv n (.array (.scalar (.int .i32)) [i32Obj 7, i32Obj 8]) (.pair 1 2) = some y) :
    HasTy demoEnv (.array (.scalar (.int .i32)) 2) y :=
  C100_keeps_type Fixed.src demoEnv demo_ordLaws (Fixed.src_proper _) _ _
    (.array _ [_, _] fun x hx => by
      simp only [List.mem_cons, List.not_mem_nil, or_false] at hx
      rcases hx with rfl | rfl <;> exact .scalar (.int .i32 _)) _ n y h

/-- And it is patched. -/
example : ∃ n, Fixed.src.patch demoEnv n (.array (.scalar (.int .i32)) [i32Obj 7, i32Obj 8]) (.pair 1 2) =
    some (.array (.scalar (.int .i32)) [i32Obj 1, i32Obj 2]) := by
  refine ⟨5, ?_⟩
  cbv


end Mirror
