import Verif.Model.DebugDeep
import Verif.Spec.Interchange
import Verif.Spec.Parts
import Verif.Spec.TypePath
import Verif.Spec.Unseen

/-!
# Specification: what debug output should show
-/

namespace Mirror

/-- Nothing in the output is a panic. -/
inductive DTree.NoPanic : DTree → Prop
  | struct (n fs) : (∀ p ∈ fs, NoPanic p.2) → NoPanic (.struct n fs)
  | tuple (n fs) : (∀ x ∈ fs, NoPanic x) → NoPanic (.tuple n fs)
  | list (xs) : (∀ x ∈ xs, NoPanic x) → NoPanic (.list xs)
  | map (kvs) : (∀ p ∈ kvs, NoPanic p.1) → (∀ p ∈ kvs, NoPanic p.2) → NoPanic (.map kvs)
  | text (s) : NoPanic (.text s)

/-- The standard library prints different characters and strings differently, and floats that print alike are equal
in the order of `Value` (all NaNs are). -/
structure Printing.TextFaithful (D : Printing) : Prop where
  char : ∀ a b, D.char a = D.char b → a = b
  str : ∀ a b, D.str a = D.str b → a = b
  f32 : ∀ a b, D.f32 a = D.f32 b → f32OrdKey a = f32OrdKey b
  f64 : ∀ a b, D.f64 a = D.f64 b → f64OrdKey a = f64OrdKey b

/-- Types with their own `Debug` print differently what reflection shows differently. -/
def Printing.UserFaithful (D : Printing) (E : Env) : Prop :=
  ∀ n x y, D.optOut n = false → HasTy E (.named n) x → HasTy E (.named n) y → D.user n x = D.user n y → SameShown x y

/-- Types with their own `Debug` do not print skipped fields. -/
def Printing.UserSkips (D : Printing) : Prop :=
  ∀ n x y, D.optOut n = false → x.SeenAs y → D.user n x = D.user n y

/-- No tuple among the component types. -/
def NoTuples (E : Env) (t : Ty) : Prop := ∀ u, t.Reach E u → ∀ ts, u ≠ .tuple ts

end Mirror
