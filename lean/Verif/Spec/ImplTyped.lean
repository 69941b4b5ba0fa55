import Verif.Model.ImplTyped
import Verif.Spec.ImplMut

/-!
# Specification: implementations whose `as_any` does what it says
-/

namespace Mirror

/-- `as_any_mut` points to what `as_any` points to, and what is written there is what `as_any` points to afterwards,
in a value that may stand where the old one stood. -/
structure AnyImpl.Lawful {A τ : Type} (M : AnyImpl A τ) (R K : A → A → Prop) : Prop where
  access : M.toMutImpl.Lawful R K
  same : ∀ a, (M.asAnyMut a).get = M.asAny a
  back : ∀ a, (M.asAnyMut a).put (M.asAny a) = a
  write : ∀ a z t, M.ty (M.asAny a) = some t → M.ty z = some t →
    R a ((M.asAnyMut a).put z) ∧ M.asAny ((M.asAnyMut a).put z) = z

/-- From `a`, values are written through `get_at_mut` one after the other, each of the type asked for and each going
another way than `p`; `b` is what is there in the end. -/
inductive TypedWrites {A τ : Type} [DecidableEq τ] (M : AnyImpl A τ) (K : A → A → Prop) (p : KeyPath) :
    A → List (τ × KeyPath × A) → A → Prop
  | nil {a} : TypedWrites M K p a [] a
  | cons {a b t q z sp l} : M.getAtMut t a q = some sp → M.ty z = some t → PathsApart M.toImpl K a q p →
      TypedWrites M K p (sp.put z) l b → TypedWrites M K p a ((t, q, z) :: l) b

end Mirror
