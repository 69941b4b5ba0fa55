import Verif.Model.ImplFrom
import Verif.Spec.Typing

/-!
# Specification: what Rust's types guarantee about a hand-written implementation
-/

namespace Mirror

/-- What `as_any` downcasts to is a value of some type, and `to_value` gives a `Value`: both hold for every
implementation that compiles. -/
structure SrcImpl.Proper {A : Type} (S : SrcImpl A) (E : Env) : Prop where
  any : ∀ a o, S.any a = some o → ∃ t, HasTy E t o
  toValue : ∀ a, (S.toValue a).WF

end Mirror
