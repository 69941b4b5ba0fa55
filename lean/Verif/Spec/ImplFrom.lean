import Verif.Model.ImplFrom
import Verif.Spec.Impl

/-!
# Specification: what `from_reflect` can tell about its source
-/

namespace Mirror

/-- `R` relates values that no sequence of questions tells apart, `as_any` and `to_value` included. -/
structure SrcImpl.Alike {A B : Type} (S : SrcImpl A) (T : SrcImpl B) (R : A → B → Prop) : Prop where
  view : ∀ a b, R a b → RefView.Same R (S.view a) (T.view b)
  any : ∀ a b, R a b → S.any a = T.any b
  toValue : ∀ a b, R a b → S.toValue a = T.toValue b

/-- `a` looks like `b`: the same answers, whose parts cannot be told apart, the same `Value`, and both
or neither the same number, string or other scalar. They may be of different types: one hand-written,
the other derived. -/
structure SrcImpl.Looks {A B : Type} (S : SrcImpl A) (T : SrcImpl B) (R : A → B → Prop) (a : A)
    (b : B) : Prop where
  view : RefView.Same R (S.view a) (T.view b)
  toValue : S.toValue a = T.toValue b
  scalar : ∀ k, S.down a (.scalar k) = T.down b (.scalar k)
  nonzero : ∀ k, S.down a (.nonzero k) = T.down b (.nonzero k)

end Mirror
