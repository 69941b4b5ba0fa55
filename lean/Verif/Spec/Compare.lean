import Verif.Spec.Parts
import Verif.Spec.SelfConv

/-!
# Specification: what `reflect_eq` looks at
-/

namespace Mirror

/-- What a walk with the iterators of `o` meets: the field values that `fields()` yields, the elements
of a list or array, the values (not the keys) of a map. -/
def Obj.walked : Obj → List Obj
  | .map _ _ kvs => kvs.map (·.2)
  | o => o.namedIter.map (·.2) ++ o.posIter

/-- Like `Obj.walked`, but all fields of a struct variant that are not skipped, also those after a
skipped field, where `fields()` stops. -/
def Obj.walkedAll : Obj → List Obj
  | .enumS (.derived _) _ fs => (visFields fs).map (·.2)
  | o => o.walked

/-- `P` holds of `o` and of everything met by walking into it with `next`. -/
inductive Deep (next : Obj → List Obj) (P : Obj → Prop) : Obj → Prop
  | mk (o : Obj) : P o → (∀ x ∈ next o, Deep next P x) → Deep next P o

/-- Not a NaN. -/
def Obj.NotNaN (o : Obj) : Prop := ∀ s, o.asScalar = some s → s.isNaN = false

/-- Every key of every map met converts to the key type, that is, holds no fixed-size array that the
conversion meets; and no NaN is met. -/
def Obj.EqualsItself (E : Env) : Obj → Prop :=
  Deep Obj.walked fun o => o.NotNaN ∧
    ∀ kt vt kvs, o = .map kt vt kvs → ∀ p ∈ kvs, NoArrayMet E kt p.1

/-- No NaN and no fixed-size array is met. -/
def Obj.EqualsItsValue : Obj → Prop :=
  Deep Obj.walked fun o => o.NotNaN ∧ ∀ t xs, o ≠ .array t xs

/-- No NaN and no fixed-size array is met, and no map with a key that does not survive the round trip
through `Value`, because of a skipped field before a reflected one. -/
def Obj.ItsValueEquals : Obj → Prop :=
  Deep Obj.walkedAll fun o => o.NotNaN ∧ (∀ t xs, o ≠ .array t xs) ∧
    ∀ kt vt kvs, o = .map kt vt kvs → ∀ p ∈ kvs, p.1.NoGaps

end Mirror
