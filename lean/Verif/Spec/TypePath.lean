import Verif.Model.TypePath
import Verif.Spec.TypeInfo
import Verif.Spec.Path

/-!
# Specification: values and what `type_at` says about them
-/

namespace Mirror

/-- `y` is what the result of `type_at` promises: a value of the type, or a value of an enum that is in
the variant of that name and kind. -/
inductive IsA (E : Env) : TypeAt → Obj → Prop
  | ty (t n y) : HasTy E t y → IsA E (.ty t n) y
  | variant (v : VariantNode) (n y) : HasTy E (.named n) y → y.variantName = some v.name →
      y.variantKind = some (match v with | .struct .. => .struct | .tuple .. => .tuple | .unit _ => .unit) →
      IsA E (.variant v) y

/-- The path spells out variants: whenever it enters a field of an enum, the key before names the
variant. -/
inductive SpelledOut (E : Env) : Bool → Obj → KeyPath → Prop
  | nil (b o) : SpelledOut E b o []
  | variant (b o x v p) : o.atKey E (.variant v) = some x → SpelledOut E true x p →
      SpelledOut E b o (.variant v :: p)
  | other (b o x k p) : (∀ v, k ≠ .variant v) → (o.kind = .enum → b = true) → o.atKey E k = some x →
      SpelledOut E false x p → SpelledOut E b o (k :: p)

/-- Wherever the path takes the field at an index, the fields at all smaller indices can be read as well: no
skipped field stands before it. -/
def ClearPath (E : Env) (o : Obj) (p : KeyPath) : Prop :=
  ∀ q i r z, p = q ++ .numbered i :: r → atPath E o q = some z → ∀ j < i, (z.fieldAt j).isSome = true

/-- The types whose values hold components that no type information describes. -/
def Ty.Dyn (t : Ty) : Prop :=
  t = .value ∨ t = .structValue ∨ t = .tupleStructValue ∨ t = .tupleValue ∨ t = .enumValue

/-- No dynamic type (`Value`, `StructValue`, ...) among the component types. -/
def Static (E : Env) (t : Ty) : Prop :=
  ∀ u, t.Reach E u → u ≠ .value ∧ u ≠ .structValue ∧ u ≠ .tupleStructValue ∧ u ≠ .tupleValue ∧
    u ≠ .enumValue

end Mirror
