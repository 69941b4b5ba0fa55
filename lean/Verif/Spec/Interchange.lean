import Verif.Model.Reflect

/-!
# Specification: values that `==` does not tell apart
-/

namespace Mirror

/-- `x.to_value() == y.to_value()`. -/
def SameShown (x y : Obj) : Prop := Value.beq x.toValue y.toValue = true

/-- Both calls fail, or both succeed and `==` does not tell the results apart. -/
def BothShow : Option Obj → Option Obj → Prop
  | none, none => True
  | some x, some y => SameShown x y
  | _, _ => False

end Mirror
