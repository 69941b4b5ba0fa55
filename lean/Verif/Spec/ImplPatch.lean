import Verif.Model.Impl

/-!
# Specification: the kind of thing a value shows itself as
-/

namespace Mirror

/-- Which variant of `ReflectRef` `reflect_ref` answers with. -/
def RefView.kind {A : Type} : RefView A → Kind
  | .scalar _ => .scalar
  | .struct .. => .struct
  | .tupleStruct .. => .tupleStruct
  | .tuple .. => .tuple
  | .enum .. => .enum
  | .array .. => .array
  | .list .. => .list
  | .map .. => .map
  | .opaque => .opaque

end Mirror
