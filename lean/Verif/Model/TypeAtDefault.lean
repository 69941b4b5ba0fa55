import Verif.Model.TypePath
import Verif.Model.Default

/-!
# Defaults of the types found by a path

`TypeAtPath::default_value` and `TypeAtPath::has_default_value`.
-/

namespace Mirror

/-- `TypeAtPath::default_value` (type_info/mod.rs:1429-1442). For a type it is `Type::default_value`, looked
up by id; the node that `TypeAt` carries is the one of that id (`TypeAt.new`). -/
def TypeAt.defaultValue (g : TypeGraph) (fuel : Nat) : TypeAt → Option (Option Value)
  | .ty id _ => Mirror.defaultValue g fuel id
  | .variant v => defaultVariant (Mirror.defaultValue g fuel) v

/-- `TypeAtPath::has_default_value` (type_info/mod.rs:1444-1457). -/
def TypeAt.hasDefault (g : TypeGraph) (fuel : Nat) : TypeAt → Option Bool
  | .ty id _ => Mirror.hasDefault g fuel id
  | .variant v => hasVariant (Mirror.hasDefault g fuel) v

end Mirror
