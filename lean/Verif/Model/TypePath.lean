import Verif.Model.TypeInfo
import Verif.Model.Path

/-!
# Type paths

`GetTypePath::type_at` (type_info/mod.rs:1545-1658).
-/

namespace Mirror

/-- `TypeAtPath` (type_info/mod.rs:1382-1394): a type, given by its id and its node, or a variant of an
enum. -/
inductive TypeAt
  | ty (id : Ty) (node : TypeNode)
  | variant (v : VariantNode)
  deriving Inhabited

/-- `Type::new` (type_info/mod.rs:195-275), then `into_type_info_at_path` (mod.rs:291-303): `none` is the
panic of `TypeGraph::get`. -/
def TypeAt.new (g : TypeGraph) (id : Ty) : Option TypeAt := (g.node id).map (.ty id)

/-- The type with a given id if there is an id: `field_type(..)?.into_type_info_at_path()`. The outer
option is `none` on panic, the inner one is the result. -/
def TypeAt.newOpt (g : TypeGraph) : Option Ty → Option (Option TypeAt)
  | none => some none
  | some id => (TypeAt.new g id).map some

/-- One step of `type_at` (type_info/mod.rs:1553-1643). -/
def TypeAt.atKey (g : TypeGraph) (ta : TypeAt) : Key → Option (Option TypeAt)
  | .named n =>
    match ta with
    | .ty _ (.struct _ fields) => TypeAt.newOpt g (namedType fields n)
    | .variant (.struct _ _ fields) => TypeAt.newOpt g (namedType fields n)
    | _ => some none
  | .numbered i =>
    match ta with
    | .ty _ (.tupleStruct fields) => TypeAt.newOpt g fields[i]?
    | .ty _ (.tuple fields) => TypeAt.newOpt g fields[i]?
    | .variant (.tuple _ fields) => TypeAt.newOpt g fields[i]?
    | _ => some none
  | .get v =>
    match ta with
    | .ty _ (.map _ val) => TypeAt.newOpt g (some val)
    | .ty _ (.list el) => if (valueToUsize v).isSome then TypeAt.newOpt g (some el) else some none
    | .ty _ (.array el _) => if (valueToUsize v).isSome then TypeAt.newOpt g (some el) else some none
    | _ => some none
  | .variant v =>
    match ta with
    | .ty _ (.enum vs) => some ((findVariant vs v).map .variant)
    | .variant w => some (if w.name = v then some (.variant w) else none)
    | _ => some none

/-- The inner function of `type_at` (type_info/mod.rs:1547-1650). -/
def typeAtGo (g : TypeGraph) (ta : TypeAt) : List Key → Option (Option TypeAt)
  | [] => some none
  | k :: r =>
    match ta.atKey g k with
    | none => none
    | some none => some none
    | some (some x) =>
      match r with
      | [] => some (some x)
      | k' :: r' => typeAtGo g x (k' :: r')

/-- `TypeAtPath::type_at` (type_info/mod.rs:1546-1657). -/
def TypeAt.typeAt (g : TypeGraph) (ta : TypeAt) (p : KeyPath) : Option (Option TypeAt) :=
  if KeyPath.isEmpty p then some (some ta) else typeAtGo g ta p

/-- `TypeDescriptor::type_at` (type_info/mod.rs:165-169, 428-432). -/
def TypeDescriptor.typeAt (d : TypeDescriptor) (p : KeyPath) : Option (Option TypeAt) :=
  match TypeAt.new d.graph d.root with
  | none => none
  | some ta => ta.typeAt d.graph p

end Mirror
