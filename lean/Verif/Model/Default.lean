import Verif.Model.TypeInfo

/-!
# Default values

`default_value` and `has_default_value` of the views in type_info/mod.rs.
-/

namespace Mirror

/-- The default of each scalar type (type_info/mod.rs:637-656). -/
def ScalarKind.default : ScalarKind → Scalar
  | .int k => .int k 0
  | .bool => .bool false
  | .char => .char (Char.ofNat 0)
  | .f32 => .f32 0#32
  | .f64 => .f64 0#64
  | .string => .string ""

/-- `for field in ... { value.push_field(field.get_type().default_value()?) }` (type_info/mod.rs:769-771,
824-826, 1149-1151; the loop over `0..len` of 1265-1267 with the element type repeated). `f` is the
recursive call. The outer option is `none` if a call does not return. -/
def defaultPos (f : Ty → Option (Option Value)) : List Ty → Option (Option (List Value))
  | [] => some (some [])
  | t :: ts =>
    match f t with
    | none => none
    | some none => some none
    | some (some v) => (defaultPos f ts).map (Option.map (v :: ·))

/-- `for field in self.field_types() { value.set_field(field.name(), field.get_type().default_value()?) }`
(type_info/mod.rs:714-716, 1093-1095). `field_types` panics if a name is missing. -/
def defaultNamed (f : Ty → Option (Option Value)) :
    List (String × Option Ty) → Option (Option (List (String × Value)))
  | [] => some (some [])
  | (_, none) :: _ => none
  | (n, some t) :: ts =>
    match f t with
    | none => none
    | some none => some none
    | some (some v) => (defaultNamed f ts).map (Option.map ((n, v) :: ·))

/-- `Variant::default_value` (type_info/mod.rs:968-974, 1091-1097, 1147-1153, 1184-1186). -/
def defaultVariant (f : Ty → Option (Option Value)) : VariantNode → Option (Option Value)
  | .struct n names fields => (defaultNamed f (namedTypes names fields)).map
      (Option.map fun l => .enumS n (svOfList l).1 (svOfList l).2)
  | .tuple n fields => (defaultPos f fields).map (Option.map (.enumT n))
  | .unit n => some (some (.enumU n))

/-- `Type::default_value` on the type with the given id (type_info/mod.rs:305-317, 712-718, 767-773,
822-828, 886-890, 1263-1269, 1302-1304, 1341-1343, 1372-1374). The first argument bounds the call depth;
`none` means that it was exceeded, or a panic. The opaque types of the model have no `default_value` in
their node (via_scalar.rs:22, value.rs:187, ...). -/
def defaultValue (g : TypeGraph) : Nat → Ty → Option (Option Value)
  | 0, _ => none
  | fuel + 1, id =>
    match g.node id with
    | none => none
    | some (.struct names fields) => (defaultNamed (defaultValue g fuel) (namedTypes names fields)).map
        (Option.map fun l => .struct (svOfList l).1 (svOfList l).2)
    | some (.tupleStruct fields) => (defaultPos (defaultValue g fuel) fields).map (Option.map .tupleStruct)
    | some (.tuple fields) => (defaultPos (defaultValue g fuel) fields).map (Option.map .tuple)
    | some (.enum []) => some none
    | some (.enum (v :: _)) => defaultVariant (defaultValue g fuel) v
    | some (.list _) => some (some (.list []))
    | some (.array el len) => (defaultPos (defaultValue g fuel) (List.replicate len el)).map
        (Option.map .list)
    | some (.map _ _) => some (some (.map []))
    | some (.scalar k) => some (some (.scalar k.default))
    | some .opaque => some none

/-- `fields.all(|field| field.get_type().has_default_value())`. -/
def hasPos (f : Ty → Option Bool) : List Ty → Option Bool
  | [] => some true
  | t :: ts =>
    match f t with
    | none => none
    | some false => some false
    | some true => hasPos f ts

/-- The same over named fields. -/
def hasNamed (f : Ty → Option Bool) : List (String × Option Ty) → Option Bool
  | [] => some true
  | (_, none) :: _ => none
  | (_, some t) :: ts =>
    match f t with
    | none => none
    | some false => some false
    | some true => hasNamed f ts

/-- `Variant::has_default_value` (type_info/mod.rs:976-982, 1099-1102, 1155-1158, 1188-1190). -/
def hasVariant (f : Ty → Option Bool) : VariantNode → Option Bool
  | .struct _ names fields => hasNamed f (namedTypes names fields)
  | .tuple _ fields => hasPos f fields
  | .unit _ => some true

/-- `Type::has_default_value` (type_info/mod.rs:319-331, 720-723, 775-778, 830-833, 892-897, 1271-1273,
1306-1308, 1345-1347, 1376-1378). -/
def hasDefault (g : TypeGraph) : Nat → Ty → Option Bool
  | 0, _ => none
  | fuel + 1, id =>
    match g.node id with
    | none => none
    | some (.struct names fields) => hasNamed (hasDefault g fuel) (namedTypes names fields)
    | some (.tupleStruct fields) => hasPos (hasDefault g fuel) fields
    | some (.tuple fields) => hasPos (hasDefault g fuel) fields
    | some (.enum []) => some false
    | some (.enum (v :: _)) => hasVariant (hasDefault g fuel) v
    | some (.list _) => some true
    | some (.array el _) => hasDefault g fuel el
    | some (.map _ _) => some true
    | some (.scalar _) => some true
    | some .opaque => some false

end Mirror
