import Verif.Model.Default
import Verif.Model.SerdeType

/-!
# Default values of any descriptor

`default_value` and `has_default_value` (type_info/mod.rs) on a graph with all the data of its nodes,
whether it was built or read: ids without a node, listed names without a field, keys other than the name
in their field, opaque types with a default, and cycles are all possible. A panic is told apart from not
returning.
-/

namespace Mirror

/-- What a call that returns or panics comes to. -/
inductive Ends (α : Type)
  | ok (a : α)
  | panic
  deriving Inhabited

/-- `TypeGraph::get` (graph.rs:63-66); `none` is the panic of its `expect`s. -/
def WireDescriptor.node (x : WireDescriptor) (i : WireId) : Option WireNode :=
  match bmGet compare i x.graph with
  | some (some n) => some n
  | _ => none

/-- The `unwrap`ped lookups of `field_types` of structs and struct variants, which the loops over it do
one at a time (type_info/mod.rs:674-682, 1057-1065). -/
def wireFieldTypes (names : List String) (fields : List (String × WireNamed)) : List (Option WireNamed) :=
  names.map fun n => bmGet strCmp n fields

/-- `for field in self.field_types() { value.push_field(field.get_type().default_value()?) }`
(type_info/mod.rs:767-773, 822-828, 1147-1153) and the loop of arrays (1265-1267). `f` is the recursive
call; the outer option is `none` if it does not return. -/
def wireDefaultPos (f : WireId → Option (Ends (Option Value))) :
    List WireId → Option (Ends (Option (List Value)))
  | [] => some (.ok (some []))
  | i :: is =>
    match f i with
    | none => none
    | some .panic => some .panic
    | some (.ok none) => some (.ok none)
    | some (.ok (some v)) =>
      match wireDefaultPos f is with
      | none => none
      | some .panic => some .panic
      | some (.ok none) => some (.ok none)
      | some (.ok (some vs)) => some (.ok (some (v :: vs)))

/-- `for field in self.field_types() { value.set_field(field.name(), field.get_type().default_value()?) }`
(type_info/mod.rs:712-718, 1091-1097), whose name is that of the field, not the one it is listed under
(1216-1218). The `unwrap` panics when the loop gets to a name without a field. -/
def wireDefaultNamed (f : WireId → Option (Ends (Option Value))) :
    List (Option WireNamed) → Option (Ends (Option (List (String × Value))))
  | [] => some (.ok (some []))
  | none :: _ => some .panic
  | some d :: ds =>
    match f d.id with
    | none => none
    | some .panic => some .panic
    | some (.ok none) => some (.ok none)
    | some (.ok (some v)) =>
      match wireDefaultNamed f ds with
      | none => none
      | some .panic => some .panic
      | some (.ok none) => some (.ok none)
      | some (.ok (some vs)) => some (.ok (some ((d.name, v) :: vs)))

/-- `.to_value()` of what the loop put together. -/
def Ends.wrap {α β : Type} (mk : α → β) : Option (Ends (Option α)) → Option (Ends (Option β))
  | none => none
  | some .panic => some .panic
  | some (.ok none) => some (.ok none)
  | some (.ok (some a)) => some (.ok (some (mk a)))

/-- `Variant::default_value` (type_info/mod.rs:968-974, 1091-1097, 1147-1153, 1184-1186). -/
def wireDefaultVariant (f : WireId → Option (Ends (Option Value))) :
    WireVariant → Option (Ends (Option Value))
  | .struct v => Ends.wrap (fun l => .enumS v.name (svOfList l).1 (svOfList l).2)
      (wireDefaultNamed f (wireFieldTypes v.fieldNames v.fields))
  | .tuple v => Ends.wrap (.enumT v.name) (wireDefaultPos f (v.fields.map (·.id)))
  | .unit v => some (.ok (some (.enumU v.name)))

/-- `Type::new` and then `Type::default_value` (type_info/mod.rs:112-114, 120-122, 305-317, 712-718, 767-773,
822-828, 886-890, 1263-1269, 1302-1304, 1341-1343, 1372-1374). `fuel` bounds the call depth; `none` means
that it was exceeded. `cap` is the largest number of `Value`s a `Vec` can be asked to hold:
`Vec::with_capacity` panics beyond that. Running out of memory below it is not modelled. -/
def wireDefault (cap : Nat) (x : WireDescriptor) : Nat → WireId → Option (Ends (Option Value))
  | 0, _ => none
  | fuel + 1, i =>
    match x.node i with
    | none => some .panic
    | some (.struct n) => Ends.wrap (fun l => .struct (svOfList l).1 (svOfList l).2)
        (wireDefaultNamed (wireDefault cap x fuel) (wireFieldTypes n.fieldNames n.fields))
    | some (.tupleStruct n) => Ends.wrap .tupleStruct
        (wireDefaultPos (wireDefault cap x fuel) (n.fields.map (·.id)))
    | some (.tuple n) => Ends.wrap .tuple (wireDefaultPos (wireDefault cap x fuel) (n.fields.map (·.id)))
    | some (.enum n) =>
      match n.variants with
      | [] => some (.ok none)
      | v :: _ => wireDefaultVariant (wireDefault cap x fuel) v
    | some (.list _) => some (.ok (some (.list [])))
    | some (.array n) =>
      if n.len ≤ cap then
        Ends.wrap .list (wireDefaultPos (wireDefault cap x fuel) (List.replicate n.len n.elem))
      else some .panic
    | some (.map _) => some (.ok (some (.map [])))
    | some (.scalar k) => some (.ok (some (.scalar k.default)))
    | some (.opaque n) => some (.ok n.defaultValue)

/-- `self.field_types().all(|field| field.get_type().has_default_value())` over positional fields
(type_info/mod.rs:775-778, 830-833, 1155-1158). -/
def wireHasPos (f : WireId → Option (Ends Bool)) : List WireId → Option (Ends Bool)
  | [] => some (.ok true)
  | i :: is =>
    match f i with
    | none => none
    | some .panic => some .panic
    | some (.ok false) => some (.ok false)
    | some (.ok true) => wireHasPos f is

/-- The same over named fields (type_info/mod.rs:720-723, 1099-1102). -/
def wireHasNamed (f : WireId → Option (Ends Bool)) : List (Option WireNamed) → Option (Ends Bool)
  | [] => some (.ok true)
  | none :: _ => some .panic
  | some d :: ds =>
    match f d.id with
    | none => none
    | some .panic => some .panic
    | some (.ok false) => some (.ok false)
    | some (.ok true) => wireHasNamed f ds

/-- `Variant::has_default_value` (type_info/mod.rs:976-982, 1099-1102, 1155-1158, 1188-1190). -/
def wireHasVariant (f : WireId → Option (Ends Bool)) : WireVariant → Option (Ends Bool)
  | .struct v => wireHasNamed f (wireFieldTypes v.fieldNames v.fields)
  | .tuple v => wireHasPos f (v.fields.map (·.id))
  | .unit _ => some (.ok true)

/-- `Type::new` and then `Type::has_default_value` (type_info/mod.rs:112-114, 124-126, 319-331, 720-723,
775-778, 830-833, 892-897, 1271-1273, 1306-1308, 1345-1347, 1376-1378). -/
def wireHas (x : WireDescriptor) : Nat → WireId → Option (Ends Bool)
  | 0, _ => none
  | fuel + 1, i =>
    match x.node i with
    | none => some .panic
    | some (.struct n) => wireHasNamed (wireHas x fuel) (wireFieldTypes n.fieldNames n.fields)
    | some (.tupleStruct n) => wireHasPos (wireHas x fuel) (n.fields.map (·.id))
    | some (.tuple n) => wireHasPos (wireHas x fuel) (n.fields.map (·.id))
    | some (.enum n) =>
      match n.variants with
      | [] => some (.ok false)
      | v :: _ => wireHasVariant (wireHas x fuel) v
    | some (.list _) => some (.ok true)
    | some (.array n) => wireHas x fuel n.elem
    | some (.map _) => some (.ok true)
    | some (.scalar _) => some (.ok true)
    | some (.opaque n) => some (.ok n.defaultValue.isSome)

end Mirror
