import Verif.Model.Serde
import Verif.Model.TypeView

/-!
# Serialising type descriptors with serde

`TypeDescriptor`, `TypeGraph` and every node type of graph.rs derive `serde::Serialize` and
`Deserialize` without attributes. The nodes are written out here with all their fields; what the
derives do with them is put together from what serde does for the types of the fields.
-/

namespace Mirror

/-! ## The nodes, with all their fields -/

/-- `NodeId` (graph.rs:16-19), a `u64`. -/
abbrev WireId := Nat

/-- `BTreeMap<String, Value>`: metadata (graph.rs:132). -/
abbrev WireMeta := List (String × Value)

/-- `NamedFieldNode` (graph.rs:345-350). -/
structure WireNamed where
  name : String
  id : WireId
  metadata : WireMeta
  docs : List String
  deriving Inhabited

/-- `UnnamedFieldNode` (graph.rs:374-378). -/
structure WireUnnamed where
  id : WireId
  metadata : WireMeta
  docs : List String
  deriving Inhabited

/-- `StructNode` (graph.rs:128-134). -/
structure WireStruct where
  typeName : String
  fields : List (String × WireNamed)
  fieldNames : List String
  metadata : WireMeta
  docs : List String
  deriving Inhabited

/-- `TupleStructNode` and `TupleNode` (graph.rs:172-177,317-322), whose fields are the same. -/
structure WireTuple where
  typeName : String
  fields : List WireUnnamed
  metadata : WireMeta
  docs : List String
  deriving Inhabited

/-- `StructVariantNode` (graph.rs:237-243). -/
structure WireStructVariant where
  name : String
  fields : List (String × WireNamed)
  fieldNames : List String
  metadata : WireMeta
  docs : List String
  deriving Inhabited

/-- `TupleVariantNode` (graph.rs:268-273). -/
structure WireTupleVariant where
  name : String
  fields : List WireUnnamed
  metadata : WireMeta
  docs : List String
  deriving Inhabited

/-- `UnitVariantNode` (graph.rs:294-298). -/
structure WireUnitVariant where
  name : String
  metadata : WireMeta
  docs : List String
  deriving Inhabited

/-- `VariantNode` (graph.rs:228-232). -/
inductive WireVariant
  | struct (v : WireStructVariant)
  | tuple (v : WireTupleVariant)
  | unit (v : WireUnitVariant)
  deriving Inhabited

/-- `EnumNode` (graph.rs:200-205). -/
structure WireEnum where
  typeName : String
  variants : List WireVariant
  metadata : WireMeta
  docs : List String
  deriving Inhabited

/-- `ArrayNode` (graph.rs:400-404). -/
structure WireArray where
  typeName : String
  elem : WireId
  len : Nat
  deriving Inhabited

/-- `ListNode` (graph.rs:423-426). -/
structure WireList where
  typeName : String
  elem : WireId
  deriving Inhabited

/-- `MapNode` (graph.rs:444-448). -/
structure WireMap where
  typeName : String
  key : WireId
  val : WireId
  deriving Inhabited

/-- `OpaqueNode` (graph.rs:510-514). -/
structure WireOpaque where
  typeName : String
  metadata : WireMeta
  defaultValue : Option Value
  deriving Inhabited

/-- `TypeNode` (graph.rs:93-103); `ScalarNode` (graph.rs:469-486) has one unit variant for every
kind of scalar. -/
inductive WireNode
  | struct (n : WireStruct)
  | tupleStruct (n : WireTuple)
  | tuple (n : WireTuple)
  | enum (n : WireEnum)
  | list (n : WireList)
  | array (n : WireArray)
  | map (n : WireMap)
  | scalar (k : ScalarKind)
  | opaque (n : WireOpaque)
  deriving Inhabited

/-- `TypeDescriptor` (type_info/mod.rs:102-105) with its `TypeGraph` (graph.rs:58-60): the root and
the map from ids to nodes, a `None` being a placeholder. -/
structure WireDescriptor where
  root : WireId
  graph : List (WireId × Option WireNode)
  deriving Inhabited

/-! ## Writing and reading, by the types of the fields -/

/-- The `Serialize` and `Deserialize` implementations of a type. -/
structure Codec (α : Type) where
  ser : α → Data
  de : Data → Option α

/-- `String` (the fields of graph.rs:129). -/
def Codec.str : Codec String := ⟨.str, deStr⟩

/-- `NodeId`, a newtype struct around a `u64` (graph.rs:19), and the `usize` of `ArrayNode::len`
(graph.rs:403), which is written as a `u64`. Simplification: a newtype struct is transparent, as it
is in serde's formats unless they mark it. -/
def Codec.nat64 : Codec Nat :=
  ⟨fun n => .int .u64 n, fun d =>
    match Scalar.de (.int .u64) d with
    | some (.int _ i) => some i.toNat
    | _ => none⟩

/-- `Value` (value.rs:38-62). -/
def Codec.value (m : VariantId) : Codec Value := ⟨Value.ser, Value.de m⟩

/-- `Vec<T>` and `Box<[T]>` (graph.rs:131,174). -/
def Codec.vec {α} (c : Codec α) : Codec (List α) :=
  ⟨fun xs => .seq (xs.map c.ser), fun d => (deSeq d).bind fun ds => optAll (ds.map c.de)⟩

/-- `BTreeMap<K, V>` (graph.rs:59,130): written in key order; read by inserting entry after entry. -/
def Codec.btree {κ α} (cmp : κ → κ → Ordering) (k : Codec κ) (c : Codec α) :
    Codec (List (κ × α)) :=
  ⟨fun xs => .map (xs.map fun p => (k.ser p.1, c.ser p.2)),
   fun d => (deMap d).bind fun ds =>
     (optAll (ds.map fun p => (k.de p.1).bind fun a => (c.de p.2).map fun b => (a, b))).map
       (bmOfList cmp)⟩

/-- `Option<T>` (graph.rs:59,513). -/
def Codec.option {α} (c : Codec α) : Codec (Option α) :=
  ⟨fun | none => .none | some a => .some (c.ser a),
   fun | .none => some none | .some d => (c.de d).map some | _ => none⟩

/-- How the fields of a struct are written (names and data in order), read from named data, and read
by position. -/
structure Fields (α : Type) where
  names : List String
  ser : α → List (String × Data)
  deNamed : List (String × Data) → Option α
  dePos : List Data → Option α

/-- The last field of a struct. -/
def Fields.one {α} (n : String) (c : Codec α) : Fields α where
  names := [n]
  ser a := [(n, c.ser a)]
  deNamed fs := (deField n fs).bind c.de
  dePos
    | [d] => c.de d
    | _ => none

/-- The last field of a struct when it is an `Option`: absent from named data it is read as `None`. -/
def Fields.oneOption {α} (n : String) (c : Codec α) : Fields (Option α) where
  names := [n]
  ser a := [(n, c.option.ser a)]
  deNamed fs :=
    if fs.all fun p => p.1 != n then some none else (deField n fs).bind c.option.de
  dePos
    | [d] => c.option.de d
    | _ => none

/-- One more field in front. -/
def Fields.cons {α β} (n : String) (c : Codec α) (f : Fields β) : Fields (α × β) where
  names := n :: f.names
  ser a := (n, c.ser a.1) :: f.ser a.2
  deNamed fs := ((deField n fs).bind c.de).bind fun a => (f.deNamed fs).map fun b => (a, b)
  dePos
    | [] => none
    | d :: ds => (c.de d).bind fun a => (f.dePos ds).map fun b => (a, b)

/-- A struct with these fields: read from named data (`visit_map`) or by position (`visit_seq`). -/
def Fields.struct {α β} (f : Fields α) (mk : α → β) (un : β → α) : Codec β :=
  ⟨fun b => .struct (f.ser (un b)), fun d =>
    match d with
    | .struct fs => (f.deNamed fs).map mk
    | .seq ds => (f.dePos ds).map mk
    | _ => none⟩

/-! ## The derives of graph.rs -/

/-- The metadata of a node (graph.rs:132). -/
def Codec.metadata (m : VariantId) : Codec WireMeta := .btree strCmp .str (.value m)

/-- A sequence of strings: docs and field names (graph.rs:131,133). -/
def Codec.strs : Codec (List String) := .vec .str

/-- Derives of `NamedFieldNode` (graph.rs:342-350). -/
def WireNamed.codec (m : VariantId) : Codec WireNamed :=
  ((Fields.one "docs" .strs).cons "metadata" (.metadata m) |>.cons "id" .nat64 |>.cons "name" .str).struct
    (fun (a, b, c, d) => ⟨a, b, c, d⟩) (fun x => (x.name, x.id, x.metadata, x.docs))

/-- Derives of `UnnamedFieldNode` (graph.rs:371-378). -/
def WireUnnamed.codec (m : VariantId) : Codec WireUnnamed :=
  ((Fields.one "docs" .strs).cons "metadata" (.metadata m) |>.cons "id" .nat64).struct
    (fun (a, b, c) => ⟨a, b, c⟩) (fun x => (x.id, x.metadata, x.docs))

/-- `BTreeMap<String, NamedFieldNode>` (graph.rs:130,239). -/
def Codec.namedFields (m : VariantId) : Codec (List (String × WireNamed)) :=
  .btree strCmp .str (WireNamed.codec m)

/-- Derives of `StructNode` (graph.rs:125-134). -/
def WireStruct.codec (m : VariantId) : Codec WireStruct :=
  ((Fields.one "docs" .strs).cons "metadata" (.metadata m) |>.cons "field_names" .strs
    |>.cons "fields" (.namedFields m) |>.cons "type_name" .str).struct
    (fun (a, b, c, d, e) => ⟨a, b, c, d, e⟩)
    (fun x => (x.typeName, x.fields, x.fieldNames, x.metadata, x.docs))

/-- Derives of `TupleStructNode` and `TupleNode` (graph.rs:169-177,314-322). -/
def WireTuple.codec (m : VariantId) : Codec WireTuple :=
  ((Fields.one "docs" .strs).cons "metadata" (.metadata m)
    |>.cons "fields" (.vec (WireUnnamed.codec m)) |>.cons "type_name" .str).struct
    (fun (a, b, c, d) => ⟨a, b, c, d⟩) (fun x => (x.typeName, x.fields, x.metadata, x.docs))

/-- Derives of `StructVariantNode` (graph.rs:234-243). -/
def WireStructVariant.codec (m : VariantId) : Codec WireStructVariant :=
  ((Fields.one "docs" .strs).cons "metadata" (.metadata m) |>.cons "field_names" .strs
    |>.cons "fields" (.namedFields m) |>.cons "name" .str).struct
    (fun (a, b, c, d, e) => ⟨a, b, c, d, e⟩)
    (fun x => (x.name, x.fields, x.fieldNames, x.metadata, x.docs))

/-- Derives of `TupleVariantNode` (graph.rs:265-273). -/
def WireTupleVariant.codec (m : VariantId) : Codec WireTupleVariant :=
  ((Fields.one "docs" .strs).cons "metadata" (.metadata m)
    |>.cons "fields" (.vec (WireUnnamed.codec m)) |>.cons "name" .str).struct
    (fun (a, b, c, d) => ⟨a, b, c, d⟩) (fun x => (x.name, x.fields, x.metadata, x.docs))

/-- Derives of `UnitVariantNode` (graph.rs:291-298). -/
def WireUnitVariant.codec (m : VariantId) : Codec WireUnitVariant :=
  ((Fields.one "docs" .strs).cons "metadata" (.metadata m) |>.cons "name" .str).struct
    (fun (a, b, c) => ⟨a, b, c⟩) (fun x => (x.name, x.metadata, x.docs))

/-- Derives of `VariantNode` (graph.rs:225-232). -/
def WireVariant.codec (m : VariantId) : Codec WireVariant where
  ser
    | .struct v => .newtype 0 "Struct" ((WireStructVariant.codec m).ser v)
    | .tuple v => .newtype 1 "Tuple" ((WireTupleVariant.codec m).ser v)
    | .unit v => .newtype 2 "Unit" ((WireUnitVariant.codec m).ser v)
  de d :=
    match deEnum m ["Struct", "Tuple", "Unit"] d with
    | some (0, some c) => ((WireStructVariant.codec m).de c).map .struct
    | some (1, some c) => ((WireTupleVariant.codec m).de c).map .tuple
    | some (2, some c) => ((WireUnitVariant.codec m).de c).map .unit
    | _ => none

/-- Derives of `EnumNode` (graph.rs:197-205). -/
def WireEnum.codec (m : VariantId) : Codec WireEnum :=
  ((Fields.one "docs" .strs).cons "metadata" (.metadata m)
    |>.cons "variants" (.vec (WireVariant.codec m)) |>.cons "type_name" .str).struct
    (fun (a, b, c, d) => ⟨a, b, c, d⟩) (fun x => (x.typeName, x.variants, x.metadata, x.docs))

/-- Derives of `ArrayNode` (graph.rs:397-404). -/
def WireArray.codec : Codec WireArray :=
  ((Fields.one "len" .nat64).cons "field_type_id" .nat64 |>.cons "type_name" .str).struct
    (fun (a, b, c) => ⟨a, b, c⟩) (fun x => (x.typeName, x.elem, x.len))

/-- Derives of `ListNode` (graph.rs:420-426). -/
def WireList.codec : Codec WireList :=
  ((Fields.one "field_type_id" .nat64).cons "type_name" .str).struct
    (fun (a, b) => ⟨a, b⟩) (fun x => (x.typeName, x.elem))

/-- Derives of `MapNode` (graph.rs:441-448). -/
def WireMap.codec : Codec WireMap :=
  ((Fields.one "value_type_id" .nat64).cons "key_type_id" .nat64 |>.cons "type_name" .str).struct
    (fun (a, b, c) => ⟨a, b, c⟩) (fun x => (x.typeName, x.key, x.val))

/-- Derives of `OpaqueNode` (graph.rs:507-514). -/
def WireOpaque.codec (m : VariantId) : Codec WireOpaque :=
  ((Fields.oneOption "default_value" (.value m)).cons "metadata" (.metadata m)
    |>.cons "type_name" .str).struct
    (fun (a, b, c) => ⟨a, b, c⟩) (fun x => (x.typeName, x.metadata, x.defaultValue))

/-- The variants of `ScalarNode` (graph.rs:469-486), in order. -/
def scalarNodeVariants : List String :=
  ["usize", "u8", "u16", "u32", "u64", "u128", "i8", "i16", "i32", "i64", "i128", "bool", "char",
   "f32", "f64", "String"]

/-- Derives of `ScalarNode` (graph.rs:464-486): unit variants. -/
def scalarCodec (m : VariantId) : Codec ScalarKind where
  ser k := .unit k.idx k.variantName
  de d :=
    match deEnum m scalarNodeVariants d with
    | some (i, none) => ScalarKind.ofIdx i
    | _ => none

/-- The variants of `TypeNode` (graph.rs:93-103), in order. -/
def typeNodeVariants : List String :=
  ["Struct", "TupleStruct", "Tuple", "Enum", "List", "Array", "Map", "Scalar", "Opaque"]

/-- Derives of `TypeNode` (graph.rs:90-103). -/
def WireNode.codec (m : VariantId) : Codec WireNode where
  ser
    | .struct n => .newtype 0 "Struct" ((WireStruct.codec m).ser n)
    | .tupleStruct n => .newtype 1 "TupleStruct" ((WireTuple.codec m).ser n)
    | .tuple n => .newtype 2 "Tuple" ((WireTuple.codec m).ser n)
    | .enum n => .newtype 3 "Enum" ((WireEnum.codec m).ser n)
    | .list n => .newtype 4 "List" (WireList.codec.ser n)
    | .array n => .newtype 5 "Array" (WireArray.codec.ser n)
    | .map n => .newtype 6 "Map" (WireMap.codec.ser n)
    | .scalar k => .newtype 7 "Scalar" ((scalarCodec m).ser k)
    | .opaque n => .newtype 8 "Opaque" ((WireOpaque.codec m).ser n)
  de d :=
    match deEnum m typeNodeVariants d with
    | some (0, some c) => ((WireStruct.codec m).de c).map .struct
    | some (1, some c) => ((WireTuple.codec m).de c).map .tupleStruct
    | some (2, some c) => ((WireTuple.codec m).de c).map .tuple
    | some (3, some c) => ((WireEnum.codec m).de c).map .enum
    | some (4, some c) => (WireList.codec.de c).map .list
    | some (5, some c) => (WireArray.codec.de c).map .array
    | some (6, some c) => (WireMap.codec.de c).map .map
    | some (7, some c) => ((scalarCodec m).de c).map .scalar
    | some (8, some c) => ((WireOpaque.codec m).de c).map .opaque
    | _ => none

/-- Derives of `TypeGraph` (graph.rs:55-60): a struct of one map, by ascending id. -/
def wireGraphCodec (m : VariantId) : Codec (List (WireId × Option WireNode)) :=
  (Fields.one "map" (.btree compare .nat64 (WireNode.codec m).option)).struct id id

/-- Derives of `TypeDescriptor` (type_info/mod.rs:99-105). -/
def WireDescriptor.codec (m : VariantId) : Codec WireDescriptor :=
  ((Fields.one "graph" (wireGraphCodec m)).cons "root" .nat64).struct
    (fun (a, b) => ⟨a, b⟩) (fun x => (x.root, x.graph))

/-! ## Navigating what was read -/

/-- The part of a variant node that navigation looks at (graph.rs:228-298). -/
def WireVariant.nav (e : WireId → Ty) : WireVariant → VariantNode
  | .struct v => .struct v.name v.fieldNames (v.fields.map fun p => (p.1, e p.2.id))
  | .tuple v => .tuple v.name (v.fields.map fun f => e f.id)
  | .unit v => .unit v.name

/-- The part of a node that navigation looks at (graph.rs:93-103). -/
def WireNode.nav (e : WireId → Ty) : WireNode → TypeNode
  | .struct n => .struct n.fieldNames (n.fields.map fun p => (p.1, e p.2.id))
  | .tupleStruct n => .tupleStruct (n.fields.map fun f => e f.id)
  | .tuple n => .tuple (n.fields.map fun f => e f.id)
  | .enum n => .enum (n.variants.map (WireVariant.nav e))
  | .list n => .list (e n.elem)
  | .array n => .array (e n.elem) n.len
  | .map n => .map (e n.key) (e n.val)
  | .scalar k => .scalar k
  | .opaque _ => .opaque

/-- The navigation model identifies nodes by types instead of numbers; this stands for the id `n`. -/
def wireTy (n : WireId) : Ty := .array (.scalar .bool) n

/-- The graph of a descriptor that was read (type_info/mod.rs:112-114 and the views navigate it). -/
def WireDescriptor.navGraph (x : WireDescriptor) : TypeGraph
  | .array (.scalar .bool) n => (bmGet compare n x.graph).map (Option.map (WireNode.nav wireTy))
  | _ => none

/-- A descriptor that was read, for navigation (type_info/mod.rs:102-105). -/
def WireDescriptor.nav (x : WireDescriptor) : TypeDescriptor := ⟨wireTy x.root, x.navGraph⟩

end Mirror
