import Verif.Model.WireDefault

/-!
# Comparing and hashing type descriptors

`TypeDescriptor`, `TypeGraph`, every node type of graph.rs and the views of type_info/mod.rs derive
`PartialEq`, `Eq` and `Hash`. What the derives do is put together here from what `==` and `hash` do for
the types of the fields, in the order of the fields. A hash is the sequence of writes to the `Hasher`, as
for values.
-/

namespace Mirror

/-- The `PartialEq` and `Hash` implementations of a type. -/
structure EqHash (α : Type) where
  eq : α → α → Bool
  hash : α → List HTok

/-- `String` (the fields of graph.rs:129). -/
def EqHash.str : EqHash String := ⟨fun a b => a == b, fun a => [.str a]⟩

/-- `NodeId`, a newtype struct around a `u64` (graph.rs:16,19), and the `usize` of `ArrayNode::len`
(graph.rs:403). -/
def EqHash.nat : EqHash Nat := ⟨fun a b => a == b, fun a => [.num a]⟩

/-- `Value` (value.rs:124-128, 146-153). -/
def EqHash.value : EqHash Value := ⟨Value.beq, Value.hashFeed⟩

/-- `Option<T>` (graph.rs:59,513). -/
def EqHash.option {α} (e : EqHash α) : EqHash (Option α) where
  eq
    | none, none => true
    | some a, some b => e.eq a b
    | _, _ => false
  hash
    | none => [.disc 0]
    | some a => .disc 1 :: e.hash a

/-- One field after the other: `==` stops at the first that differs, `hash` writes both. -/
def EqHash.and {α β} (e : EqHash α) (f : EqHash β) : EqHash (α × β) where
  eq a b := e.eq a.1 b.1 && f.eq a.2 b.2
  hash a := e.hash a.1 ++ f.hash a.2

/-- `==` of slices. -/
def sliceEq {α} (eq : α → α → Bool) : List α → List α → Bool
  | [], [] => true
  | a :: as, b :: bs => eq a b && sliceEq eq as bs
  | _, _ => false

/-- `Vec<T>` and `Box<[T]>` (graph.rs:131,174), and `BTreeMap<K, V>` (graph.rs:59,130) as its entries in
order: `hash` writes the length first. -/
def EqHash.vec {α} (e : EqHash α) : EqHash (List α) where
  eq := sliceEq e.eq
  hash as := .len as.length :: (as.map e.hash).flatten

/-- What a derive does for a struct with the fields `un` takes out. -/
def EqHash.of {α β} (e : EqHash β) (un : α → β) : EqHash α :=
  ⟨fun a b => e.eq (un a) (un b), fun a => e.hash (un a)⟩

/-! ## The derives of graph.rs -/

/-- The metadata of a node (graph.rs:132). -/
def EqHash.metadata : EqHash WireMeta := (EqHash.str.and .value).vec

/-- A sequence of strings: docs and field names (graph.rs:131,133). -/
def EqHash.strs : EqHash (List String) := EqHash.str.vec

/-- Derives of `NamedFieldNode` (graph.rs:342-350). -/
def WireNamed.eh : EqHash WireNamed :=
  (EqHash.str.and (EqHash.nat.and (EqHash.metadata.and .strs))).of
    fun x => (x.name, x.id, x.metadata, x.docs)

/-- Derives of `UnnamedFieldNode` (graph.rs:371-378). -/
def WireUnnamed.eh : EqHash WireUnnamed :=
  (EqHash.nat.and (EqHash.metadata.and .strs)).of fun x => (x.id, x.metadata, x.docs)

/-- `BTreeMap<String, NamedFieldNode>` (graph.rs:130,239). -/
def EqHash.namedFields : EqHash (List (String × WireNamed)) := (EqHash.str.and WireNamed.eh).vec

/-- Derives of `StructNode` (graph.rs:125-134). -/
def WireStruct.eh : EqHash WireStruct :=
  (EqHash.str.and (EqHash.namedFields.and (EqHash.strs.and (EqHash.metadata.and .strs)))).of
    fun x => (x.typeName, x.fields, x.fieldNames, x.metadata, x.docs)

/-- Derives of `TupleStructNode` and `TupleNode` (graph.rs:169-177,314-322). -/
def WireTuple.eh : EqHash WireTuple :=
  (EqHash.str.and (WireUnnamed.eh.vec.and (EqHash.metadata.and .strs))).of
    fun x => (x.typeName, x.fields, x.metadata, x.docs)

/-- Derives of `StructVariantNode` (graph.rs:234-243). -/
def WireStructVariant.eh : EqHash WireStructVariant :=
  (EqHash.str.and (EqHash.namedFields.and (EqHash.strs.and (EqHash.metadata.and .strs)))).of
    fun x => (x.name, x.fields, x.fieldNames, x.metadata, x.docs)

/-- Derives of `TupleVariantNode` (graph.rs:265-273). -/
def WireTupleVariant.eh : EqHash WireTupleVariant :=
  (EqHash.str.and (WireUnnamed.eh.vec.and (EqHash.metadata.and .strs))).of
    fun x => (x.name, x.fields, x.metadata, x.docs)

/-- Derives of `UnitVariantNode` (graph.rs:291-298). -/
def WireUnitVariant.eh : EqHash WireUnitVariant :=
  (EqHash.str.and (EqHash.metadata.and .strs)).of fun x => (x.name, x.metadata, x.docs)

/-- Derives of `VariantNode` (graph.rs:225-232). -/
def WireVariant.eh : EqHash WireVariant where
  eq
    | .struct v, .struct w => WireStructVariant.eh.eq v w
    | .tuple v, .tuple w => WireTupleVariant.eh.eq v w
    | .unit v, .unit w => WireUnitVariant.eh.eq v w
    | _, _ => false
  hash
    | .struct v => .disc 0 :: WireStructVariant.eh.hash v
    | .tuple v => .disc 1 :: WireTupleVariant.eh.hash v
    | .unit v => .disc 2 :: WireUnitVariant.eh.hash v

/-- Derives of `EnumNode` (graph.rs:197-205). -/
def WireEnum.eh : EqHash WireEnum :=
  (EqHash.str.and (WireVariant.eh.vec.and (EqHash.metadata.and .strs))).of
    fun x => (x.typeName, x.variants, x.metadata, x.docs)

/-- Derives of `ArrayNode` (graph.rs:397-404). -/
def WireArray.eh : EqHash WireArray :=
  (EqHash.str.and (EqHash.nat.and .nat)).of fun x => (x.typeName, x.elem, x.len)

/-- Derives of `ListNode` (graph.rs:420-426). -/
def WireList.eh : EqHash WireList := (EqHash.str.and .nat).of fun x => (x.typeName, x.elem)

/-- Derives of `MapNode` (graph.rs:441-448). -/
def WireMap.eh : EqHash WireMap :=
  (EqHash.str.and (EqHash.nat.and .nat)).of fun x => (x.typeName, x.key, x.val)

/-- Derives of `OpaqueNode` (graph.rs:507-514). -/
def WireOpaque.eh : EqHash WireOpaque :=
  (EqHash.str.and (EqHash.metadata.and EqHash.value.option)).of
    fun x => (x.typeName, x.metadata, x.defaultValue)

/-- Derives of `ScalarNode` (graph.rs:464-486) and of `ScalarType` (type_info/mod.rs:589-610): unit
variants. -/
def scalarEh : EqHash ScalarKind := ⟨fun a b => a == b, fun a => [.disc a.idx]⟩

/-- Derives of `TypeNode` (graph.rs:90-103). -/
def WireNode.eh : EqHash WireNode where
  eq
    | .struct a, .struct b => WireStruct.eh.eq a b
    | .tupleStruct a, .tupleStruct b => WireTuple.eh.eq a b
    | .tuple a, .tuple b => WireTuple.eh.eq a b
    | .enum a, .enum b => WireEnum.eh.eq a b
    | .list a, .list b => WireList.eh.eq a b
    | .array a, .array b => WireArray.eh.eq a b
    | .map a, .map b => WireMap.eh.eq a b
    | .scalar a, .scalar b => scalarEh.eq a b
    | .opaque a, .opaque b => WireOpaque.eh.eq a b
    | _, _ => false
  hash
    | .struct a => .disc 0 :: WireStruct.eh.hash a
    | .tupleStruct a => .disc 1 :: WireTuple.eh.hash a
    | .tuple a => .disc 2 :: WireTuple.eh.hash a
    | .enum a => .disc 3 :: WireEnum.eh.hash a
    | .list a => .disc 4 :: WireList.eh.hash a
    | .array a => .disc 5 :: WireArray.eh.hash a
    | .map a => .disc 6 :: WireMap.eh.hash a
    | .scalar a => .disc 7 :: scalarEh.hash a
    | .opaque a => .disc 8 :: WireOpaque.eh.hash a

/-- Derives of `TypeGraph` (graph.rs:55-60). -/
def wireGraphEh : EqHash (List (WireId × Option WireNode)) := (EqHash.nat.and WireNode.eh.option).vec

/-- Derives of `TypeDescriptor` (type_info/mod.rs:99-105). -/
def WireDescriptor.eh : EqHash WireDescriptor :=
  (EqHash.nat.and wireGraphEh).of fun x => (x.root, x.graph)

/-! ## Views -/

/-- `Type<'a>` (type_info/mod.rs:181-192): a scalar, or an id with the node (`WithId`, graph.rs:35-39) and the
graph. Simplification: the nine kinds of views share their fields, so the kind is that of the node. -/
inductive WireView
  | scalar (k : ScalarKind)
  | other (id : WireId) (node : WireNode) (graph : List (WireId × Option WireNode))

/-- `Type::new` (type_info/mod.rs:195-275) on the graph of a descriptor; `none` is the panic of
`TypeGraph::get`. -/
def WireView.new (x : WireDescriptor) (i : WireId) : Option WireView :=
  match x.node i with
  | none => none
  | some (.scalar k) => some (.scalar k)
  | some n => some (.other i n x.graph)

/-- Derives of `Type` (type_info/mod.rs:181-192) and of the views in it (663-667, 726-730, 781-785, 836-840,
1229-1233, 1276-1280, 1311-1315, 1350-1354) and of `WithId` (graph.rs:35-39): references are compared and
hashed by what they refer to. The discriminant of `Type` is that of `TypeNode`, and the fields are
written in the order id, node, graph. -/
def WireView.eh : EqHash WireView where
  eq
    | .scalar k, .scalar l => scalarEh.eq k l
    | .other i n g, .other j m h => EqHash.nat.eq i j && WireNode.eh.eq n m && wireGraphEh.eq g h
    | _, _ => false
  hash
    | .scalar k => .disc 7 :: scalarEh.hash k
    | .other i n g =>
      (WireNode.eh.hash n).take 1 ++ EqHash.nat.hash i ++ (WireNode.eh.hash n).drop 1 ++ wireGraphEh.hash g

end Mirror
