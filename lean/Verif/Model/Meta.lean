import Verif.Model.TypePath
import Verif.Model.Reflect

/-!
# Metadata and docs

`#[reflect(meta(..))]` and doc comments, from the derive macro to `GetMeta`. They do not influence the rest
of a type graph, so the model keeps them beside it: what a node stores as `metadata` and `docs` is a function
of the type (`Ann`), and the nodes of `Model/TypeInfo.lean` leave them out.

An expression in an attribute is represented by the object it evaluates to. `stringify!` of a key is the key.
-/

namespace Mirror

/-- One attribute of an item, variant or field: `#[reflect(.. meta(k = e, ..) ..)]` (at most one
`#[reflect]`, attrs.rs:53-67), `#[doc = "line"]`, or another one, like `#[doc(hidden)]`. -/
inductive RawAttr
  | reflectMeta (pairs : List (String × Obj))
  | doc (line : String)
  | other

/-- The parsed attributes of an item, variant or field, as far as metadata and docs are concerned
(`ItemAttrs`, attrs.rs:28-36; `InnerAttrs`, attrs.rs:280-285). `meta` is a `BTreeMap`. -/
structure Attrs where
  pairs : List (String × Obj)
  docs : List String

/-- The loop that fills `meta` (attrs.rs:100-112, 328-340): a key given twice is a compile error
(`none`). -/
def parsePairs (m : List (String × Obj)) : List (String × Obj) → Option (List (String × Obj))
  | [] => some m
  | (k, o) :: rest =>
    match bmGet strCmp k m with
    | some _ => none
    | none => parsePairs (bmInsert strCmp k o m) rest

/-- `parse_docs` (attrs.rs:176-191). -/
def parseDocs (attrs : List RawAttr) : List String :=
  attrs.filterMap fun a =>
    match a with
    | .doc l => some l
    | _ => none

/-- `ItemAttrs::parse` and `InnerAttrs::parse` (attrs.rs:50-125, 297-356). Two `#[reflect]` attributes are a
compile error. -/
def parseAttrs (attrs : List RawAttr) : Option Attrs :=
  match attrs.filterMap (fun a => match a with | .reflectMeta l => some l | _ => none) with
  | [] => some ⟨[], parseDocs attrs⟩
  | [l] => (parsePairs [] l).map fun m => ⟨m, parseDocs attrs⟩
  | _ => none

/-- `metadata` and `docs` of a node. -/
structure Ann where
  metadata : List (String × Value)
  docs : List String

/-- `tokenize_meta` evaluated (attrs.rs:193-202): `BTreeMap::from` of the keys with `into_value`
(lib.rs:1322-1339) of the expressions. -/
def tokenizeMeta (pairs : List (String × Obj)) : List (String × Value) :=
  bmOfList strCmp (pairs.map fun p => (p.1, p.2.toValue))

/-- `map_metadata` (graph.rs:158-163). -/
def mapMetadata (m : List (String × Value)) : List (String × Value) :=
  bmOfList strCmp (m.map fun p => (p.1, p.2))

/-- What `XNode::new(.., #meta, #docs)` stores (graph.rs:137-155, 180-194, 208-222, 246-262, 276-288, 301-311,
386-398, 410-421). -/
def Attrs.ann (a : Attrs) : Ann := ⟨mapMetadata (tokenizeMeta a.pairs), a.docs⟩

/-- No metadata, no docs. -/
def Ann.empty : Ann := ⟨[], []⟩

/-- `meta` of a view of a node (`impl_get_meta!`, type_info/mod.rs:551-586): the value stored. -/
def Ann.meta (n : Ann) (key : String) : Option Value := bmGet strCmp key n.metadata

/-- `GetMeta::get_meta` (type_info/mod.rs:512-518). -/
def getMeta (E : Env) (T : Ty) (m : Option Value) : Option Obj :=
  m.bind fun v => fromReflect E T v.toObj

/-- `AttrsDatabase::new_from_named` and `meta`/`docs` of a field (attrs.rs:208-220, 258-272). -/
def namedFieldAnn (fds : List FieldDef) (as : List Attrs) (name : String) : Ann :=
  match bmGet strCmp name (bmOfList strCmp ((fds.map (·.name)).zip as)) with
  | some a => a.ann
  | none => .empty

/-- The `NamedFieldNode`s of a struct, by name: what is stored under `fields` (struct_named.rs:49-61,
graph.rs:147-151). -/
def structAnns (fds : List FieldDef) (as : List Attrs) : List (String × Ann) :=
  bmOfList strCmp ((visDefs fds).map fun fd => (fd.name, namedFieldAnn fds as fd.name))

/-- `AttrsDatabase::new_from_unnamed` and `meta`/`docs` of a field (attrs.rs:228-240, 258-272). -/
def posFieldAnn (as : List Attrs) (i : Nat) : Ann :=
  match as[i]? with
  | some a => a.ann
  | none => .empty

/-- The `UnnamedFieldNode`s of a tuple struct (tuple_struct.rs:49-60): fields are numbered before the
skipped ones are filtered out, and attributes looked up by that number. -/
def tupleAnns (fds : List FieldDef) (as : List Attrs) : List Ann :=
  ((fds.zipIdx).filter fun p => !p.1.skip).map fun p => posFieldAnn as p.2

/-- The fields of a struct-like variant: attributes are kept with the field (macros enum_.rs:50-59). -/
def variantNamedAnns (fds : List FieldDef) (as : List Attrs) : List (String × Ann) :=
  bmOfList strCmp (((fds.zip as).filter fun p => !p.1.skip).map fun p => (p.1.name, p.2.ann))

/-- The fields of a tuple-like variant (macros enum_.rs:73-80). -/
def variantTupleAnns (fds : List FieldDef) (as : List Attrs) : List Ann :=
  ((fds.zip as).filter fun p => !p.1.skip).map fun p => p.2.ann

/-- `field_type(name)` of a struct or struct-like variant, then `meta`/`docs` of the field
(type_info/mod.rs:688-694, 1071-1077). -/
def fieldAnn (fields : List (String × Ann)) (name : String) : Option Ann := bmGet strCmp name fields

/-- The parsed attributes in the declarations: of each type, and of the variants of each enum, by name.
Attributes of fields are passed along with the fields. -/
structure AttrEnv where
  item : String → Attrs
  «variant» : String → String → Attrs

/-- What the node of a type stores: the attributes of a declared type. Dynamic types and `NonZero` integers
have none (value.rs:187, struct_.rs:85, tuple_struct.rs:73, tuple.rs:95, enum_.rs:201, via_scalar.rs:22). -/
def AttrEnv.ann (A : AttrEnv) : Ty → Ann
  | .named n => (A.item n).ann
  | _ => .empty

/-- `GetMeta for Type` (type_info/mod.rs:523-534) on the type with this id and node. -/
def typeMeta (A : AttrEnv) (id : Ty) (node : TypeNode) (key : String) : Option Value :=
  match node with
  | .struct .. | .tupleStruct _ | .enum _ | .opaque => (A.ann id).meta key
  | .tuple _ | .list _ | .array .. | .map .. | .scalar _ => none

/-- `GetMeta::docs for Type` (type_info/mod.rs:536-548). -/
def typeDocs (A : AttrEnv) (id : Ty) (node : TypeNode) : List String :=
  match node with
  | .struct .. | .tupleStruct _ | .enum _ => (A.ann id).docs
  | .tuple _ | .list _ | .array .. | .map .. | .scalar _ | .opaque => []

/-- `GetMeta for Variant` (type_info/mod.rs:985-1001), for a variant of the enum `n`. -/
def variantMeta (A : AttrEnv) (n : String) (v : VariantNode) (key : String) : Option Value :=
  (A.variant n v.name).ann.meta key

/-- `GetMeta::docs for Variant` (type_info/mod.rs:994-1000). -/
def variantDocs (A : AttrEnv) (n : String) (v : VariantNode) : List String :=
  (A.variant n v.name).ann.docs

/-- `GetMeta for TypeAtPath` (type_info/mod.rs:1396-1410). -/
def TypeAt.meta (A : AttrEnv) (ta : TypeAt) (key : String) : Option Value :=
  match ta with
  | .ty id (.struct a b) => typeMeta A id (.struct a b) key
  | .ty id (.tupleStruct a) => typeMeta A id (.tupleStruct a) key
  | .ty id (.enum a) => typeMeta A id (.enum a) key
  | .ty id .opaque => typeMeta A id .opaque key
  | .variant _ => none
  | .ty _ (.tuple _) | .ty _ (.list _) | .ty _ (.array ..) | .ty _ (.map ..) | .ty _ (.scalar _) => none

/-- `GetMeta::docs for TypeAtPath` (type_info/mod.rs:1412-1425). -/
def TypeAt.docs (A : AttrEnv) (ta : TypeAt) : List String :=
  match ta with
  | .ty id (.struct a b) => typeDocs A id (.struct a b)
  | .ty id (.tupleStruct a) => typeDocs A id (.tupleStruct a)
  | .ty id (.enum a) => typeDocs A id (.enum a)
  | .variant _ => []
  | .ty _ (.tuple _) | .ty _ (.list _) | .ty _ (.array ..) | .ty _ (.map ..) | .ty _ (.scalar _)
  | .ty _ .opaque => []

end Mirror
