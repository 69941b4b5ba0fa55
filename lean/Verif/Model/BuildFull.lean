import Verif.Model.NodeId
import Verif.Model.Meta
import Verif.Model.SerdeType

/-!
# Building a type graph with everything in it

`DescribeType::build` with all that a node stores: the type's name, docs, metadata, and the ids of other
nodes as 64-bit hashes, in a `BTreeMap` from ids to nodes. `Verif.Model.TypeInfo` and
`Verif.Model.NodeId` build the same graphs without names, docs and metadata.

Parameters: the hash of a `TypeId`, `type_name::<T>()`, and the attributes in the declarations.
-/

namespace Mirror

/-- What the compiler knows about types, and the attributes in their declarations. Attributes of fields
are given by the name of the field, or by its number where fields have no names; how the macro
collects them is in `Verif.Model.Meta`. -/
structure Facts where
  /-- `NodeId::new::<T>()` (graph.rs:21-34). -/
  id : Ty → WireId
  /-- `type_name::<T>()` (graph.rs:146). -/
  name : Ty → String
  /-- Attributes of an item (macros attrs.rs:28-36). -/
  item : String → Attrs
  /-- Attributes of a field of a struct (macros struct_named.rs:55-57). -/
  field : String → String → Attrs
  /-- Attributes of a field of a tuple struct (macros tuple_struct.rs:55-56). -/
  pos : String → Nat → Attrs
  /-- Attributes of a variant (macros enum_.rs:48-49). -/
  «variant» : String → String → Attrs
  /-- Attributes of a field of a struct-like variant (macros enum_.rs:57-58). -/
  variantField : String → String → String → Attrs
  /-- Attributes of a field of a tuple-like variant (macros enum_.rs:79-80). -/
  variantPos : String → String → Nat → Attrs

/-- `TypeGraph` (graph.rs:55-60). -/
abbrev WireGraph := List (WireId × Option WireNode)

/-- `TypeGraph::get_or_build_node_with` (graph.rs:68-87). -/
def getOrBuildW (S : Facts) (g : WireGraph) (t : Ty) (f : WireGraph → Option (WireNode × WireGraph)) :
    Option (WireId × WireGraph) :=
  match bmGet compare (S.id t) g with
  | some _ => some (S.id t, g)
  | none =>
    match f (bmInsert compare (S.id t) none g) with
    | none => none
    | some (node, g') => some (S.id t, bmInsert compare (S.id t) (some node) g')

/-- The components one after the other (graph.rs:352-369,380-395). -/
def buildListW (b : WireGraph → Ty → Option (WireId × WireGraph)) :
    WireGraph → List Ty → Option (List WireId × WireGraph)
  | g, [] => some ([], g)
  | g, t :: ts =>
    match b g t with
    | none => none
    | some (id, g) =>
      match buildListW b g ts with
      | none => none
      | some (ids, g) => some (id :: ids, g)

/-- `NamedFieldNode::new` (graph.rs:352-369) of every field that is not skipped (macros
struct_named.rs:49-61, enum_.rs:53-63), given what `T::build` returned for each. -/
def namedFieldNodes (attrs : String → Attrs) (fds : List FieldDef) (ids : List WireId) : List WireNamed :=
  ((visDefs fds).zip ids).map fun p =>
    ⟨p.1.name, p.2, (attrs p.1.name).ann.metadata, (attrs p.1.name).ann.docs⟩

/-- `UnnamedFieldNode::new` (graph.rs:380-395) of every field that is not skipped (macros
tuple_struct.rs:49-60, enum_.rs:77-85). Fields are numbered before the skipped ones are left out. -/
def unnamedFieldNodes (attrs : Nat → Attrs) (fds : List FieldDef) (ids : List WireId) : List WireUnnamed :=
  ((fds.zipIdx.filter fun p => !p.1.skip).zip ids).map fun p =>
    ⟨p.2, (attrs p.1.2).ann.metadata, (attrs p.1.2).ann.docs⟩

/-- `StructNode::new` (graph.rs:136-155). -/
def WireStruct.new (name : String) (fields : List WireNamed) (a : Ann) : WireStruct where
  typeName := name
  fields := bmOfList strCmp (fields.map fun f => (f.name, f))
  fieldNames := fields.map (·.name)
  metadata := a.metadata
  docs := a.docs

/-- `StructVariantNode::new` (graph.rs:245-262). -/
def WireStructVariant.new (name : String) (fields : List WireNamed) (a : Ann) : WireStructVariant where
  name := name
  fields := bmOfList strCmp (fields.map fun f => (f.name, f))
  fieldNames := fields.map (·.name)
  metadata := a.metadata
  docs := a.docs

/-- The variants of the enum `n` (macros enum_.rs:46-100). -/
def buildVariantsW (S : Facts) (n : String) (b : WireGraph → Ty → Option (WireId × WireGraph)) :
    WireGraph → List VariantDef → Option (List WireVariant × WireGraph)
  | g, [] => some ([], g)
  | g, vd :: vds =>
    match vd with
    | .struct v fds =>
      match buildListW b g ((visDefs fds).map (·.ty)) with
      | none => none
      | some (ids, g) =>
        match buildVariantsW S n b g vds with
        | none => none
        | some (vs, g) => some (.struct (.new v (namedFieldNodes (S.variantField n v) fds ids)
            (S.variant n v).ann) :: vs, g)
    | .tuple v fds =>
      match buildListW b g ((visDefs fds).map (·.ty)) with
      | none => none
      | some (ids, g) =>
        match buildVariantsW S n b g vds with
        | none => none
        | some (vs, g) => some (.tuple ⟨v, unnamedFieldNodes (S.variantPos n v) fds ids,
            (S.variant n v).ann.metadata, (S.variant n v).ann.docs⟩ :: vs, g)
    | .unit v =>
      match buildVariantsW S n b g vds with
      | none => none
      | some (vs, g) => some (.unit ⟨v, (S.variant n v).ann.metadata, (S.variant n v).ann.docs⟩ :: vs, g)

/-- `<T as DescribeType>::build(graph)`: scalars (graph.rs:488-505), `NonZero` integers and dynamic types,
opaque without metadata (via_scalar.rs:18-26, value.rs:184-190, struct_.rs:82-88, tuple_struct.rs:70-76,
tuple.rs:92-98, enum_.rs:198-204), boxes (boxed.rs:21-25), lists, arrays and maps (vec.rs:82-86,
array.rs:22-26, btree_map.rs:76-80), tuples (tuple.rs:160-171) and derived types (macros
struct_named.rs:71-80, tuple_struct.rs:70-79, enum_.rs:112-121). -/
def buildW (E : Env) (S : Facts) : Nat → WireGraph → Ty → Option (WireId × WireGraph)
  | 0, _, _ => none
  | fuel + 1, g, t =>
    match t with
    | .scalar k => getOrBuildW S g t fun g => some (.scalar k, g)
    | .nonzero _ | .value | .structValue | .tupleStructValue | .tupleValue | .enumValue =>
      getOrBuildW S g t fun g => some (.opaque ⟨S.name t, [], none⟩, g)
    | .box u => buildW E S fuel g u
    | .vec u => getOrBuildW S g t fun g => (buildW E S fuel g u).map fun r => (.list ⟨S.name t, r.1⟩, r.2)
    | .array u n => getOrBuildW S g t fun g =>
        (buildW E S fuel g u).map fun r => (.array ⟨S.name t, r.1, n⟩, r.2)
    | .map k v => getOrBuildW S g t fun g =>
        match buildW E S fuel g k with
        | none => none
        | some (kid, g) => (buildW E S fuel g v).map fun r => (.map ⟨S.name t, kid, r.1⟩, r.2)
    | .tuple ts => getOrBuildW S g t fun g =>
        (buildListW (buildW E S fuel) g ts).map fun r =>
          (.tuple ⟨S.name t, r.1.map fun i => ⟨i, [], []⟩, [], []⟩, r.2)
    | .named n =>
      match E.decl n with
      | none => none
      | some ⟨.struct fds, _⟩ => getOrBuildW S g t fun g =>
          (buildListW (buildW E S fuel) g ((visDefs fds).map (·.ty))).map fun r =>
            (.struct (.new (S.name t) (namedFieldNodes (S.field n) fds r.1) (S.item n).ann), r.2)
      | some ⟨.tupleStruct fds, _⟩ =>
        match buildListW (buildW E S fuel) g ((visDefs fds).map (·.ty)) with
        | none => none
        | some (ids, g) => getOrBuildW S g t fun g =>
            some (.tupleStruct ⟨S.name t, unnamedFieldNodes (S.pos n) fds ids,
              (S.item n).ann.metadata, (S.item n).ann.docs⟩, g)
      | some ⟨.enum vds, _⟩ =>
        match buildVariantsW S n (buildW E S fuel) g vds with
        | none => none
        | some (vs, g) => getOrBuildW S g t fun g =>
            some (.enum ⟨S.name t, vs, (S.item n).ann.metadata, (S.item n).ann.docs⟩, g)

/-- `T::type_descriptor()` (type_info/mod.rs:70-73,82-84) with everything in it. -/
def describeW (E : Env) (S : Facts) (fuel : Nat) (t : Ty) : Option WireDescriptor :=
  (buildW E S fuel [] t).map fun r => ⟨r.1, r.2⟩

end Mirror
