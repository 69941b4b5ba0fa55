import Verif.Model.TypeInfo

/-!
# Type graphs with hashed node ids

A `NodeId` is a 64-bit hash of the `TypeId` (graph.rs:16-34), and `get_or_build_node_with` takes two types
with the same hash for the same type (graph.rs:68-87). `Verif.Model.TypeInfo` uses the type itself as
id; here the id is `h t` for any function `h`. Everything else is as there, with the same citations.
-/

namespace Mirror

/-- `VariantNode` (graph.rs:225-232), with ids in `ι`. -/
inductive HVariant (ι : Type)
  | struct (name : String) (names : List String) (fields : List (String × ι))
  | tuple (name : String) (fields : List ι)
  | unit (name : String)

/-- `TypeNode` (graph.rs:90-103), with ids in `ι`. -/
inductive HNode (ι : Type)
  | struct (names : List String) (fields : List (String × ι))
  | tupleStruct (fields : List ι)
  | tuple (fields : List ι)
  | enum (variants : List (HVariant ι))
  | list (elem : ι)
  | array (elem : ι) (len : Nat)
  | map (key val : ι)
  | scalar (k : ScalarKind)
  | opaque

/-- `TypeGraph` (graph.rs:55-60), with ids in `ι`. -/
abbrev HGraph (ι : Type) := ι → Option (Option (HNode ι))

variable {ι : Type} [DecidableEq ι]

/-- `TypeGraph::default()` (graph.rs:55). -/
def HGraph.empty : HGraph ι := fun _ => none

/-- `map.insert(id, entry)` (graph.rs:81,83). -/
def HGraph.set (g : HGraph ι) (i : ι) (e : Option (HNode ι)) : HGraph ι :=
  fun j => if j = i then some e else g j

/-- `TypeGraph::get_or_build_node_with` (graph.rs:68-87). -/
def getOrBuildH (h : Ty → ι) (g : HGraph ι) (t : Ty) (f : HGraph ι → Option (HNode ι × HGraph ι)) :
    Option (ι × HGraph ι) :=
  match g (h t) with
  | some _ => some (h t, g)
  | none =>
    match f (g.set (h t) none) with
    | none => none
    | some (node, g') => some (h t, g'.set (h t) (some node))

/-- The components one after the other (graph.rs:352-369,380-395). -/
def buildListH (b : HGraph ι → Ty → Option (ι × HGraph ι)) :
    HGraph ι → List Ty → Option (List ι × HGraph ι)
  | g, [] => some ([], g)
  | g, t :: ts =>
    match b g t with
    | none => none
    | some (id, g) =>
      match buildListH b g ts with
      | none => none
      | some (ids, g) => some (id :: ids, g)

/-- The `fields` map of a `StructNode` or `StructVariantNode` (graph.rs:147-151,254-258). -/
def namedNodesH (fds : List FieldDef) (ids : List ι) : List (String × ι) :=
  bmOfList strCmp (((visDefs fds).map (·.name)).zip ids)

/-- The variants of an enum (macros enum_.rs:46-100). -/
def buildVariantsH (b : HGraph ι → Ty → Option (ι × HGraph ι)) :
    HGraph ι → List VariantDef → Option (List (HVariant ι) × HGraph ι)
  | g, [] => some ([], g)
  | g, vd :: vds =>
    match vd with
    | .struct n fds =>
      match buildListH b g ((visDefs fds).map (·.ty)) with
      | none => none
      | some (ids, g) =>
        match buildVariantsH b g vds with
        | none => none
        | some (vs, g) => some (.struct n ((visDefs fds).map (·.name)) (namedNodesH fds ids) :: vs, g)
    | .tuple n fds =>
      match buildListH b g ((visDefs fds).map (·.ty)) with
      | none => none
      | some (ids, g) =>
        match buildVariantsH b g vds with
        | none => none
        | some (vs, g) => some (.tuple n ids :: vs, g)
    | .unit n =>
      match buildVariantsH b g vds with
      | none => none
      | some (vs, g) => some (.unit n :: vs, g)

/-- `<T as DescribeType>::build(graph)`: the cases of `build`, see there for the citations
(graph.rs:488-505, boxed.rs:21-25, vec.rs:82-86, array.rs:22-26, btree_map.rs:76-80, tuple.rs:160-171,
macros struct_named.rs:71-80, tuple_struct.rs:70-79, enum_.rs:112-121). -/
def buildH (E : Env) (h : Ty → ι) : Nat → HGraph ι → Ty → Option (ι × HGraph ι)
  | 0, _, _ => none
  | fuel + 1, g, t =>
    match t with
    | .scalar k => getOrBuildH h g t fun g => some (.scalar k, g)
    | .nonzero _ | .value | .structValue | .tupleStructValue | .tupleValue | .enumValue =>
      getOrBuildH h g t fun g => some (.opaque, g)
    | .box u => buildH E h fuel g u
    | .vec u => getOrBuildH h g t fun g => (buildH E h fuel g u).map fun r => (.list r.1, r.2)
    | .array u n => getOrBuildH h g t fun g => (buildH E h fuel g u).map fun r => (.array r.1 n, r.2)
    | .map k v => getOrBuildH h g t fun g =>
        match buildH E h fuel g k with
        | none => none
        | some (kid, g) => (buildH E h fuel g v).map fun r => (.map kid r.1, r.2)
    | .tuple ts => getOrBuildH h g t fun g =>
        (buildListH (buildH E h fuel) g ts).map fun r => (.tuple r.1, r.2)
    | .named n =>
      match E.decl n with
      | none => none
      | some ⟨.struct fds, _⟩ => getOrBuildH h g t fun g =>
          (buildListH (buildH E h fuel) g ((visDefs fds).map (·.ty))).map fun r =>
            (.struct ((visDefs fds).map (·.name)) (namedNodesH fds r.1), r.2)
      | some ⟨.tupleStruct fds, _⟩ =>
        match buildListH (buildH E h fuel) g ((visDefs fds).map (·.ty)) with
        | none => none
        | some (ids, g) => getOrBuildH h g t fun g => some (.tupleStruct ids, g)
      | some ⟨.enum vds, _⟩ =>
        match buildVariantsH (buildH E h fuel) g vds with
        | none => none
        | some (vs, g) => getOrBuildH h g t fun g => some (.enum vs, g)

/-- `TypeDescriptor` (type_info/mod.rs:97-110), with ids in `ι`. -/
structure HDescriptor (ι : Type) where
  root : ι
  graph : HGraph ι

/-- Computing a descriptor (type_info/mod.rs:70-73,82-84). -/
def describeH (E : Env) (h : Ty → ι) (fuel : Nat) (t : Ty) : Option (HDescriptor ι) :=
  (buildH E h fuel .empty t).map fun r => ⟨r.1, r.2⟩

/-- `TypeGraph::get` (graph.rs:63-66); `none` is the panic. -/
def HGraph.node (g : HGraph ι) (id : ι) : Option (HNode ι) :=
  match g id with
  | some (some n) => some n
  | _ => none

end Mirror
