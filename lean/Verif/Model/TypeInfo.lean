import Verif.Model.Obj

/-!
# Type descriptors

The type graph (type_info/graph.rs), how `DescribeType::build` fills it, and the views of
type_info/mod.rs.

A `NodeId` is a 64-bit hash of the `TypeId` (graph.rs:16-34). The model uses the type itself as id, that
is, it assumes that the hash has no collisions. Metadata and docs are in `Verif.Model.Meta`; type
names are left out.
-/

namespace Mirror

/-- `VariantNode` (graph.rs:225-232 and the structs after it). Struct variants hold `field_names` and the
map `fields` like `StructNode`. -/
inductive VariantNode
  | struct (name : String) (names : List String) (fields : List (String × Ty))
  | tuple (name : String) (fields : List Ty)
  | unit (name : String)
  deriving Repr, Inhabited

/-- `TypeNode` (graph.rs:90-103). `struct` holds `field_names` and the map `fields` from names to node
ids (graph.rs:125-134). -/
inductive TypeNode
  | struct (names : List String) (fields : List (String × Ty))
  | tupleStruct (fields : List Ty)
  | tuple (fields : List Ty)
  | enum (variants : List VariantNode)
  | list (elem : Ty)
  | array (elem : Ty) (len : Nat)
  | map (key val : Ty)
  | scalar (k : ScalarKind)
  | opaque
  deriving Repr, Inhabited

/-- `TypeGraph` (graph.rs:55-60): for every id nothing, a placeholder (`some none`) or a node. -/
abbrev TypeGraph := Ty → Option (Option TypeNode)

/-- `TypeGraph::default()`. -/
def TypeGraph.empty : TypeGraph := fun _ => none

/-- `map.insert(id, entry)`. -/
def TypeGraph.set (g : TypeGraph) (t : Ty) (e : Option TypeNode) : TypeGraph :=
  fun u => if u = t then some e else g u

/-- `TypeGraph::get_or_build_node_with` (graph.rs:68-87). The closure may fail to return (`none`). -/
def getOrBuild (g : TypeGraph) (t : Ty) (f : TypeGraph → Option (TypeNode × TypeGraph)) :
    Option (Ty × TypeGraph) :=
  match g t with
  | some _ => some (t, g)
  | none =>
    match f (g.set t none) with
    | none => none
    | some (node, g') => some (t, g'.set t (some node))

/-- Evaluate `T::build(graph)` for one component after the other, as the field lists
`&[NamedFieldNode::new::<A>(..., graph), ...]` do (graph.rs:352-369,380-395). `b` is the recursive
call. -/
def buildList (b : TypeGraph → Ty → Option (Ty × TypeGraph)) :
    TypeGraph → List Ty → Option (List Ty × TypeGraph)
  | g, [] => some ([], g)
  | g, t :: ts =>
    match b g t with
    | none => none
    | some (id, g) =>
      match buildList b g ts with
      | none => none
      | some (ids, g) => some (id :: ids, g)

/-- The declared fields without `#[reflect(skip)]` (`filter_out_skipped*`). -/
def visDefs (fds : List FieldDef) : List FieldDef := fds.filter fun fd => !fd.skip

/-- The `fields` map of a `StructNode` or `StructVariantNode` (graph.rs:147-151,254-258). -/
def namedNodes (fds : List FieldDef) (ids : List Ty) : List (String × Ty) :=
  bmOfList strCmp (((visDefs fds).map (·.name)).zip ids)

/-- The variants of an enum in declaration order (macros enum_.rs:46-100). -/
def buildVariants (b : TypeGraph → Ty → Option (Ty × TypeGraph)) :
    TypeGraph → List VariantDef → Option (List VariantNode × TypeGraph)
  | g, [] => some ([], g)
  | g, vd :: vds =>
    match vd with
    | .struct n fds =>
      match buildList b g ((visDefs fds).map (·.ty)) with
      | none => none
      | some (ids, g) =>
        match buildVariants b g vds with
        | none => none
        | some (vs, g) => some (.struct n ((visDefs fds).map (·.name)) (namedNodes fds ids) :: vs, g)
    | .tuple n fds =>
      match buildList b g ((visDefs fds).map (·.ty)) with
      | none => none
      | some (ids, g) =>
        match buildVariants b g vds with
        | none => none
        | some (vs, g) => some (.tuple n ids :: vs, g)
    | .unit n =>
      match buildVariants b g vds with
      | none => none
      | some (vs, g) => some (.unit n :: vs, g)

/-- `<T as DescribeType>::build(graph)`. The first argument bounds the depth of the recursion (the call
stack); `none` means that it was exceeded, or that a type is not declared.

* scalars graph.rs:488-505; `NonZero` via_scalar.rs:19-25; dynamic types value.rs:184-190, struct_.rs:82-88,
  tuple_struct.rs:70-76, tuple.rs:92-98, enum_.rs:198-204 (all opaque);
* `Box` boxed.rs:21-25; `Vec` vec.rs:82-86; arrays array.rs:22-26; maps btree_map.rs:76-80; tuples
  tuple.rs:160-171 (components built inside the closure);
* derived struct struct_named.rs:71-80 (fields built inside the closure);
* derived tuple struct tuple_struct.rs:70-79 and derived enum macros enum_.rs:112-121 (fields built
  before `get_or_build_node_with`). -/
def build (E : Env) : Nat → TypeGraph → Ty → Option (Ty × TypeGraph)
  | 0, _, _ => none
  | fuel + 1, g, t =>
    match t with
    | .scalar k => getOrBuild g t fun g => some (.scalar k, g)
    | .nonzero _ | .value | .structValue | .tupleStructValue | .tupleValue | .enumValue =>
      getOrBuild g t fun g => some (.opaque, g)
    | .box u => build E fuel g u
    | .vec u => getOrBuild g t fun g => (build E fuel g u).map fun r => (.list r.1, r.2)
    | .array u n => getOrBuild g t fun g => (build E fuel g u).map fun r => (.array r.1 n, r.2)
    | .map k v => getOrBuild g t fun g =>
        match build E fuel g k with
        | none => none
        | some (kid, g) => (build E fuel g v).map fun r => (.map kid r.1, r.2)
    | .tuple ts => getOrBuild g t fun g =>
        (buildList (build E fuel) g ts).map fun r => (.tuple r.1, r.2)
    | .named n =>
      match E.decl n with
      | none => none
      | some ⟨.struct fds, _⟩ => getOrBuild g t fun g =>
          (buildList (build E fuel) g ((visDefs fds).map (·.ty))).map fun r =>
            (.struct ((visDefs fds).map (·.name)) (namedNodes fds r.1), r.2)
      | some ⟨.tupleStruct fds, _⟩ =>
        match buildList (build E fuel) g ((visDefs fds).map (·.ty)) with
        | none => none
        | some (ids, g) => getOrBuild g t fun g => some (.tupleStruct ids, g)
      | some ⟨.enum vds, _⟩ =>
        match buildVariants (build E fuel) g vds with
        | none => none
        | some (vs, g) => getOrBuild g t fun g => some (.enum vs, g)

/-- `TypeDescriptor` (type_info/mod.rs:97-110). -/
structure TypeDescriptor where
  root : Ty
  graph : TypeGraph

/-- Computing a descriptor without the cache (type_info/mod.rs:70-73,82-84). -/
def describe (E : Env) (fuel : Nat) (t : Ty) : Option TypeDescriptor :=
  (build E fuel .empty t).map fun r => ⟨r.1, r.2⟩

/-- `TypeGraph::get` (graph.rs:63-66); `none` is the panic. -/
def TypeGraph.node (g : TypeGraph) (id : Ty) : Option TypeNode :=
  match g id with
  | some (some n) => some n
  | _ => none

/-! ## Views -/

/-- `StructType::field_types` and `StructVariant::field_types` (type_info/mod.rs:674-682,1057-1065): the
`unwrap` panics (`none`) if a listed name is missing. -/
def namedTypes (names : List String) (fields : List (String × Ty)) : List (String × Option Ty) :=
  names.map fun n => (n, bmGet strCmp n fields)

/-- `StructType::field_type` (type_info/mod.rs:688-694). -/
def namedType (fields : List (String × Ty)) (n : String) : Option Ty := bmGet strCmp n fields

/-- `StructType::field_type_at` (type_info/mod.rs:696-699). -/
def namedTypeAt (names : List String) (fields : List (String × Ty)) (i : Nat) : Option Ty :=
  names[i]?.bind fun n => bmGet strCmp n fields

/-- `Variant::name` (type_info/mod.rs:908-914). -/
def VariantNode.name : VariantNode → String
  | .struct n _ _ => n
  | .tuple n _ => n
  | .unit n => n

/-- `EnumType::variant` (type_info/mod.rs:871-873). -/
def findVariant (vs : List VariantNode) (n : String) : Option VariantNode :=
  vs.find? fun v => v.name = n

end Mirror
