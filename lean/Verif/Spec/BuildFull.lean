import Verif.Model.BuildFull
import Verif.Spec.NodeId
import Verif.Spec.SerdeType
import Mathlib.Data.List.Forall2

/-!
# Specification: a node says everything about its type

Nothing here mentions how graphs are built.
-/

namespace Mirror

/-- The attributes are those of some declaration that compiles. -/
def Attrs.Parsed (a : Attrs) : Prop := ∃ raw, parseAttrs raw = some a

/-- The metadata and docs are those of the attributes: the lines of docs in order, and for every key the
value of its expression. -/
def Annotates (a : Attrs) (md : WireMeta) (docs : List String) : Prop :=
  docs = a.docs ∧ BMSorted strCmp md ∧ ∀ k v, (k, v) ∈ md ↔ ∃ o, (k, o) ∈ a.pairs ∧ o.toValue = v

/-- The attributes of every item, variant and field satisfy `P`. -/
structure Facts.Every (S : Facts) (P : Attrs → Prop) : Prop where
  item : ∀ n, P (S.item n)
  field : ∀ n f, P (S.field n f)
  pos : ∀ n i, P (S.pos n i)
  «variant» : ∀ n v, P (S.variant n v)
  variantField : ∀ n v f, P (S.variantField n v f)
  variantPos : ∀ n v i, P (S.variantPos n v i)

/-- The fields that are not skipped, each with its number in the declaration. -/
def numbered (fds : List FieldDef) : List (FieldDef × Nat) := fds.zipIdx.filter fun p => !p.1.skip

/-- The entry of a field: its name, the id of its type, its metadata and docs. -/
def FieldFull (S : Facts) (attrs : String → Attrs) (fd : FieldDef) (p : String × WireNamed) : Prop :=
  p.1 = fd.name ∧ p.2.name = fd.name ∧ p.2.id = S.id fd.ty.unbox ∧
    Annotates (attrs fd.name) p.2.metadata p.2.docs

/-- Named fields: the names in the order of the declaration, and a map with exactly the entries of the
fields that are not skipped. -/
def NamedFull (S : Facts) (attrs : String → Attrs) (fds : List FieldDef) (names : List String)
    (fs : List (String × WireNamed)) : Prop :=
  names = (fds.filter fun fd => !fd.skip).map (·.name) ∧ BMSorted strCmp fs ∧
  (∀ fd ∈ fds, fd.skip = false → ∃ p ∈ fs, FieldFull S attrs fd p) ∧
  ∀ p ∈ fs, ∃ fd ∈ fds, fd.skip = false ∧ FieldFull S attrs fd p

/-- Unnamed fields in the order of the declaration, each with the id of its type, and its metadata and
docs. -/
def UnnamedFull (S : Facts) (attrs : Nat → Attrs) (fds : List FieldDef) (fs : List WireUnnamed) : Prop :=
  List.Forall₂ (fun p f => f.id = S.id p.1.ty.unbox ∧ Annotates (attrs p.2) f.metadata f.docs) (numbered fds) fs

/-- A variant of the enum `n`: its name, fields, metadata and docs. -/
inductive VariantFull (S : Facts) (n : String) : VariantDef → WireVariant → Prop
  | struct (v fds x) : x.name = v → NamedFull S (S.variantField n v) fds x.fieldNames x.fields →
      Annotates (S.variant n v) x.metadata x.docs → VariantFull S n (.struct v fds) (.struct x)
  | tuple (v fds x) : x.name = v → UnnamedFull S (S.variantPos n v) fds x.fields →
      Annotates (S.variant n v) x.metadata x.docs → VariantFull S n (.tuple v fds) (.tuple x)
  | unit (v x) : x.name = v → Annotates (S.variant n v) x.metadata x.docs →
      VariantFull S n (.unit v) (.unit x)

/-- Types described as opaque: `NonZero` integers and the dynamic types. -/
def Ty.DescribedOpaque : Ty → Prop
  | .nonzero _ | .value | .structValue | .tupleStructValue | .tupleValue | .enumValue => True
  | _ => False

/-- The node says everything about the type: its name, its fields or variants as declared, and all metadata
and docs. -/
inductive Full (E : Env) (S : Facts) : Ty → WireNode → Prop
  | scalar (k) : Full E S (.scalar k) (.scalar k)
  | opaque (t) : t.DescribedOpaque → Full E S t (.opaque ⟨S.name t, [], none⟩)
  | vec (t) : Full E S (.vec t) (.list ⟨S.name (.vec t), S.id t.unbox⟩)
  | array (t n) : Full E S (.array t n) (.array ⟨S.name (.array t n), S.id t.unbox, n⟩)
  | map (k v) : Full E S (.map k v) (.map ⟨S.name (.map k v), S.id k.unbox, S.id v.unbox⟩)
  | tuple (ts) : Full E S (.tuple ts)
      (.tuple ⟨S.name (.tuple ts), ts.map fun t => ⟨S.id t.unbox, [], []⟩, [], []⟩)
  | struct (n fds c x) : E.decl n = some ⟨.struct fds, c⟩ → x.typeName = S.name (.named n) →
      NamedFull S (S.field n) fds x.fieldNames x.fields → Annotates (S.item n) x.metadata x.docs →
      Full E S (.named n) (.struct x)
  | tupleStruct (n fds c x) : E.decl n = some ⟨.tupleStruct fds, c⟩ → x.typeName = S.name (.named n) →
      UnnamedFull S (S.pos n) fds x.fields → Annotates (S.item n) x.metadata x.docs →
      Full E S (.named n) (.tupleStruct x)
  | enum (n vds c x) : E.decl n = some ⟨.enum vds, c⟩ → x.typeName = S.name (.named n) →
      List.Forall₂ (VariantFull S n) vds x.variants → Annotates (S.item n) x.metadata x.docs →
      Full E S (.named n) (.enum x)

/-- A variant without its docs and metadata. -/
def WireVariant.bare : WireVariant → HVariant WireId
  | .struct v => .struct v.name v.fieldNames (v.fields.map fun p => (p.1, p.2.id))
  | .tuple v => .tuple v.name (v.fields.map (·.id))
  | .unit v => .unit v.name

/-- A node without type name, docs and metadata. -/
def WireNode.bare : WireNode → HNode WireId
  | .struct n => .struct n.fieldNames (n.fields.map fun p => (p.1, p.2.id))
  | .tupleStruct n => .tupleStruct (n.fields.map (·.id))
  | .tuple n => .tuple (n.fields.map (·.id))
  | .enum n => .enum (n.variants.map WireVariant.bare)
  | .list n => .list n.elem
  | .array n => .array n.elem n.len
  | .map n => .map n.key n.val
  | .scalar k => .scalar k
  | .opaque _ => .opaque

/-- A graph without type names, docs and metadata. -/
def bareGraph (g : WireGraph) : HGraph WireId := fun i => (bmGet compare i g).map (Option.map WireNode.bare)

/-- A descriptor without type names, docs and metadata. -/
def WireDescriptor.bare (x : WireDescriptor) : HDescriptor WireId := ⟨x.root, bareGraph x.graph⟩

end Mirror
