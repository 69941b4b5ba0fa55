import Verif.Model.SerdeType
import Verif.Spec.Serde
import Verif.Spec.TypeInfo

/-!
# Specification: what a serialised type descriptor may be

`Storable`: what the Rust types can hold. `Visits`: what a user can reach from a descriptor by calling
methods of its views.
-/

namespace Mirror

/-- A number that fits a `u64`. -/
def Fits64 (n : Nat) : Prop := n < 2 ^ 64

/-- Metadata the Rust type can hold: a map in key order, of values that can be held. -/
def MetaStorable (md : WireMeta) : Prop := BMSorted strCmp md ∧ ∀ p ∈ md, p.2.Storable

def WireNamed.Storable (x : WireNamed) : Prop := Fits64 x.id ∧ MetaStorable x.metadata

def WireUnnamed.Storable (x : WireUnnamed) : Prop := Fits64 x.id ∧ MetaStorable x.metadata

/-- A map of named fields: in key order. Nothing relates a key to the name inside its field. -/
def NamedStorable (fs : List (String × WireNamed)) : Prop :=
  BMSorted strCmp fs ∧ ∀ p ∈ fs, p.2.Storable

def WireStruct.Storable (x : WireStruct) : Prop := NamedStorable x.fields ∧ MetaStorable x.metadata

def WireTuple.Storable (x : WireTuple) : Prop :=
  (∀ f ∈ x.fields, f.Storable) ∧ MetaStorable x.metadata

def WireVariant.Storable : WireVariant → Prop
  | .struct v => NamedStorable v.fields ∧ MetaStorable v.metadata
  | .tuple v => (∀ f ∈ v.fields, f.Storable) ∧ MetaStorable v.metadata
  | .unit v => MetaStorable v.metadata

/-- A node the Rust type can hold: maps are in key order, ids and lengths are 64-bit numbers. -/
def WireNode.Storable : WireNode → Prop
  | .struct n => n.Storable
  | .tupleStruct n => n.Storable
  | .tuple n => n.Storable
  | .enum n => (∀ v ∈ n.variants, v.Storable) ∧ MetaStorable n.metadata
  | .list n => Fits64 n.elem
  | .array n => Fits64 n.elem ∧ Fits64 n.len
  | .map n => Fits64 n.key ∧ Fits64 n.val
  | .scalar _ => True
  | .opaque n => MetaStorable n.metadata ∧ ∀ v, n.defaultValue = some v → v.Storable

/-- A descriptor the Rust type can hold: ids are in ascending order. Nothing says that an id that
occurs somewhere, or the root, has a node. -/
def WireDescriptor.Storable (x : WireDescriptor) : Prop :=
  Fits64 x.root ∧ x.graph.Pairwise (fun p q => p.1 < q.1) ∧
    ∀ p ∈ x.graph, Fits64 p.1 ∧ ∀ n, p.2 = some n → n.Storable

/-! ## Navigation -/

/-- A method of a type's view shows another type: `some` of its view, or `none` if the call panics. -/
inductive ShowsType : TypeView → Option TypeView → Prop
  | structItem (s f) : f ∈ s.fieldTypes → ShowsType (.struct s) (f.bind NamedField.getType)
  | structNamed (s n f) : s.fieldType n = some f → ShowsType (.struct s) f.getType
  | structAt (s i f) : s.fieldTypeAt i = some f → ShowsType (.struct s) f.getType
  | tupleStructItem (t f) : f ∈ t.fieldTypes → ShowsType (.tupleStruct t) f.getType
  | tupleStructAt (t i f) : t.fieldTypeAt i = some f → ShowsType (.tupleStruct t) f.getType
  | tupleItem (t f) : f ∈ t.fieldTypes → ShowsType (.tuple t) f.getType
  | tupleAt (t i f) : t.fieldTypeAt i = some f → ShowsType (.tuple t) f.getType
  | variantItem (e w f) : w ∈ e.variantViews → f ∈ w.fieldTypes →
      ShowsType (.enum e) (f.bind VariantField.getType)
  | variantNamed (e w n f) : w ∈ e.variantViews → w.fieldType n = some f → ShowsType (.enum e) f.getType
  | variantAt (e w i f) : w ∈ e.variantViews → w.fieldTypeAt i = some f → ShowsType (.enum e) f.getType
  | list (t) : ShowsType (.list t) t.elementType
  | array (t) : ShowsType (.array t) t.elementType
  | mapKey (t) : ShowsType (.map t) t.keyType
  | mapValue (t) : ShowsType (.map t) t.valueType

/-- What a user comes across who goes from view to view, starting with the descriptor's `get_type`. -/
inductive Visits (d : TypeDescriptor) : Option TypeView → Prop
  | root : Visits d d.getType
  | step (v o) : Visits d (some v) → ShowsType v o → Visits d o

/-- The ids a serialised variant refers to. -/
def WireVariant.ids : WireVariant → List WireId
  | .struct v => v.fields.map (·.2.id)
  | .tuple v => v.fields.map (·.id)
  | .unit _ => []

/-- The ids a serialised node refers to. -/
def WireNode.ids : WireNode → List WireId
  | .struct n => n.fields.map (·.2.id)
  | .tupleStruct n => n.fields.map (·.id)
  | .tuple n => n.fields.map (·.id)
  | .enum n => n.variants.flatMap WireVariant.ids
  | .list n => [n.elem]
  | .array n => [n.elem]
  | .map n => [n.key, n.val]
  | .scalar _ => []
  | .opaque _ => []

/-- The node, or a variant of it, lists the name of a field that it does not have. -/
def WireNode.ListsMissing : WireNode → Prop
  | .struct n => ∃ x ∈ n.fieldNames, x ∉ n.fields.map (·.1)
  | .enum n => ∃ v, .struct v ∈ n.variants ∧ ∃ x ∈ v.fieldNames, x ∉ v.fields.map (·.1)
  | _ => False

/-- The ids that can be reached from the root. -/
inductive WireReach (x : WireDescriptor) : WireId → Prop
  | root : WireReach x x.root
  | step (i n j) : WireReach x i → (i, some n) ∈ x.graph → j ∈ n.ids → WireReach x j

end Mirror
