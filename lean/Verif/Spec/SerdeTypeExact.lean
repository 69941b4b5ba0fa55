import Verif.Spec.SerdeExact
import Verif.Spec.SerdeType

/-!
# Specification: which data denote a type descriptor

As `Spec/SerdeExact`, for the nodes of the type graph.
-/

namespace Mirror

/-- A number that fits 64 bits, written in any width. -/
def Data.IsNat (d : Data) (n : Nat) : Prop := n < 2 ^ 64 ∧ ∃ w, d = .int w n

/-- A sequence of strings. -/
def Data.IsStrs (d : Data) (ss : List String) : Prop := d = .seq (ss.map .str)

/-- A sequence whose elements denote these. -/
def Data.IsSeq {α : Type} (R : Data → α → Prop) (d : Data) (xs : List α) : Prop :=
  ∃ ds, d = .seq ds ∧ List.Forall₂ R ds xs

/-- A map whose entries denote these once they are gathered by key. -/
def Data.IsMap {κ α : Type} (cmp : κ → κ → Ordering) (K : Data → κ → Prop) (R : Data → α → Prop) (d : Data)
    (xs : List (κ × α)) : Prop :=
  ∃ ds l, d = .map ds ∧ List.Forall₂ (fun (p : Data × Data) (q : κ × α) => K p.1 q.1 ∧ R p.2 q.2) ds l ∧
    Gathered cmp l xs

/-- An option. -/
def Data.IsOption {α : Type} (R : Data → α → Prop) : Data → Option α → Prop
  | .none, .none => True
  | .some d, .some a => R d a
  | _, _ => False

/-- Metadata: values by name. -/
def DenotesMeta (m : VariantId) : Data → WireMeta → Prop :=
  Data.IsMap strCmp (fun d s => d = .str s) (Denotes m)

def DenotesNamed (m : VariantId) (d : Data) (x : WireNamed) : Prop :=
  ∃ i md ds, d.Gives ["name", "id", "metadata", "docs"] [.str x.name, i, md, ds] ∧
    i.IsNat x.id ∧ DenotesMeta m md x.metadata ∧ ds.IsStrs x.docs

def DenotesUnnamed (m : VariantId) (d : Data) (x : WireUnnamed) : Prop :=
  ∃ i md ds, d.Gives ["id", "metadata", "docs"] [i, md, ds] ∧
    i.IsNat x.id ∧ DenotesMeta m md x.metadata ∧ ds.IsStrs x.docs

/-- Fields by name. -/
def DenotesFields (m : VariantId) : Data → List (String × WireNamed) → Prop :=
  Data.IsMap strCmp (fun d s => d = .str s) (DenotesNamed m)

def DenotesStruct (m : VariantId) (d : Data) (x : WireStruct) : Prop :=
  ∃ fs ns md ds, d.Gives ["type_name", "fields", "field_names", "metadata", "docs"]
      [.str x.typeName, fs, ns, md, ds] ∧
    DenotesFields m fs x.fields ∧ ns.IsStrs x.fieldNames ∧ DenotesMeta m md x.metadata ∧ ds.IsStrs x.docs

def DenotesTuple (m : VariantId) (d : Data) (x : WireTuple) : Prop :=
  ∃ fs md ds, d.Gives ["type_name", "fields", "metadata", "docs"] [.str x.typeName, fs, md, ds] ∧
    fs.IsSeq (DenotesUnnamed m) x.fields ∧ DenotesMeta m md x.metadata ∧ ds.IsStrs x.docs

def DenotesStructVariant (m : VariantId) (d : Data) (x : WireStructVariant) : Prop :=
  ∃ fs ns md ds, d.Gives ["name", "fields", "field_names", "metadata", "docs"] [.str x.name, fs, ns, md, ds] ∧
    DenotesFields m fs x.fields ∧ ns.IsStrs x.fieldNames ∧ DenotesMeta m md x.metadata ∧ ds.IsStrs x.docs

def DenotesTupleVariant (m : VariantId) (d : Data) (x : WireTupleVariant) : Prop :=
  ∃ fs md ds, d.Gives ["name", "fields", "metadata", "docs"] [.str x.name, fs, md, ds] ∧
    fs.IsSeq (DenotesUnnamed m) x.fields ∧ DenotesMeta m md x.metadata ∧ ds.IsStrs x.docs

def DenotesUnitVariant (m : VariantId) (d : Data) (x : WireUnitVariant) : Prop :=
  ∃ md ds, d.Gives ["name", "metadata", "docs"] [.str x.name, md, ds] ∧
    DenotesMeta m md x.metadata ∧ ds.IsStrs x.docs

/-- A variant of an enum of types. -/
inductive DenotesVariant (m : VariantId) : Data → WireVariant → Prop
  | struct (i n c v) : m.Means ["Struct", "Tuple", "Unit"] i n "Struct" → DenotesStructVariant m c v →
      DenotesVariant m (.newtype i n c) (.struct v)
  | tuple (i n c v) : m.Means ["Struct", "Tuple", "Unit"] i n "Tuple" → DenotesTupleVariant m c v →
      DenotesVariant m (.newtype i n c) (.tuple v)
  | unit (i n c v) : m.Means ["Struct", "Tuple", "Unit"] i n "Unit" → DenotesUnitVariant m c v →
      DenotesVariant m (.newtype i n c) (.unit v)

def DenotesEnum (m : VariantId) (d : Data) (x : WireEnum) : Prop :=
  ∃ vs md ds, d.Gives ["type_name", "variants", "metadata", "docs"] [.str x.typeName, vs, md, ds] ∧
    vs.IsSeq (DenotesVariant m) x.variants ∧ DenotesMeta m md x.metadata ∧ ds.IsStrs x.docs

def DenotesArray (d : Data) (x : WireArray) : Prop :=
  ∃ e l, d.Gives ["type_name", "field_type_id", "len"] [.str x.typeName, e, l] ∧ e.IsNat x.elem ∧ l.IsNat x.len

def DenotesList (d : Data) (x : WireList) : Prop :=
  ∃ e, d.Gives ["type_name", "field_type_id"] [.str x.typeName, e] ∧ e.IsNat x.elem

def DenotesMap (d : Data) (x : WireMap) : Prop :=
  ∃ k v, d.Gives ["type_name", "key_type_id", "value_type_id"] [.str x.typeName, k, v] ∧
    k.IsNat x.key ∧ v.IsNat x.val

/-- An opaque type. A default that is not there at all is no default. -/
def DenotesOpaque (m : VariantId) (d : Data) (x : WireOpaque) : Prop :=
  (∃ md dv, d.Gives ["type_name", "metadata", "default_value"] [.str x.typeName, md, dv] ∧
    DenotesMeta m md x.metadata ∧ dv.IsOption (Denotes m) x.defaultValue) ∨
  (∃ fields md, d = .struct fields ∧ "default_value" ∉ fields.map (·.1) ∧
    d.Gives ["type_name", "metadata"] [.str x.typeName, md] ∧ DenotesMeta m md x.metadata ∧ x.defaultValue = none)

/-- The names and order of the variants of `TypeNode`. -/
def nodeForms : List String :=
  ["Struct", "TupleStruct", "Tuple", "Enum", "List", "Array", "Map", "Scalar", "Opaque"]

/-- The names and order of the scalar types. -/
def scalarForms : List String :=
  ["usize", "u8", "u16", "u32", "u64", "u128", "i8", "i16", "i32", "i64", "i128", "bool", "char", "f32", "f64",
   "String"]

/-- The name of a scalar type. -/
def ScalarKind.rust : ScalarKind → String
  | .int k => k.rust
  | .bool => "bool" | .char => "char" | .f32 => "f32" | .f64 => "f64" | .string => "String"

/-- The datum denotes the node. -/
inductive DenotesNode (m : VariantId) : Data → WireNode → Prop
  | struct (i n c x) : m.Means nodeForms i n "Struct" → DenotesStruct m c x → DenotesNode m (.newtype i n c) (.struct x)
  | tupleStruct (i n c x) : m.Means nodeForms i n "TupleStruct" → DenotesTuple m c x →
      DenotesNode m (.newtype i n c) (.tupleStruct x)
  | tuple (i n c x) : m.Means nodeForms i n "Tuple" → DenotesTuple m c x → DenotesNode m (.newtype i n c) (.tuple x)
  | enum (i n c x) : m.Means nodeForms i n "Enum" → DenotesEnum m c x → DenotesNode m (.newtype i n c) (.enum x)
  | list (i n c x) : m.Means nodeForms i n "List" → DenotesList c x → DenotesNode m (.newtype i n c) (.list x)
  | array (i n c x) : m.Means nodeForms i n "Array" → DenotesArray c x → DenotesNode m (.newtype i n c) (.array x)
  | map (i n c x) : m.Means nodeForms i n "Map" → DenotesMap c x → DenotesNode m (.newtype i n c) (.map x)
  | scalar (i n j w) (k : ScalarKind) : m.Means nodeForms i n "Scalar" → m.Means scalarForms j w k.rust →
      DenotesNode m (.newtype i n (.unit j w)) (.scalar k)
  | opaque (i n c x) : m.Means nodeForms i n "Opaque" → DenotesOpaque m c x →
      DenotesNode m (.newtype i n c) (.opaque x)

/-- The datum denotes the descriptor: its root and its graph, a struct of one map from ids to nodes
and placeholders. -/
def DenotesDescriptor (m : VariantId) (d : Data) (x : WireDescriptor) : Prop :=
  ∃ r g mp, d.Gives ["root", "graph"] [r, g] ∧ r.IsNat x.root ∧ g.Gives ["map"] [mp] ∧
    mp.IsMap compare Data.IsNat (Data.IsOption (DenotesNode m)) x.graph

end Mirror
