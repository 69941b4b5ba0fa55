import Verif.Spec.Speedy
import Verif.Spec.SerdeTypeExact

/-!
# Specification: which bytes spell a value, a key path, a type descriptor

How values are laid out in speedy's format, written from the declarations of the types: the fields of a
struct one after the other in the order in which they are declared, an enum as the position of the
variant among those declared and its payload, sequences and maps as their length and their elements.
Nothing here mentions the reader or the writer of anything but primitives.
-/

namespace Mirror

/-- The bytes are read as this primitive, whatever bytes follow. -/
def Bin.Spells {α : Type} (c : Bin α) (u : List UInt8) (a : α) : Prop := ∀ rest, c.r (u ++ rest) = some (a, rest)

/-- Reading looks at no bytes but those it uses up. -/
def Bin.Local {α : Type} (c : Bin α) : Prop := ∀ bs a rest, c.r bs = some (a, rest) → ∃ u, bs = u ++ rest ∧ c.Spells u a

/-- The primitives of the format are read from the bytes they use up. -/
structure Speedy.Local (F : Speedy) : Prop where
  tag : F.tag.Local
  len : F.len.Local
  flag : F.flag.Local
  int : ∀ k, (F.int k).Local
  bool : F.bool.Local
  char : F.char.Local
  f32 : F.f32.Local
  f64 : F.f64.Local
  str : F.str.Local

section
variable (F : Speedy)

/-- The bytes are the tag of the variant of this name in an enum with these variants. -/
def Speedy.Tag (names : List String) (t : List UInt8) (n : String) : Prop := ∃ i, names[i]? = some n ∧ F.tag.Spells t i

/-- `fs` is what becomes of the entries `l` when they are collected into a map ordered by `cmp`: in key
order, and of the entries whose keys compare equal the last one. -/
def Collected {κ α : Type} (cmp : κ → κ → Ordering) (l fs : List (κ × α)) : Prop :=
  BMSorted cmp fs ∧ ∀ p, p ∈ fs ↔ l.reverse.find? (fun q => cmp p.1 q.1 == .eq) = some p

/-- A sequence: how long it is, and its elements. -/
def SpellsSeq {α : Type} (R : List UInt8 → α → Prop) (u : List UInt8) (xs : List α) : Prop :=
  ∃ l parts, u = l ++ parts.flatten ∧ F.len.Spells l xs.length ∧ List.Forall₂ R parts xs

/-- A map: how many entries there are, and the key and the value of each. -/
def SpellsMap {κ α : Type} (cmp : κ → κ → Ordering) (K : List UInt8 → κ → Prop) (R : List UInt8 → α → Prop)
    (u : List UInt8) (xs : List (κ × α)) : Prop :=
  ∃ l parts raw, u = l ++ (parts.map fun p : List UInt8 × List UInt8 => p.1 ++ p.2).flatten ∧
    F.len.Spells l raw.length ∧
    List.Forall₂ (fun (p : List UInt8 × List UInt8) (q : κ × α) => K p.1 q.1 ∧ R p.2 q.2) parts raw ∧
    Collected cmp raw xs

/-- An option: whether there is something, and what. -/
def SpellsOption {α : Type} (R : List UInt8 → α → Prop) (u : List UInt8) : Option α → Prop
  | none => F.flag.Spells u false
  | some a => ∃ f p, u = f ++ p ∧ F.flag.Spells f true ∧ R p a

/-- The payload of a scalar. -/
def SpellsScalar (u : List UInt8) : Scalar → Prop
  | .int k n => (F.int k).Spells u n
  | .bool b => F.bool.Spells u b
  | .char c => F.char.Spells u c
  | .f32 b => F.f32.Spells u b
  | .f64 b => F.f64.Spells u b
  | .string s => F.str.Spells u s

/-- Strings. -/
def SpellsStrs : List UInt8 → List String → Prop := SpellsSeq F F.str.Spells

/-- The bytes spell the value. -/
inductive Spells : List UInt8 → Value → Prop
  | scalar (t u : List UInt8) (s : Scalar) :
      F.Tag valueForms t s.kind.rust → SpellsScalar F u s → Spells (t ++ u) (.scalar s)
  | struct (t n l : List UInt8) (parts : List (List UInt8 × List UInt8)) (ns : List String)
      (raw fs : List (String × Value)) :
      F.Tag valueForms t "StructValue" → SpellsStrs F n ns →
      F.len.Spells l raw.length → parts.length = raw.length →
      (∀ p ∈ parts.zip raw, F.str.Spells p.1.1 p.2.1) → (∀ p ∈ parts.zip raw, Spells p.1.2 p.2.2) →
      Collected strCmp raw fs →
      Spells (t ++ (n ++ (l ++ (parts.map fun p : List UInt8 × List UInt8 => p.1 ++ p.2).flatten))) (.struct ns fs)
  | enumS (t v k n l : List UInt8) (parts : List (List UInt8 × List UInt8)) (vn : String)
      (ns : List String) (raw fs : List (String × Value)) :
      F.Tag valueForms t "EnumValue" → F.str.Spells v vn →
      F.Tag ["Struct", "Tuple", "Unit"] k "Struct" → SpellsStrs F n ns →
      F.len.Spells l raw.length → parts.length = raw.length →
      (∀ p ∈ parts.zip raw, F.str.Spells p.1.1 p.2.1) → (∀ p ∈ parts.zip raw, Spells p.1.2 p.2.2) →
      Collected strCmp raw fs →
      Spells (t ++ (v ++ (k ++ (n ++ (l ++ (parts.map fun p : List UInt8 × List UInt8 => p.1 ++ p.2).flatten)))))
        (.enumS vn ns fs)
  | enumT (t v k l : List UInt8) (parts : List (List UInt8)) (vn : String) (fs : List Value) :
      F.Tag valueForms t "EnumValue" → F.str.Spells v vn →
      F.Tag ["Struct", "Tuple", "Unit"] k "Tuple" → F.len.Spells l fs.length → parts.length = fs.length →
      (∀ p ∈ parts.zip fs, Spells p.1 p.2) → Spells (t ++ (v ++ (k ++ (l ++ parts.flatten)))) (.enumT vn fs)
  | enumU (t v k : List UInt8) (vn : String) :
      F.Tag valueForms t "EnumValue" → F.str.Spells v vn →
      F.Tag ["Struct", "Tuple", "Unit"] k "Unit" → Spells (t ++ (v ++ k)) (.enumU vn)
  | tupleStruct (t l : List UInt8) (parts : List (List UInt8)) (fs : List Value) :
      F.Tag valueForms t "TupleStructValue" → F.len.Spells l fs.length →
      parts.length = fs.length → (∀ p ∈ parts.zip fs, Spells p.1 p.2) →
      Spells (t ++ (l ++ parts.flatten)) (.tupleStruct fs)
  | tuple (t l : List UInt8) (parts : List (List UInt8)) (fs : List Value) :
      F.Tag valueForms t "TupleValue" → F.len.Spells l fs.length →
      parts.length = fs.length → (∀ p ∈ parts.zip fs, Spells p.1 p.2) → Spells (t ++ (l ++ parts.flatten)) (.tuple fs)
  | list (t l : List UInt8) (parts : List (List UInt8)) (xs : List Value) :
      F.Tag valueForms t "List" → F.len.Spells l xs.length →
      parts.length = xs.length → (∀ p ∈ parts.zip xs, Spells p.1 p.2) → Spells (t ++ (l ++ parts.flatten)) (.list xs)
  | map (t l : List UInt8) (parts : List (List UInt8 × List UInt8)) (raw kvs : List (Value × Value)) :
      F.Tag valueForms t "Map" → F.len.Spells l raw.length → parts.length = raw.length →
      (∀ p ∈ parts.zip raw, Spells p.1.1 p.2.1) → (∀ p ∈ parts.zip raw, Spells p.1.2 p.2.2) →
      Collected Value.cmp raw kvs →
      Spells (t ++ (l ++ (parts.map fun p : List UInt8 × List UInt8 => p.1 ++ p.2).flatten)) (.map kvs)

/-- An unsigned number of this type. -/
def SpellsNat (k : IntKind) (u : List UInt8) (n : Nat) : Prop := (F.int k).Spells u n

/-- The bytes spell the key. -/
inductive SpellsKey : List UInt8 → Key → Prop
  | named (t k u s) : F.Tag ["Field", "Get", "Variant"] t "Field" → F.Tag ["Named", "Numbered"] k "Named" →
      F.str.Spells u s → SpellsKey (t ++ (k ++ u)) (.named s)
  | numbered (t k u i) : F.Tag ["Field", "Get", "Variant"] t "Field" → F.Tag ["Named", "Numbered"] k "Numbered" →
      SpellsNat F .usize u i → SpellsKey (t ++ (k ++ u)) (.numbered i)
  | get (t u v) : F.Tag ["Field", "Get", "Variant"] t "Get" → Spells F u v → SpellsKey (t ++ u) (.get v)
  | variant (t u s) : F.Tag ["Field", "Get", "Variant"] t "Variant" → F.str.Spells u s →
      SpellsKey (t ++ u) (.variant s)

/-- The bytes spell the key path. -/
def SpellsPath (u : List UInt8) (p : KeyPath) : Prop := SpellsSeq F (SpellsKey F) u p

/-! ## Type descriptors -/

/-- Metadata: values by name. -/
def SpellsMeta : List UInt8 → WireMeta → Prop := SpellsMap F strCmp F.str.Spells (Spells F)

def SpellsNamed (u : List UInt8) (x : WireNamed) : Prop :=
  ∃ name id md docs, u = name ++ (id ++ (md ++ docs)) ∧ F.str.Spells name x.name ∧ SpellsNat F .u64 id x.id ∧
    SpellsMeta F md x.metadata ∧ SpellsStrs F docs x.docs

def SpellsUnnamed (u : List UInt8) (x : WireUnnamed) : Prop :=
  ∃ id md docs, u = id ++ (md ++ docs) ∧ SpellsNat F .u64 id x.id ∧ SpellsMeta F md x.metadata ∧
    SpellsStrs F docs x.docs

/-- Fields by name. -/
def SpellsFields : List UInt8 → List (String × WireNamed) → Prop := SpellsMap F strCmp F.str.Spells (SpellsNamed F)

def SpellsStruct (u : List UInt8) (x : WireStruct) : Prop :=
  ∃ name fields names md docs, u = name ++ (fields ++ (names ++ (md ++ docs))) ∧ F.str.Spells name x.typeName ∧
    SpellsFields F fields x.fields ∧ SpellsStrs F names x.fieldNames ∧ SpellsMeta F md x.metadata ∧
    SpellsStrs F docs x.docs

def SpellsTuple (u : List UInt8) (x : WireTuple) : Prop :=
  ∃ name fields md docs, u = name ++ (fields ++ (md ++ docs)) ∧ F.str.Spells name x.typeName ∧
    SpellsSeq F (SpellsUnnamed F) fields x.fields ∧ SpellsMeta F md x.metadata ∧ SpellsStrs F docs x.docs

def SpellsStructVariant (u : List UInt8) (x : WireStructVariant) : Prop :=
  ∃ name fields names md docs, u = name ++ (fields ++ (names ++ (md ++ docs))) ∧ F.str.Spells name x.name ∧
    SpellsFields F fields x.fields ∧ SpellsStrs F names x.fieldNames ∧ SpellsMeta F md x.metadata ∧
    SpellsStrs F docs x.docs

def SpellsTupleVariant (u : List UInt8) (x : WireTupleVariant) : Prop :=
  ∃ name fields md docs, u = name ++ (fields ++ (md ++ docs)) ∧ F.str.Spells name x.name ∧
    SpellsSeq F (SpellsUnnamed F) fields x.fields ∧ SpellsMeta F md x.metadata ∧ SpellsStrs F docs x.docs

def SpellsUnitVariant (u : List UInt8) (x : WireUnitVariant) : Prop :=
  ∃ name md docs, u = name ++ (md ++ docs) ∧ F.str.Spells name x.name ∧ SpellsMeta F md x.metadata ∧
    SpellsStrs F docs x.docs

inductive SpellsVariant : List UInt8 → WireVariant → Prop
  | struct (t u v) : F.Tag ["Struct", "Tuple", "Unit"] t "Struct" → SpellsStructVariant F u v →
      SpellsVariant (t ++ u) (.struct v)
  | tuple (t u v) : F.Tag ["Struct", "Tuple", "Unit"] t "Tuple" → SpellsTupleVariant F u v →
      SpellsVariant (t ++ u) (.tuple v)
  | unit (t u v) : F.Tag ["Struct", "Tuple", "Unit"] t "Unit" → SpellsUnitVariant F u v →
      SpellsVariant (t ++ u) (.unit v)

def SpellsEnum (u : List UInt8) (x : WireEnum) : Prop :=
  ∃ name vs md docs, u = name ++ (vs ++ (md ++ docs)) ∧ F.str.Spells name x.typeName ∧
    SpellsSeq F (SpellsVariant F) vs x.variants ∧ SpellsMeta F md x.metadata ∧ SpellsStrs F docs x.docs

def SpellsArray (u : List UInt8) (x : WireArray) : Prop :=
  ∃ name e l, u = name ++ (e ++ l) ∧ F.str.Spells name x.typeName ∧ SpellsNat F .u64 e x.elem ∧ SpellsNat F .usize l x.len

def SpellsList (u : List UInt8) (x : WireList) : Prop :=
  ∃ name e, u = name ++ e ∧ F.str.Spells name x.typeName ∧ SpellsNat F .u64 e x.elem

def SpellsMapNode (u : List UInt8) (x : WireMap) : Prop :=
  ∃ name k v, u = name ++ (k ++ v) ∧ F.str.Spells name x.typeName ∧ SpellsNat F .u64 k x.key ∧ SpellsNat F .u64 v x.val

def SpellsOpaque (u : List UInt8) (x : WireOpaque) : Prop :=
  ∃ name md dv, u = name ++ (md ++ dv) ∧ F.str.Spells name x.typeName ∧ SpellsMeta F md x.metadata ∧
    SpellsOption F (Spells F) dv x.defaultValue

/-- The bytes spell the node. -/
inductive SpellsNode : List UInt8 → WireNode → Prop
  | struct (t u x) : F.Tag nodeForms t "Struct" → SpellsStruct F u x → SpellsNode (t ++ u) (.struct x)
  | tupleStruct (t u x) : F.Tag nodeForms t "TupleStruct" → SpellsTuple F u x → SpellsNode (t ++ u) (.tupleStruct x)
  | tuple (t u x) : F.Tag nodeForms t "Tuple" → SpellsTuple F u x → SpellsNode (t ++ u) (.tuple x)
  | enum (t u x) : F.Tag nodeForms t "Enum" → SpellsEnum F u x → SpellsNode (t ++ u) (.enum x)
  | list (t u x) : F.Tag nodeForms t "List" → SpellsList F u x → SpellsNode (t ++ u) (.list x)
  | array (t u x) : F.Tag nodeForms t "Array" → SpellsArray F u x → SpellsNode (t ++ u) (.array x)
  | map (t u x) : F.Tag nodeForms t "Map" → SpellsMapNode F u x → SpellsNode (t ++ u) (.map x)
  | scalar (t u) (k : ScalarKind) : F.Tag nodeForms t "Scalar" → F.Tag scalarForms u k.rust →
      SpellsNode (t ++ u) (.scalar k)
  | opaque (t u x) : F.Tag nodeForms t "Opaque" → SpellsOpaque F u x → SpellsNode (t ++ u) (.opaque x)

/-- The bytes spell the descriptor: the root, and the map from ids to nodes and placeholders. -/
def SpellsDescriptor (u : List UInt8) (x : WireDescriptor) : Prop :=
  ∃ r g, u = r ++ g ∧ SpellsNat F .u64 r x.root ∧
    SpellsMap F compare (SpellsNat F .u64) (SpellsOption F (SpellsNode F)) g x.graph

end

end Mirror
