import Verif.Spec.Serde
import Mathlib.Data.List.Forall2

/-!
# Specification: which data describe a value

What a reader of the declarations of `Value`, its containers and `KeyPath` expects a serde format to
accept, written as a relation between data and values without saying how the data are read.
-/

namespace Mirror

/-- A format identifies a variant by position `i` and name `n`, of which it keeps one: the variant it
means is the one called `v`, among those declared in this order. -/
def VariantId.Means (m : VariantId) (names : List String) (i : Nat) (n v : String) : Prop :=
  match m with
  | .byName => n = v
  | .byIndex => names[i]? = some v

/-- The datum gives the fields of a struct: by name, each of them exactly once, in any order and
among any others; or by position, these and no others. -/
def Data.Gives (names : List String) (d : Data) (ds : List Data) : Prop :=
  (∃ fields, d = .struct fields ∧
    List.Forall₂ (fun n x => (n, x) ∈ fields ∧ (fields.map (·.1)).count n = 1) names ds) ∨
  (d = .seq ds ∧ ds.length = names.length)

/-- The names and order of the variants of `Value`. -/
def valueForms : List String :=
  ["usize", "u8", "u16", "u32", "u64", "u128", "i8", "i16", "i32", "i64", "i128", "bool", "char",
   "f32", "f64", "String", "StructValue", "EnumValue", "TupleStructValue", "TupleValue", "List", "Map"]

/-- The name of a Rust integer type. -/
def IntKind.rust : IntKind → String
  | .usize => "usize" | .u8 => "u8" | .u16 => "u16" | .u32 => "u32" | .u64 => "u64" | .u128 => "u128"
  | .i8 => "i8" | .i16 => "i16" | .i32 => "i32" | .i64 => "i64" | .i128 => "i128"

/-- The datum of a scalar in the variant of this name. An integer may be written with any width. -/
inductive Data.IsScalar : String → Data → Scalar → Prop
  | int (k w n) : k.InRange n → Data.IsScalar k.rust (.int w n) (.int k n)
  | bool (b) : Data.IsScalar "bool" (.bool b) (.bool b)
  | char (c) : Data.IsScalar "char" (.char c) (.char c)
  | f32 (b) : Data.IsScalar "f32" (.f32 b) (.f32 b)
  | f64 (b) : Data.IsScalar "f64" (.f64 b) (.f64 b)
  | string (s) : Data.IsScalar "String" (.str s) (.string s)

/-- The datum of a tuple with these fields. -/
def Data.IsTuple (c : Data) (ds : List Data) : Prop := c.Gives ["fields"] [.seq ds]

/-- The datum of a struct with this list of names and these fields. -/
def Data.IsRecord (c : Data) (ns : List String) (kvs : List (String × Data)) : Prop :=
  c.Gives ["field_names", "fields"] [.seq (ns.map .str), .map (kvs.map fun p => (.str p.1, p.2))]

/-- `fs` is what becomes of the entries `l` in a map ordered by `cmp`: in key order; of the entries
whose keys compare equal it has one, with the first one's key and the last one's value. -/
def Gathered {κ α : Type} (cmp : κ → κ → Ordering) (l fs : List (κ × α)) : Prop :=
  BMSorted cmp fs ∧ ∀ k x, (k, x) ∈ fs ↔
    (∃ y, l.find? (fun p => cmp k p.1 == .eq) = some (k, y)) ∧
    ∃ k', l.reverse.find? (fun p => cmp k p.1 == .eq) = some (k', x)

/-- The datum denotes the value. -/
inductive Denotes (m : VariantId) : Data → Value → Prop
  | scalar (i n w c s) : m.Means valueForms i n w → Data.IsScalar w c s →
      Denotes m (.newtype i n c) (.scalar s)
  | struct (i n c ns kvs l fs) : m.Means valueForms i n "StructValue" → c.IsRecord ns kvs →
      l.map (·.1) = kvs.map (·.1) → (∀ p ∈ kvs.zip l, Denotes m p.1.2 p.2.2) → Gathered strCmp l fs →
      Denotes m (.newtype i n c) (.struct ns fs)
  | enumS (i n c v j w e ns kvs l fs) : m.Means valueForms i n "EnumValue" →
      c.Gives ["name", "kind"] [.str v, .newtype j w e] → m.Means ["Struct", "Tuple", "Unit"] j w "Struct" →
      e.IsRecord ns kvs → l.map (·.1) = kvs.map (·.1) → (∀ p ∈ kvs.zip l, Denotes m p.1.2 p.2.2) →
      Gathered strCmp l fs → Denotes m (.newtype i n c) (.enumS v ns fs)
  | enumT (i n c v j w e ds vs) : m.Means valueForms i n "EnumValue" →
      c.Gives ["name", "kind"] [.str v, .newtype j w e] → m.Means ["Struct", "Tuple", "Unit"] j w "Tuple" →
      e.IsTuple ds → ds.length = vs.length → (∀ p ∈ ds.zip vs, Denotes m p.1 p.2) →
      Denotes m (.newtype i n c) (.enumT v vs)
  | enumU (i n c v j w) : m.Means valueForms i n "EnumValue" →
      c.Gives ["name", "kind"] [.str v, .unit j w] → m.Means ["Struct", "Tuple", "Unit"] j w "Unit" →
      Denotes m (.newtype i n c) (.enumU v)
  | tupleStruct (i n c e ds vs) : m.Means valueForms i n "TupleStructValue" → c.Gives ["tuple"] [e] →
      e.IsTuple ds → ds.length = vs.length → (∀ p ∈ ds.zip vs, Denotes m p.1 p.2) →
      Denotes m (.newtype i n c) (.tupleStruct vs)
  | tuple (i n c ds vs) : m.Means valueForms i n "TupleValue" → c.IsTuple ds → ds.length = vs.length →
      (∀ p ∈ ds.zip vs, Denotes m p.1 p.2) → Denotes m (.newtype i n c) (.tuple vs)
  | list (i n ds vs) : m.Means valueForms i n "List" → ds.length = vs.length →
      (∀ p ∈ ds.zip vs, Denotes m p.1 p.2) → Denotes m (.newtype i n (.seq ds)) (.list vs)
  | map (i n ds l kvs) : m.Means valueForms i n "Map" → ds.length = l.length →
      (∀ p ∈ ds.zip l, Denotes m p.1.1 p.2.1) → (∀ p ∈ ds.zip l, Denotes m p.1.2 p.2.2) →
      Gathered Value.cmp l kvs → Denotes m (.newtype i n (.map ds)) (.map kvs)

/-- The datum denotes the key. -/
inductive DenotesKey (m : VariantId) : Data → Key → Prop
  | named (i n j w s) : m.Means ["Field", "Get", "Variant"] i n "Field" →
      m.Means ["Named", "Numbered"] j w "Named" → DenotesKey m (.newtype i n (.newtype j w (.str s))) (.named s)
  | numbered (i n j w k) (x : Nat) : m.Means ["Field", "Get", "Variant"] i n "Field" →
      m.Means ["Named", "Numbered"] j w "Numbered" → x < 2 ^ 64 →
      DenotesKey m (.newtype i n (.newtype j w (.int k x))) (.numbered x)
  | get (i n c v) : m.Means ["Field", "Get", "Variant"] i n "Get" → Denotes m c v →
      DenotesKey m (.newtype i n c) (.get v)
  | variant (i n s) : m.Means ["Field", "Get", "Variant"] i n "Variant" →
      DenotesKey m (.newtype i n (.str s)) (.variant s)

/-- The datum denotes the key path: a struct whose field `path` is the sequence of its keys. -/
def DenotesPath (m : VariantId) (d : Data) (p : KeyPath) : Prop :=
  ∃ ds, d.Gives ["path"] [.seq ds] ∧ List.Forall₂ (DenotesKey m) ds p

/-- Data that differ only in the order in which the fields of structs come and in the widths with
which integers are written. -/
inductive Data.Rearranged : Data → Data → Prop
  | refl (d) : Data.Rearranged d d
  | int (k k' n) : Data.Rearranged (.int k n) (.int k' n)
  | seq (xs ys) : xs.length = ys.length → (∀ p ∈ xs.zip ys, Data.Rearranged p.1 p.2) →
      Data.Rearranged (.seq xs) (.seq ys)
  | map (xs ys) : xs.length = ys.length → (∀ p ∈ xs.zip ys, Data.Rearranged p.1.1 p.2.1) →
      (∀ p ∈ xs.zip ys, Data.Rearranged p.1.2 p.2.2) → Data.Rearranged (.map xs) (.map ys)
  | struct (fs gs hs) : fs.map (·.1) = gs.map (·.1) → (∀ p ∈ fs.zip gs, Data.Rearranged p.1.2 p.2.2) →
      gs.Perm hs → Data.Rearranged (.struct fs) (.struct hs)
  | newtype (i n d e) : Data.Rearranged d e → Data.Rearranged (.newtype i n d) (.newtype i n e)
  | some (d e) : Data.Rearranged d e → Data.Rearranged (.some d) (.some e)

end Mirror
