import Verif.Model.Path

/-!
# Serialising `Value`s and key paths with serde

`Value`, its containers and `KeyPath` derive `serde::Serialize`/`Deserialize` without any attribute
(value.rs:38, struct_.rs:50, enum_.rs:66,74, tuple.rs:43, tuple_struct.rs:43, key_path.rs:220,378,419).
What the derives do is fixed by the declarations; it is written out here over serde's data model.
The concrete format (JSON, RON, ...) is not modelled: it is assumed to hand back the data it was
given, naming enum variants either by name or by position.
-/

namespace Mirror

/-- The part of serde's data model the derives use: primitives, sequences, maps, structs (field
name and datum, in order), enum variants (position and name) without and with one payload, and
options. -/
inductive Data
  | int (k : IntKind) (n : Int)
  | bool (b : Bool)
  | char (c : Char)
  | f32 (bits : BitVec 32)
  | f64 (bits : BitVec 64)
  | str (s : String)
  | seq (xs : List Data)
  | map (kvs : List (Data × Data))
  | struct (fields : List (String × Data))
  | unit (idx : Nat) (name : String)
  | newtype (idx : Nat) (name : String) (d : Data)
  | none
  | some (d : Data)
  deriving Repr, Inhabited

/-- How the format names the variant of an enum. -/
inductive VariantId
  | byName | byIndex
  deriving DecidableEq, Repr

/-- The variants of `Value` (value.rs:39-62), in order. -/
def valueVariants : List String :=
  ["usize", "u8", "u16", "u32", "u64", "u128", "i8", "i16", "i32", "i64", "i128", "bool", "char",
   "f32", "f64", "String", "StructValue", "EnumValue", "TupleStructValue", "TupleValue", "List",
   "Map"]

/-- The scalar variants of `Value` by position (value.rs:40-55). -/
def ScalarKind.ofIdx : Nat → Option ScalarKind
  | 0 => some (.int .usize) | 1 => some (.int .u8) | 2 => some (.int .u16)
  | 3 => some (.int .u32) | 4 => some (.int .u64) | 5 => some (.int .u128)
  | 6 => some (.int .i8) | 7 => some (.int .i16) | 8 => some (.int .i32)
  | 9 => some (.int .i64) | 10 => some (.int .i128)
  | 11 => some .bool | 12 => some .char | 13 => some .f32 | 14 => some .f64 | 15 => some .string
  | _ => none

/-- The name of the variant of `Value` a scalar kind has (value.rs:40-55). -/
def ScalarKind.variantName : ScalarKind → String
  | .int .usize => "usize" | .int .u8 => "u8" | .int .u16 => "u16" | .int .u32 => "u32"
  | .int .u64 => "u64" | .int .u128 => "u128" | .int .i8 => "i8" | .int .i16 => "i16"
  | .int .i32 => "i32" | .int .i64 => "i64" | .int .i128 => "i128"
  | .bool => "bool" | .char => "char" | .f32 => "f32" | .f64 => "f64" | .string => "String"

/-! ## Serialising -/

/-- `Serialize` of the primitives (serde; payloads of value.rs:40-55): each has its own method, but
`usize` is written as a `u64`. -/
def Scalar.ser : Scalar → Data
  | .int .usize n => .int .u64 n
  | .int k n => .int k n
  | .bool b => .bool b
  | .char c => .char c
  | .f32 b => .f32 b
  | .f64 b => .f64 b
  | .string s => .str s

/-- Derived `Serialize for StructValue` (struct_.rs:50-55): two fields, a sequence and a map. -/
def serStructValue (ns : List String) (fields : List (Data × Data)) : Data :=
  .struct [("field_names", .seq (ns.map .str)), ("fields", .map fields)]

/-- Derived `Serialize for TupleValue` (tuple.rs:43-46). -/
def serTupleValue (fs : List Data) : Data := .struct [("fields", .seq fs)]

mutual
/-- Derived `Serialize for Value` (value.rs:38-62); `Box` is transparent. `EnumValue` is a struct of
`name` and `kind` (enum_.rs:66-70), `EnumValueKind` an enum (enum_.rs:74-79), `TupleStructValue` a
struct of one `tuple` (tuple_struct.rs:43-46). -/
def Value.ser : Value → Data
  | .scalar s => .newtype s.kind.idx s.kind.variantName s.ser
  | .struct ns fs => .newtype 16 "StructValue" (serStructValue ns (Value.serFields fs))
  | .enumS n ns fs => .newtype 17 "EnumValue" (.struct [("name", .str n),
      ("kind", .newtype 0 "Struct" (serStructValue ns (Value.serFields fs)))])
  | .enumT n fs => .newtype 17 "EnumValue" (.struct [("name", .str n),
      ("kind", .newtype 1 "Tuple" (serTupleValue (Value.serList fs)))])
  | .enumU n => .newtype 17 "EnumValue" (.struct [("name", .str n), ("kind", .unit 2 "Unit")])
  | .tupleStruct fs => .newtype 18 "TupleStructValue"
      (.struct [("tuple", serTupleValue (Value.serList fs))])
  | .tuple fs => .newtype 19 "TupleValue" (serTupleValue (Value.serList fs))
  | .list xs => .newtype 20 "List" (.seq (Value.serList xs))
  | .map kvs => .newtype 21 "Map" (.map (Value.serPairs kvs))
/-- `Serialize for Vec<Value>` (tuple.rs:45, value.rs:60): a sequence. -/
def Value.serList : List Value → List Data
  | [] => []
  | v :: vs => v.ser :: Value.serList vs
/-- `Serialize for BTreeMap<String, Value>` (struct_.rs:54): the entries in key order. -/
def Value.serFields : List (String × Value) → List (Data × Data)
  | [] => []
  | (n, v) :: r => (.str n, v.ser) :: Value.serFields r
/-- `Serialize for BTreeMap<Value, Value>` (value.rs:61): the entries in key order. -/
def Value.serPairs : List (Value × Value) → List (Data × Data)
  | [] => []
  | (k, v) :: r => (k.ser, v.ser) :: Value.serPairs r
end

/-- Derived `Serialize for Key` and `NamedOrNumbered` (key_path.rs:378-383,419-423). -/
def Key.ser : Key → Data
  | .named n => .newtype 0 "Field" (.newtype 0 "Named" (.str n))
  | .numbered i => .newtype 0 "Field" (.newtype 1 "Numbered" (.int .u64 i))
  | .get v => .newtype 1 "Get" v.ser
  | .variant v => .newtype 2 "Variant" (.str v)

/-- Derived `Serialize for KeyPath` (key_path.rs:220-223). -/
def KeyPath.ser (p : KeyPath) : Data := .struct [("path", .seq (List.map Key.ser p))]

/-! ## Deserialising -/

/-- `Deserialize` of the primitives (serde): an integer of any width is accepted when it fits.
Simplification: no conversion between floats, integers and strings is attempted. -/
def Scalar.de : ScalarKind → Data → Option Scalar
  | .int k, .int _ n => if k.InRange n then some (.int k n) else none
  | .bool, .bool b => some (.bool b)
  | .char, .char c => some (.char c)
  | .f32, .f32 b => some (.f32 b)
  | .f64, .f64 b => some (.f64 b)
  | .string, .str s => some (.string s)
  | _, _ => none

/-- `Deserialize for String`. -/
def deStr : Data → Option String
  | .str s => some s
  | _ => none

/-- The elements of a sequence of strings: `Deserialize for Vec<String>` (struct_.rs:52). -/
def deStrs : Data → Option (List String)
  | .seq xs => xs.mapM deStr
  | _ => none

/-- The elements of a sequence. -/
def deSeq : Data → Option (List Data)
  | .seq xs => some xs
  | _ => none

/-- The entries of a map. -/
def deMap : Data → Option (List (Data × Data))
  | .map kvs => some kvs
  | _ => none

/-- The datum under a field name: missing and duplicate fields are errors, unknown ones are ignored
(derived `Visitor::visit_map`). -/
def deField (n : String) (fields : List (String × Data)) : Option Data :=
  match fields.filter fun p => p.1 == n with
  | [p] => some p.2
  | _ => none

/-- The data under several field names, in the order of the names. -/
def deFieldsOf (fields : List (String × Data)) : List String → Option (List Data)
  | [] => some []
  | n :: ns =>
    match deField n fields, deFieldsOf fields ns with
    | some d, some ds => some (d :: ds)
    | _, _ => none

/-- Derived `Deserialize` of a struct with these fields: from named data (`visit_map`) or by
position (`visit_seq`). -/
def deStruct (names : List String) : Data → Option (List Data)
  | .struct fields => deFieldsOf fields names
  | .seq xs => if xs.length = names.length then some xs else none
  | _ => none

/-- Derived `Deserialize` of an enum with these variants: the variant's position, and the payload of
a newtype variant. -/
def deEnum (m : VariantId) (names : List String) : Data → Option (Nat × Option Data)
  | .unit i n => (pick i n).map fun j => (j, none)
  | .newtype i n d => (pick i n).map fun j => (j, some d)
  | _ => none
where
  /-- The variant the format's identifier stands for. -/
  pick (i : Nat) (n : String) : Option Nat :=
    match m with
    | .byName => names.idxOf? n
    | .byIndex => if i < names.length then some i else none

theorem deField_size {n : String} {fields : List (String × Data)} {d : Data}
    (h : deField n fields = some d) : sizeOf d < sizeOf fields := by
  unfold deField at h
  split at h
  · next p hp =>
    cases h
    have : p ∈ fields := by
      have : p ∈ fields.filter fun q => q.1 == n := by rw [hp]; simp
      exact (List.mem_filter.1 this).1
    exact sizeOf_snd_lt_of_mem this
  · cases h

theorem deFieldsOf_size {fields : List (String × Data)} : ∀ {names : List String} {ds : List Data},
    deFieldsOf fields names = some ds → ∀ x ∈ ds, sizeOf x < sizeOf fields
  | [], ds, h, x, hx => by simp [deFieldsOf] at h; subst h; cases hx
  | n :: ns, ds, h, x, hx => by
    simp only [deFieldsOf] at h
    split at h
    · next d ds' h1 h2 =>
      cases h
      rcases List.mem_cons.1 hx with rfl | hx'
      · exact deField_size h1
      · exact deFieldsOf_size h2 x hx'
    · cases h

theorem deStruct_size {names : List String} {d : Data} {ds : List Data}
    (h : deStruct names d = some ds) : ∀ x ∈ ds, sizeOf x < sizeOf d := by
  unfold deStruct at h
  split at h
  · next fields =>
    intro x hx
    have := deFieldsOf_size h x hx
    simp only [Data.struct.sizeOf_spec]; omega
  · split at h
    · cases h
      intro x hx
      have := List.sizeOf_lt_of_mem hx
      simp only [Data.seq.sizeOf_spec]; omega
    · cases h
  · cases h

theorem deEnum_size {m : VariantId} {names : List String} {d : Data} {i : Nat} {c : Data}
    (h : deEnum m names d = some (i, some c)) : sizeOf c < sizeOf d := by
  unfold deEnum at h
  split at h
  · simp at h
  · simp at h
    obtain ⟨_, _, _, rfl⟩ := h
    simp only [Data.newtype.sizeOf_spec]; omega
  · cases h

theorem deSeq_size {d : Data} {xs : List Data} (h : deSeq d = some xs) : sizeOf xs < sizeOf d := by
  unfold deSeq at h
  split at h
  · cases h; simp only [Data.seq.sizeOf_spec]; omega
  · cases h

theorem deMap_size {d : Data} {xs : List (Data × Data)} (h : deMap d = some xs) :
    sizeOf xs < sizeOf d := by
  unfold deMap at h
  split at h
  · cases h; simp only [Data.map.sizeOf_spec]; omega
  · cases h

mutual
/-- Derived `Deserialize for Value` (value.rs:38-62): which variant it is. -/
def Value.de (m : VariantId) (d : Data) : Option Value :=
  match h : deEnum m valueVariants d with
  | some (i, some c) =>
    have := deEnum_size h
    deVariant m c i
  | _ => none
termination_by (sizeOf d, 0)
decreasing_by simp_wf; omega
/-- Derived `Deserialize for Value` (value.rs:38-62): the payload of the variant at a position. A
`BTreeMap` is read by inserting the entries one by one, in the order they come; `Vec`s keep their
order. -/
def deVariant (m : VariantId) (c : Data) : Nat → Option Value
  | 16 => (deStructValue m c).map fun s => .struct s.1 s.2
  | 17 => deEnumValue m c
  | 18 =>
    match h : deStruct ["tuple"] c with
    | some [t] =>
      have := deStruct_size h t (by simp)
      (deTupleValue m t).map .tupleStruct
    | _ => none
  | 19 => (deTupleValue m c).map .tuple
  | 20 =>
    match h : deSeq c with
    | some xs =>
      have := deSeq_size h
      (deValues m xs).map .list
    | none => none
  | 21 =>
    match h : deMap c with
    | some kvs =>
      have := deMap_size h
      (dePairs m kvs).map fun l => .map (bmOfList Value.cmp l)
    | none => none
  | i => (ScalarKind.ofIdx i).bind fun k => (Scalar.de k c).map .scalar
termination_by (sizeOf c, 1)
decreasing_by all_goals (simp_wf; omega)
/-- Derived `Deserialize for StructValue` (struct_.rs:50-55): the two fields are read independently
of each other. -/
def deStructValue (m : VariantId) (d : Data) : Option (List String × List (String × Value)) :=
  match h : deStruct ["field_names", "fields"] d with
  | some [a, b] =>
    have := deStruct_size h b (by simp)
    match deStrs a, h2 : deMap b with
    | some ns, some kvs =>
      have := deMap_size h2
      (deFields m kvs).map fun l => (ns, bmOfList strCmp l)
    | _, _ => none
  | _ => none
termination_by (sizeOf d, 0)
decreasing_by simp_wf; omega
/-- Derived `Deserialize for EnumValue`, `EnumValueKind` (enum_.rs:66-79). -/
def deEnumValue (m : VariantId) (d : Data) : Option Value :=
  match h : deStruct ["name", "kind"] d with
  | some [a, b] =>
    have := deStruct_size h b (by simp)
    match deStr a, h2 : deEnum m ["Struct", "Tuple", "Unit"] b with
    | some n, some (0, some c) =>
      have := deEnum_size h2
      (deStructValue m c).map fun s => .enumS n s.1 s.2
    | some n, some (1, some c) =>
      have := deEnum_size h2
      (deTupleValue m c).map (.enumT n)
    | some n, some (2, none) => some (.enumU n)
    | _, _ => none
  | _ => none
termination_by (sizeOf d, 0)
decreasing_by all_goals (simp_wf; omega)
/-- Derived `Deserialize for TupleValue` (tuple.rs:43-46). -/
def deTupleValue (m : VariantId) (d : Data) : Option (List Value) :=
  match h : deStruct ["fields"] d with
  | some [t] =>
    have := deStruct_size h t (by simp)
    match h2 : deSeq t with
    | some xs =>
      have := deSeq_size h2
      deValues m xs
    | none => none
  | _ => none
termination_by (sizeOf d, 0)
decreasing_by simp_wf; omega
/-- `Deserialize for Vec<Value>`. -/
def deValues (m : VariantId) (xs : List Data) : Option (List Value) :=
  match xs with
  | [] => some []
  | d :: ds =>
    match Value.de m d, deValues m ds with
    | some v, some vs => some (v :: vs)
    | _, _ => none
termination_by (sizeOf xs, 0)
decreasing_by all_goals (simp_wf; omega)
/-- The entries of a `BTreeMap<String, Value>`. -/
def deFields (m : VariantId) (xs : List (Data × Data)) : Option (List (String × Value)) :=
  match xs with
  | [] => some []
  | (k, d) :: ds =>
    match deStr k, Value.de m d, deFields m ds with
    | some n, some v, some vs => some ((n, v) :: vs)
    | _, _, _ => none
termination_by (sizeOf xs, 0)
decreasing_by all_goals (simp_wf; omega)
/-- The entries of a `BTreeMap<Value, Value>`. -/
def dePairs (m : VariantId) (xs : List (Data × Data)) : Option (List (Value × Value)) :=
  match xs with
  | [] => some []
  | (k, d) :: ds =>
    match Value.de m k, Value.de m d, dePairs m ds with
    | some n, some v, some vs => some ((n, v) :: vs)
    | _, _, _ => none
termination_by (sizeOf xs, 0)
decreasing_by all_goals (simp_wf; omega)
end

/-- Derived `Deserialize for Key` and `NamedOrNumbered` (key_path.rs:378-383,419-423). -/
def Key.de (m : VariantId) (d : Data) : Option Key :=
  match deEnum m ["Field", "Get", "Variant"] d with
  | some (0, some c) =>
    match deEnum m ["Named", "Numbered"] c with
    | some (0, some s) => (deStr s).map .named
    | some (1, some n) =>
      match Scalar.de (.int .usize) n with
      | some (.int _ i) => some (.numbered i.toNat)
      | _ => none
    | _ => none
  | some (1, some c) => (Value.de m c).map .get
  | some (2, some c) => (deStr c).map .variant
  | _ => none

/-- Derived `Deserialize for KeyPath` (key_path.rs:220-223). -/
def KeyPath.de (m : VariantId) (d : Data) : Option KeyPath :=
  match deStruct ["path"] d with
  | some [t] => (deSeq t).bind fun xs => xs.mapM (Key.de m)
  | _ => none

end Mirror
