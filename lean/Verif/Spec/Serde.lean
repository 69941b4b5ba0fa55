import Verif.Spec.Typing
import Verif.Spec.Path
import Verif.Model.Serde

/-!
# Specification for serialised values
-/

namespace Mirror

/-- An integer scalar within the range of its Rust type. -/
def Scalar.Fits : Scalar → Prop
  | .int k n => k.InRange n
  | _ => True

/-- What the Rust type `Value` can hold at all, however it came about: integers are in range and
every `BTreeMap` is in key order. In contrast to `Value.WF` the name list of a `StructValue` need
have nothing to do with its field map. -/
inductive Value.Storable : Value → Prop
  | scalar (s) : s.Fits → Value.Storable (.scalar s)
  | struct (ns fs) : BMSorted strCmp fs → (∀ p ∈ fs, Value.Storable p.2) →
      Value.Storable (.struct ns fs)
  | enumS (v ns fs) : BMSorted strCmp fs → (∀ p ∈ fs, Value.Storable p.2) →
      Value.Storable (.enumS v ns fs)
  | enumT (v fs) : (∀ x ∈ fs, Value.Storable x) → Value.Storable (.enumT v fs)
  | enumU (v) : Value.Storable (.enumU v)
  | tupleStruct (fs) : (∀ x ∈ fs, Value.Storable x) → Value.Storable (.tupleStruct fs)
  | tuple (fs) : (∀ x ∈ fs, Value.Storable x) → Value.Storable (.tuple fs)
  | list (xs) : (∀ x ∈ xs, Value.Storable x) → Value.Storable (.list xs)
  | map (kvs) : BMSorted Value.cmp kvs → (∀ p ∈ kvs, Value.Storable p.1) →
      (∀ p ∈ kvs, Value.Storable p.2) → Value.Storable (.map kvs)

/-- Every integer in a value is within the range of its type. -/
inductive Value.Fits : Value → Prop
  | scalar (s) : s.Fits → Value.Fits (.scalar s)
  | struct (ns fs) : (∀ p ∈ fs, Value.Fits p.2) → Value.Fits (.struct ns fs)
  | enumS (v ns fs) : (∀ p ∈ fs, Value.Fits p.2) → Value.Fits (.enumS v ns fs)
  | enumT (v fs) : (∀ x ∈ fs, Value.Fits x) → Value.Fits (.enumT v fs)
  | enumU (v) : Value.Fits (.enumU v)
  | tupleStruct (fs) : (∀ x ∈ fs, Value.Fits x) → Value.Fits (.tupleStruct fs)
  | tuple (fs) : (∀ x ∈ fs, Value.Fits x) → Value.Fits (.tuple fs)
  | list (xs) : (∀ x ∈ xs, Value.Fits x) → Value.Fits (.list xs)
  | map (kvs) : (∀ p ∈ kvs, Value.Fits p.1) → (∀ p ∈ kvs, Value.Fits p.2) → Value.Fits (.map kvs)

/-- A key the Rust type can hold: indices are `usize`, values are `Storable`. -/
def Key.Storable : Key → Prop
  | .numbered i => i < 2 ^ 64
  | .get v => v.Storable
  | _ => True

/-- At every place the names a `StructValue` lists are the names of its fields. -/
inductive Value.NamesAgree : Value → Prop
  | scalar (s) : Value.NamesAgree (.scalar s)
  | struct (ns fs) : (∀ n, n ∈ ns ↔ n ∈ fs.map (·.1)) → (∀ p ∈ fs, Value.NamesAgree p.2) →
      Value.NamesAgree (.struct ns fs)
  | enumS (v ns fs) : (∀ n, n ∈ ns ↔ n ∈ fs.map (·.1)) → (∀ p ∈ fs, Value.NamesAgree p.2) →
      Value.NamesAgree (.enumS v ns fs)
  | enumT (v fs) : (∀ x ∈ fs, Value.NamesAgree x) → Value.NamesAgree (.enumT v fs)
  | enumU (v) : Value.NamesAgree (.enumU v)
  | tupleStruct (fs) : (∀ x ∈ fs, Value.NamesAgree x) → Value.NamesAgree (.tupleStruct fs)
  | tuple (fs) : (∀ x ∈ fs, Value.NamesAgree x) → Value.NamesAgree (.tuple fs)
  | list (xs) : (∀ x ∈ xs, Value.NamesAgree x) → Value.NamesAgree (.list xs)
  | map (kvs) : (∀ p ∈ kvs, Value.NamesAgree p.1) → (∀ p ∈ kvs, Value.NamesAgree p.2) →
      Value.NamesAgree (.map kvs)

end Mirror
