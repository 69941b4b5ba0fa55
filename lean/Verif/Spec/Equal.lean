import Verif.Spec.Compare

/-!
# Specification: when `reflect_eq` says `Some(true)`

In terms of the accessors `reflect_ref`, `variant_name`, `variant_kind`, `fields_len`, `field`, `field_at`,
`name_at`, `get` of the two values only.
-/

namespace Mirror

/-- There is no skipped field at position `i` or before. -/
def Obj.Reaches (o : Obj) (i : Nat) : Prop := ∀ j ≤ i, (o.fieldAt j).isSome

/-- No skipped field comes before a reflected one. -/
def Obj.Gapless (o : Obj) : Prop := ∀ i x, o.fieldAt i = some x → o.Reaches i

/-- One level of comparison; `eq` compares the parts.

* Scalars: Rust's `==` on the same scalar type.
* Structs: as many fields, and each field of the first has an equal one of its name in the second.
* Tuple structs, tuples, lists and arrays: of the same kind, as many fields, and equal ones at each position
  up to the first skipped field in either.
* Enums: the same variant name, kind of variant and number of fields, and the fields compared as those of
  tuples or structs, up to the first skipped field (of the first, in struct variants).
* Maps: as many entries, and looking up each key of the first in the second finds an equal value. -/
inductive EqStep (E : Env) (eq : Obj → Obj → Prop) : Obj → Obj → Prop
  | scalar (a b s s') : a.asScalar = some s → b.asScalar = some s' → s.eqv s' = true → EqStep E eq a b
  | struct (a b) : a.kind = .struct → b.kind = .struct → a.fieldsLen = b.fieldsLen →
      (∀ n x, a.field n = some x → ∃ y, b.field n = some y ∧ eq x y) → EqStep E eq a b
  | positional (a b k) : k = .tupleStruct ∨ k = .tuple ∨ k = .list ∨ k = .array →
      a.kind = k → b.kind = k → a.fieldsLen = b.fieldsLen →
      (∀ i x y, a.fieldAt i = some x → b.fieldAt i = some y → a.Reaches i → b.Reaches i → eq x y) →
      EqStep E eq a b
  | unitVariant (a b) : a.variantKind = some .unit → b.variantKind = some .unit →
      a.variantName = b.variantName → EqStep E eq a b
  | tupleVariant (a b) : a.variantKind = some .tuple → b.variantKind = some .tuple →
      a.variantName = b.variantName → a.fieldsLen = b.fieldsLen →
      (∀ i x y, a.fieldAt i = some x → b.fieldAt i = some y → a.Reaches i → b.Reaches i → eq x y) →
      EqStep E eq a b
  | structVariant (a b) : a.variantKind = some .struct → b.variantKind = some .struct →
      a.variantName = b.variantName → a.fieldsLen = b.fieldsLen →
      (∀ i n x, a.nameAt i = some n → a.fieldAt i = some x → a.Reaches i →
        ∃ y, b.field n = some y ∧ eq x y) → EqStep E eq a b
  | map (kt vt kvs b) : b.kind = .map → b.fieldsLen = kvs.length →
      (∀ p ∈ kvs, ∃ y, b.mapGet E p.1 = some y ∧ eq p.2 y) → EqStep E eq (.map kt vt kvs) b

/-- `a` is equal to `b`: the least relation closed under `EqStep`. -/
def EqualTo (E : Env) (a b : Obj) : Prop :=
  ∀ R : Obj → Obj → Prop, (∀ a b, EqStep E R a b → R a b) → R a b

/-- Walking over `o`, no struct variant is met with a skipped field before a reflected one. -/
def Obj.VariantsGapless : Obj → Prop :=
  Obj.Everywhere fun o => o.variantKind = some .struct → o.Gapless

/-- Nothing is met with a skipped field before a reflected one. -/
def Obj.AllGapless : Obj → Prop := Deep Obj.walked Obj.Gapless

end Mirror
