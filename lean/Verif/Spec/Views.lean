import Mathlib.Data.List.Forall2
import Verif.Spec.TypeInfo
import Verif.Spec.Typing
import Verif.Spec.Iter
import Verif.Model.Containers

/-!
# Specification: what all accessors together show of a value
-/

namespace Mirror

/-- All accessors of a struct or struct variant show exactly the named fields `l`, in this order:
`fields_len`, `name_at`, `field_at` (indices past the end give `None`), `field`, and iteration. -/
structure Obj.ShowsNamed (x : Obj) (l : List (String × Obj)) : Prop where
  len : x.fieldsLen = l.length
  name_at : ∀ i, x.nameAt i = l[i]?.map (·.1)
  field_at : ∀ i, x.fieldAt i = l[i]?.map (·.2)
  field : ∀ n, x.field n = (l.find? fun p => p.1 == n).map (·.2)
  fields : Yields FieldIter.nextNamed x.iter l

/-- All accessors of a tuple-like value show exactly the fields `l`, in this order. -/
structure Obj.ShowsPos (x : Obj) (l : List Obj) : Prop where
  len : x.fieldsLen = l.length
  field_at : ∀ i, x.fieldAt i = l[i]?
  fields : Yields FieldIter.nextPos x.iter l

/-- Named values beside the names and types a struct's type information lists. -/
def NamedAs (E : Env) (l : List (String × Obj)) (ts : List (String × Option Ty)) : Prop :=
  List.Forall₂ (fun p q => p.1 = q.1 ∧ ∃ t, q.2 = some t ∧ HasTy E t p.2) l ts

/-- The value is in this variant and shows the fields it lists. -/
inductive FitsVariant (E : Env) : VariantNode → Obj → Prop
  | struct (n names fields x l) : x.variantName = some n → x.variantKind = some .struct →
      x.ShowsNamed l → Yields FieldIter.nextVariant x.iter (l.map fun p => .struct p.1 p.2) →
      NamedAs E l (namedTypes names fields) → FitsVariant E (.struct n names fields) x
  | tuple (n fields x l) : x.variantName = some n → x.variantKind = some .tuple →
      x.ShowsPos l → Yields FieldIter.nextVariant x.iter (l.map .tuple) →
      List.Forall₂ (fun t y => HasTy E t y) fields l → FitsVariant E (.tuple n fields) x
  | unit (n x) : x.variantName = some n → x.variantKind = some .unit → x.fieldsLen = 0 →
      Yields FieldIter.nextVariant x.iter [] → FitsVariant E (.unit n) x

/-- The value is of the kind the type information says, and shows what the type information lists:
the same fields in the same order, with values of the listed types. -/
inductive Fits (E : Env) : TypeNode → Obj → Prop
  | struct (names fields x l) : x.kind = .struct → x.ShowsNamed l →
      NamedAs E l (namedTypes names fields) → Fits E (.struct names fields) x
  | tupleStruct (fields x l) : x.kind = .tupleStruct → x.ShowsPos l →
      List.Forall₂ (fun t y => HasTy E t y) fields l → Fits E (.tupleStruct fields) x
  | tuple (fields x l) : x.kind = .tuple → x.ShowsPos l →
      List.Forall₂ (fun t y => HasTy E t y) fields l → Fits E (.tuple fields) x
  | enum (vs v x) : x.kind = .enum → v ∈ vs → (∀ w ∈ vs, w.name = v.name → w = v) →
      FitsVariant E v x → Fits E (.enum vs) x
  | list (t x l) : x.kind = .list → x.ShowsPos l → (∀ y ∈ l, HasTy E t y) → Fits E (.list t) x
  | array (t n x l) : x.kind = .array → x.ShowsPos l → (∀ y ∈ l, HasTy E t y) → l.length = n →
      Fits E (.array t n) x
  | map (k v x) : x.kind = .map → x.fieldsLen = x.mapIter.length →
      (∀ p ∈ x.mapIter, HasTy E k p.1 ∧ HasTy E v p.2) → Fits E (.map k v) x
  | scalar (k x s) : x.kind = .scalar → x.asScalar = some s → s.kind = k → Fits E (.scalar k) x

/-- The fields a variant lists: their number, and their names if they are named. -/
def VariantNode.Counts : VariantNode → Obj → Prop
  | .struct _ names fields, x => x.variantKind = some .struct ∧ x.fieldsLen = names.length ∧
      ∀ m, (x.field m).isSome ↔ (namedType fields m).isSome
  | .tuple _ fields, x => x.variantKind = some .tuple ∧ x.fieldsLen = fields.length
  | .unit _, x => x.variantKind = some .unit ∧ x.fieldsLen = 0

/-- The positional fields of `x`, by declared index: nothing at a skipped one, a value of the declared
type at every other, nothing past the end; the count is the number of non-skipped fields. `to_value`
shows exactly the non-skipped fields, without gaps. Iteration yields those before the first skipped
one, and then stops. -/
structure SkipsAt (E : Env) (fds : List FieldDef) (x : Obj) : Prop where
  skipped : ∀ (i : Nat) fd, fds[i]? = some fd → fd.skip = true → x.fieldAt i = none
  shown : ∀ (i : Nat) fd, fds[i]? = some fd → fd.skip = false →
    ∃ y, x.fieldAt i = some y ∧ HasTy E fd.ty y
  past : ∀ i, fds.length ≤ i → x.fieldAt i = none
  count : x.fieldsLen = (fds.filter fun fd => !fd.skip).length
  iter : ∃ l, Yields FieldIter.nextPos x.iter l ∧
    List.Forall₂ (fun y fd => HasTy E fd.ty y) l (fds.takeWhile fun fd => !fd.skip)
  value : ∃ l : List Obj, x.toValue.toObj.ShowsPos (l.map fun y => y.toValue.toObj) ∧
    List.Forall₂ (fun y fd => HasTy E fd.ty y) l (fds.filter fun fd => !fd.skip)

/-- The named fields of a struct variant `x`: by name, exactly the non-skipped ones; by index, the
declared index with nothing at skipped positions; `to_value` shows the non-skipped fields, without
gaps. -/
structure SkipsNamed (E : Env) (fds : List FieldDef) (x : Obj) : Prop where
  skipped : ∀ (i : Nat) fd, fds[i]? = some fd → fd.skip = true →
    x.field fd.name = none ∧ x.fieldAt i = none ∧ x.nameAt i = none
  shown : ∀ (i : Nat) fd, fds[i]? = some fd → fd.skip = false → x.nameAt i = some fd.name ∧
    ∃ y, x.field fd.name = some y ∧ x.fieldAt i = some y ∧ HasTy E fd.ty y
  other : ∀ m, m ∉ fds.map (·.name) → x.field m = none
  past : ∀ i, fds.length ≤ i → x.fieldAt i = none ∧ x.nameAt i = none
  count : x.fieldsLen = (fds.filter fun fd => !fd.skip).length
  iter : ∃ l, Yields FieldIter.nextNamed x.iter l ∧
    List.Forall₂ (fun p fd => p.1 = fd.name ∧ HasTy E fd.ty p.2) l (fds.takeWhile fun fd => !fd.skip)
  value : ∃ l : List (String × Obj), x.toValue.toObj.ShowsNamed (l.map fun p => (p.1, p.2.toValue.toObj)) ∧
    List.Forall₂ (fun p fd => p.1 = fd.name ∧ HasTy E fd.ty p.2) l (fds.filter fun fd => !fd.skip)

end Mirror
