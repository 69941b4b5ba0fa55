import Verif.Model.TypeView
import Verif.Spec.TypeInfo
import Mathlib.Data.List.Forall2

/-!
# Specification: what the views of a type should say

In terms of the declaration and of what the accessors of the views return. `R u v` stands for "`v` is a view
of the type `u`"; the definitions below say what one view must show, and that its parts are again views
of the types they should be.
-/

namespace Mirror

/-- The declared fields that are not skipped. -/
def viewedFields (fds : List FieldDef) : List FieldDef := fds.filter fun fd => !fd.skip

/-- Named fields, as shown by `field_types`, `fields_len`, `field_type` and `field_type_at`. -/
structure NamedFieldsShown (R : Ty → TypeView → Prop) (fds : List FieldDef)
    (types : List (Option NamedField)) (len : Nat) (byName : String → Option NamedField)
    (at_ : Nat → Option NamedField) : Prop where
  /-- No item panics; the fields come in declaration order, with their names and types. -/
  iter : ∃ fs, types = fs.map some ∧
    List.Forall₂ (fun fd f => f.name = fd.name ∧ ∃ v, f.getType = some v ∧ R fd.ty v) (viewedFields fds) fs
  /-- The length is the number of fields iterated. -/
  count : len = (viewedFields fds).length
  /-- Access by position is iteration. -/
  positional : ∀ i : Nat, at_ i = (types[i]?).join
  /-- Access by name finds exactly the fields iterated. -/
  named : ∀ n f, byName n = some f ↔ some f ∈ types ∧ f.name = n

/-- Unnamed fields of given types, as shown by `field_types`, `fields_len` and `field_type_at`. -/
structure PosFieldsShown (R : Ty → TypeView → Prop) (tys : List Ty) (types : List UnnamedField) (len : Nat)
    (at_ : Nat → Option UnnamedField) : Prop where
  iter : List.Forall₂ (fun u (f : UnnamedField) => ∃ v, f.getType = some v ∧ R u v) tys types
  count : len = tys.length
  positional : ∀ i : Nat, at_ i = types[i]?

/-- The fields of a variant, with (`b`) or without names, as shown by the accessors of `Variant`. -/
structure VariantFieldsShown (R : Ty → TypeView → Prop) (b : Bool) (fds : List FieldDef) (w : VariantView) :
    Prop where
  iter : ∃ fs, w.fieldTypes = fs.map some ∧
    List.Forall₂ (fun fd f => f.name = (if b then some fd.name else none) ∧
      ∃ v, f.getType = some v ∧ R fd.ty v) (viewedFields fds) fs
  count : w.fieldsLen = (viewedFields fds).length
  positional : ∀ i : Nat, w.fieldTypeAt i = (w.fieldTypes[i]?).join
  named : ∀ n f, w.fieldType n = some f ↔ some (.named f) ∈ w.fieldTypes ∧ f.name = n

/-- One variant of the enum with the view `e`. -/
def VariantShown (R : Ty → TypeView → Prop) (N : Ty → String) (t : Ty) (e : EnumType) (vd : VariantDef)
    (w : VariantView) : Prop :=
  w.enumType = e ∧ w.typeName N = N t ∧ w.name = vd.name ∧
  match vd with
  | .struct _ fds => VariantFieldsShown R true fds w ∧ ∃ s, w = .struct s ∧
      NamedFieldsShown R fds s.fieldTypes s.fieldsLen s.fieldType s.fieldTypeAt
  | .tuple _ fds => VariantFieldsShown R false fds w ∧ ∃ s, w = .tuple s ∧
      PosFieldsShown R ((viewedFields fds).map (·.ty)) s.fieldTypes s.fieldsLen s.fieldTypeAt
  | .unit _ => VariantFieldsShown R false [] w ∧ ∃ s, w = .unit s

/-- What a view of the type `t` (which is not a box) shows. -/
def Shows (E : Env) (N : Ty → String) (R : Ty → TypeView → Prop) (t : Ty) (v : TypeView) : Prop :=
  v.typeName N = N t ∧
  match t with
  | .scalar k => v.asScalar = some k
  | .nonzero _ | .value | .structValue | .tupleStructValue | .tupleValue | .enumValue => v.asOpaque.isSome
  | .box _ => False
  | .vec u => ∃ l, v.asList = some l ∧ ∃ w, l.elementType = some w ∧ R u w
  | .array u n => ∃ a, v.asArray = some a ∧ a.len = n ∧ (a.isEmpty ↔ n = 0) ∧
      ∃ w, a.elementType = some w ∧ R u w
  | .map k u => ∃ m, v.asMap = some m ∧ (∃ w, m.keyType = some w ∧ R k w) ∧
      ∃ w, m.valueType = some w ∧ R u w
  | .tuple us => ∃ s, v.asTuple = some s ∧ PosFieldsShown R us s.fieldTypes s.fieldsLen s.fieldTypeAt
  | .named n =>
    match E.decl n with
    | none => False
    | some ⟨.struct fds, _⟩ => ∃ s, v.asStruct = some s ∧
        NamedFieldsShown R fds s.fieldTypes s.fieldsLen s.fieldType s.fieldTypeAt
    | some ⟨.tupleStruct fds, _⟩ => ∃ s, v.asTupleStruct = some s ∧
        PosFieldsShown R ((viewedFields fds).map (·.ty)) s.fieldTypes s.fieldsLen s.fieldTypeAt
    | some ⟨.enum vds, _⟩ => ∃ e, v.asEnum = some e ∧ e.variantsLen = vds.length ∧
        List.Forall₂ (VariantShown R N t e) vds e.variantViews ∧
        ∀ n w, e.variant n = some w ↔ w ∈ e.variantViews ∧ w.name = n

/-- `R` relates types to correct views: a view of `t` shows `t` (or the content of the box `t`), and its parts
are related again. -/
def ViewsCorrect (E : Env) (N : Ty → String) (R : Ty → TypeView → Prop) : Prop :=
  ∀ t v, R t v → Shows E N R t.unbox v

/-- How many of the nine `as_*` of a view are `Some`. -/
def TypeView.kinds (v : TypeView) : Nat :=
  [v.asStruct.isSome, v.asTupleStruct.isSome, v.asTuple.isSome, v.asEnum.isSome, v.asArray.isSome,
    v.asList.isSome, v.asMap.isSome, v.asScalar.isSome, v.asOpaque.isSome].countP id

end Mirror
