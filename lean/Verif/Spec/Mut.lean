import Mathlib.Data.List.Forall2
import Verif.Model.Mut
import Verif.Spec.Access

/-!
# Specification: assignments to fields
-/

namespace Mirror

/-- `*o.field_mut(n).unwrap() = y`, or nothing if there is no such field. -/
def Obj.assign (o : Obj) (n : String) (y : Obj) : Obj :=
  match o.fieldMut n with
  | some pl => pl.put y
  | none => o

/-- `*o.field_at_mut(i).unwrap() = y`, or nothing if there is no such field. -/
def Obj.assignAt (o : Obj) (i : Nat) (y : Obj) : Obj :=
  match o.fieldAtMut i with
  | some pl => pl.put y
  | none => o

/-- The data of the skipped fields of `o` itself. -/
def Obj.skipped : Obj → List Obj
  | .struct _ fs | .enumS _ _ fs => (fs.map (·.2)).filter Obj.isHidden
  | .tupleStruct _ fs | .tuple _ fs | .enumT _ _ fs => fs.filter Obj.isHidden
  | _ => []

/-- `o` is a struct, or an enum in a struct variant. -/
def Obj.Named (o : Obj) : Prop := o.kind = .struct ∨ o.variantKind = some .struct

/-- `o` is a tuple struct, a tuple, a list, an array, or an enum in a tuple variant. -/
def Obj.Positional (o : Obj) : Prop :=
  o.kind = .tupleStruct ∨ o.kind = .tuple ∨ o.kind = .list ∨ o.kind = .array ∨
    o.variantKind = some .tuple

/-- What stays when the contents of some fields are replaced: the kind, the variant, the names by index,
the number of fields, and the data in skipped fields. -/
structure Obj.SameShape (o o' : Obj) : Prop where
  kind : o'.kind = o.kind
  variant_name : o'.variantName = o.variantName
  variant_kind : o'.variantKind = o.variantKind
  name_at : ∀ i, o'.nameAt i = o.nameAt i
  len : o'.fieldsLen = o.fieldsLen
  skipped : o'.skipped = o.skipped

end Mirror
