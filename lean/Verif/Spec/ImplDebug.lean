import Verif.Model.ImplDebug
import Verif.Spec.Impl
import Mathlib.Data.List.Forall2

/-!
# Specification: what `reflect_debug` prints
-/

namespace Mirror

/-- The items are those of the positions before the first that has none. -/
def UpToFirstGap {α : Type} (at' : Nat → Option α) (l : List α) : Prop :=
  (∀ i < l.length, at' i = l[i]?) ∧ at' l.length = none

/-- The named field at a position that has both a name and a field. -/
def fieldNamed {A : Type} (nameAt : Nat → Option String) (fieldAt : Nat → Option A) (i : Nat) :
    Option (String × A) :=
  (nameAt i).bind fun n => (fieldAt i).map fun x => (n, x)

/-- What is printed of a value: its kind of container, its name (none for tuples, the variant's for enums),
and its parts up to the first gap. -/
inductive Impl.Prints {A : Type} (I : Impl A) (nm : A → String) (a : A) : DbgOf A → Prop
  | struct {len field fieldAt nameAt l} : I.view a = .struct len field fieldAt nameAt →
      UpToFirstGap (fieldNamed nameAt fieldAt) l → I.Prints nm a (.struct (nm a) l)
  | tupleStruct {len fieldAt l} : I.view a = .tupleStruct len fieldAt → UpToFirstGap fieldAt l →
      I.Prints nm a (.tuple (nm a) l)
  | tuple {len fieldAt l} : I.view a = .tuple len fieldAt → UpToFirstGap fieldAt l →
      I.Prints nm a (.tuple "" l)
  | enumStruct {v len field fieldAt nameAt l} : I.view a = .enum v .struct len field fieldAt nameAt →
      UpToFirstGap (fieldNamed nameAt fieldAt) l → I.Prints nm a (.struct v l)
  | enumTuple {v len field fieldAt nameAt l} : I.view a = .enum v .tuple len field fieldAt nameAt →
      UpToFirstGap fieldAt l → I.Prints nm a (.tuple v l)
  | enumUnit {v len field fieldAt nameAt} : I.view a = .enum v .unit len field fieldAt nameAt →
      I.Prints nm a (.text v)
  | array {len get l} : I.view a = .array len get → UpToFirstGap get l → I.Prints nm a (.list l)
  | list {len get l} : I.view a = .list len get → UpToFirstGap get l → I.Prints nm a (.list l)
  | map {len get entries l} : I.view a = .map len get entries → UpToFirstGap entries l →
      I.Prints nm a (.map l)
  | scalar {s} : I.view a = .scalar s → I.Prints nm a (.scalar s)
  | opaque : I.view a = .opaque → I.Prints nm a (.text (nm a))

/-- The same calls with related parts. -/
inductive DbgOf.Same {A B : Type} (R : A → B → Prop) : DbgOf A → DbgOf B → Prop
  | struct {name l l'} : List.Forall₂ (fun p q => p.1 = q.1 ∧ R p.2 q.2) l l' →
      DbgOf.Same R (.struct name l) (.struct name l')
  | tuple {name l l'} : List.Forall₂ R l l' → DbgOf.Same R (.tuple name l) (.tuple name l')
  | list {l l'} : List.Forall₂ R l l' → DbgOf.Same R (.list l) (.list l')
  | map {l l'} : List.Forall₂ (fun p q => R p.1 q.1 ∧ R p.2 q.2) l l' → DbgOf.Same R (.map l) (.map l')
  | scalar {s} : DbgOf.Same R (.scalar s) (.scalar s)
  | text {s} : DbgOf.Same R (.text s) (.text s)

/-- The calls of `Model/Debug`. -/
def Dbg.calls : Dbg → DbgOf Obj
  | .struct n l => .struct n l
  | .tuple n l => .tuple n l
  | .list l => .list l
  | .map l => .map l
  | .scalar s => .scalar s
  | .text s => .text s

/-- Some position has no field, element or entry. -/
def RefView.Ends {A : Type} : RefView A → Prop
  | .struct _ _ fieldAt nameAt => ∃ i, nameAt i = none ∨ fieldAt i = none
  | .enum _ .struct _ _ fieldAt nameAt => ∃ i, nameAt i = none ∨ fieldAt i = none
  | .enum _ .tuple _ _ fieldAt _ => ∃ i, fieldAt i = none
  | .tupleStruct _ fieldAt => ∃ i, fieldAt i = none
  | .tuple _ fieldAt => ∃ i, fieldAt i = none
  | .array _ get => ∃ i, get i = none
  | .list _ get => ∃ i, get i = none
  | .map _ _ entries => ∃ i, entries i = none
  | _ => True


end Mirror
