import Verif.Model.ImplFrom
import Verif.Model.Debug

/-!
# `reflect_debug` of values whose `Reflect` implementation somebody wrote by hand

Which calls it makes on the formatter, as in `Model/Debug`, for an arbitrary implementation. Fields, elements,
keys and values are passed on; how they print is their own `Debug`. An iterator need not end, so the
functions take a number of turns and answer `none` when that does not suffice.
-/

namespace Mirror

/-- The calls on `Formatter`: `debug_struct(name)` with `field(name, value)` calls, `debug_tuple(name)` with
`field(value)` calls, `debug_list`, `debug_map`, the `Debug` of a scalar, or plain text. -/
inductive DbgOf (A : Type)
  | struct (name : String) (fields : List (String × A))
  | tuple (name : String) (fields : List A)
  | list (elems : List A)
  | map (entries : List (A × A))
  | scalar (s : Scalar)
  | text (s : String)

/-- What an iterator yields until it ends, in so many turns. -/
def drain {α : Type} (next : Nat → Option α) : Nat → Nat → Option (List α)
  | 0, _ => none
  | f + 1, i =>
    match next i with
    | none => some []
    | some x => (drain next f (i + 1)).map (x :: ·)

/-- `VariantField` (enum_.rs:420-423). -/
inductive VFieldOf (A : Type)
  | struct (n : String) (x : A)
  | tuple (x : A)

/-- `VariantFieldIter::next` (enum_.rs:401-416). -/
def variantItem {A : Type} (kind : VKind) (nameAt : Nat → Option String) (fieldAt : Nat → Option A) (i : Nat) :
    Option (VFieldOf A) :=
  match kind with
  | .struct => (namedItem nameAt fieldAt i).map fun p => .struct p.1 p.2
  | .tuple => (fieldAt i).map .tuple
  | .unit => none

/-- The loop over the fields of a struct variant (lib.rs:1243-1252); `none` is the `unreachable!`.
Simplification: it comes after the iterator has ended. -/
def debugNamedOf {A : Type} : List (VFieldOf A) → Option (List (String × A))
  | [] => some []
  | .struct n x :: r => (debugNamedOf r).map ((n, x) :: ·)
  | .tuple _ :: _ => none

/-- The loop over the fields of a tuple variant (lib.rs:1257-1266); see `debugNamedOf`. -/
def debugPosOf {A : Type} : List (VFieldOf A) → Option (List A)
  | [] => some []
  | .struct _ _ :: _ => none
  | .tuple x :: r => (debugPosOf r).map (x :: ·)

/-- `reflect_debug` (lib.rs:1206-1296), with iterators of fewer than `n` items; `some none` is a panic. `nm`
gives `type_name()`. -/
def Impl.reflectDebug {A : Type} (I : Impl A) (nm : A → String) (n : Nat) (a : A) : Option (Option (DbgOf A)) :=
  match I.view a with
  | .struct _ _ fieldAt nameAt => (drain (namedItem nameAt fieldAt) n 0).map fun l => some (.struct (nm a) l)
  | .tupleStruct _ fieldAt => (drain fieldAt n 0).map fun l => some (.tuple (nm a) l)
  | .tuple _ fieldAt => (drain fieldAt n 0).map fun l => some (.tuple "" l)
  | .enum v .struct _ _ fieldAt nameAt =>
    (drain (variantItem .struct nameAt fieldAt) n 0).map fun l => (debugNamedOf l).map (.struct v)
  | .enum v .tuple _ _ fieldAt nameAt =>
    (drain (variantItem .tuple nameAt fieldAt) n 0).map fun l => (debugPosOf l).map (.tuple v)
  | .enum v .unit _ _ _ _ => some (some (.text v))
  | .array _ get => (drain get n 0).map fun l => some (.list l)
  | .list _ get => (drain get n 0).map fun l => some (.list l)
  | .map _ _ entries => (drain entries n 0).map fun l => some (.map l)
  | .scalar s => some (some (.scalar s))
  | .opaque => some (some (.text (nm a)))

end Mirror
