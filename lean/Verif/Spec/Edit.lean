import Verif.Spec.Path
import Verif.Spec.Containers

/-!
# Specification: histories of edits

What a program can do to a value it only knows as `&mut dyn Reflect`: go to a part with `at_mut` and change it
with the mutating functions of the crate. Several clients may do so in turns; a schedule says whose turn it is.
-/

namespace Mirror

/-- What can be done with a `&mut dyn Reflect`. -/
inductive Act
  /-- `part.patch(&v)` -/
  | patch (v : Obj)
  /-- `if let Some(place) = part.downcast_mut() { *place = y }` -/
  | assign (y : Obj)
  /-- `if let Some(list) = part.reflect_mut().as_list_mut() { list.push(..) }`, and so on -/
  | list (op : ListOp)
  /-- `if let Some(map) = part.reflect_mut().as_map_mut() { map.insert(..) }`, and so on -/
  | map (op : MapOp)

/-- The arguments are proper values of some type. -/
def Act.Proper (E : Env) : Act → Prop
  | .patch v => ∃ t, HasTy E t v
  | .assign y => ∃ t, HasTy E t y
  | .list (.push v) => ∃ t, HasTy E t v
  | .list _ => True
  | .map op => op.Proper E

/-- Perform it with the functions of the crate: what is returned, and the part afterwards. A part is overwritten
by a value of its own type only (a struct or enum inside a `Value` as its box). -/
def Act.run (E : Env) (x : Obj) : Act → Option Obj × Obj
  | .patch v => (none, Mirror.patch E x v)
  | .assign y => (none, if x.typeOf = y.typeOf then y else x)
  | .list op => op.run E x
  | .map op => op.run E x

/-- Something done at a path. -/
structure Edit where
  path : KeyPath
  act : Act

/-- The arguments of the edit are proper values. -/
def Edit.Proper (E : Env) (e : Edit) : Prop := KeyPath.WF e.path ∧ e.act.Proper E

/-- Perform an edit: `at_mut(path)`, and nothing happens if there is no such part. -/
def Edit.run (E : Env) (x : Obj) (e : Edit) : Option Obj × Obj :=
  match atMutPath E x e.path with
  | none => (none, x)
  | some pl => ((e.act.run E pl.get).1, pl.put (e.act.run E pl.get).2)

/-- A history of edits: the results in order, and the value afterwards. -/
def runEdits (E : Env) (x : Obj) : List Edit → List (Option Obj) × Obj
  | [] => ([], x)
  | e :: es =>
    let r := e.run E x
    let rs := runEdits E r.2 es
    (r.1 :: rs.1, rs.2)

/-- A schedule: the edits of several clients in the order in which they happen. The results are handed to the
clients that asked. -/
def runSchedule {ι : Type} (E : Env) (x : Obj) : List (ι × Edit) → List (ι × Option Obj) × Obj
  | [] => ([], x)
  | (i, e) :: es =>
    let r := e.run E x
    let rs := runSchedule E r.2 es
    ((i, r.1) :: rs.1, rs.2)

/-- What belongs to client `i`, in order. -/
def ownedBy {ι α : Type} [DecidableEq ι] (i : ι) (l : List (ι × α)) : List α :=
  (l.filter fun p => p.1 = i).map (·.2)

/-- The edit `e`, made from the point of view of the part at `p`. -/
def Edit.under (p : KeyPath) (e : Edit) : Edit := ⟨p ++ e.path, e.act⟩

/-- Every client works below a path of its own, and these paths diverge in `x`. -/
structure Separate {ι : Type} (E : Env) (x : Obj) (area : ι → KeyPath) (s : List (ι × Edit)) : Prop where
  keys : ∀ i, KeyPath.WF (area i)
  apart : ∀ i j, i ≠ j → Diverge E x (area i) (area j)
  stays : ∀ p ∈ s, area p.1 <+: p.2.path
  proper : ∀ p ∈ s, p.2.Proper E

end Mirror
