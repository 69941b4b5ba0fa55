import Verif.Model.Containers
import Verif.Spec.Typing

/-!
# Specification: finite maps and plain lists
-/

namespace Mirror

/-! ## Maps -/

/-- The operations that change a map. -/
inductive MapOp
  | insert (key val : Obj)
  | remove (key : Obj)

/-- The arguments are proper values of some type. -/
def MapOp.Proper (E : Env) : MapOp → Prop
  | .insert k v => (∃ t, HasTy E t k) ∧ ∃ t, HasTy E t v
  | .remove k => ∃ t, HasTy E t k

/-- Perform one operation with the functions of the crate: result and new map. -/
def MapOp.run (E : Env) (o : Obj) : MapOp → Option Obj × Obj
  | .insert k v => o.mapInsert E k v
  | .remove k => o.mapRemove E k

/-- An abstract map: a value for some of the keys. -/
abbrev AbsMap := Obj → Option Obj

/-- The abstract map with `k` bound to `v`; equal keys are keys that compare equal. -/
def AbsMap.set (cmp : Obj → Obj → Ordering) (f : AbsMap) (k : Obj) (v : Option Obj) : AbsMap :=
  fun a => if cmp a k = .eq then v else f a

/-- The intended result and effect of an operation on the abstract map with key type `kt` and value
type `vt`. -/
def MapOp.abs (E : Env) (kt vt : Ty) (f : AbsMap) : MapOp → Option Obj × AbsMap
  | .insert key val =>
    match fromReflect E kt key, fromReflect E vt val with
    | some k, some v => (f k, f.set (E.kcmp kt) k (some v))
    | _, _ => (none, f)
  | .remove key =>
    match fromReflect E kt key with
    | some k => (f k, f.set (E.kcmp kt) k none)
    | none => (none, f)

/-- The entries a map iterates over are the bindings of the abstract map. -/
def Represents (E : Env) (kt : Ty) (m : Obj) (f : AbsMap) : Prop :=
  ∀ a, HasTy E kt a → ∀ b, f a = some b ↔ ∃ p ∈ m.mapIter, E.kcmp kt a p.1 = .eq ∧ p.2 = b

/-- Run a history: the results in order, and the final map. -/
def MapOp.runAll (E : Env) (o : Obj) : List MapOp → List (Option Obj) × Obj
  | [] => ([], o)
  | op :: ops =>
    let r := op.run E o
    let rs := MapOp.runAll E r.2 ops
    (r.1 :: rs.1, rs.2)

/-- Run a history on the abstract map. -/
def MapOp.absAll (E : Env) (kt vt : Ty) (f : AbsMap) : List MapOp → List (Option Obj) × AbsMap
  | [] => ([], f)
  | op :: ops =>
    let r := op.abs E kt vt f
    let rs := MapOp.absAll E kt vt r.2 ops
    (r.1 :: rs.1, rs.2)

/-! ## Lists -/

/-- The operations that change a list. -/
inductive ListOp
  | push (v : Obj)
  | pop
  | tryRemove (i : Nat)

/-- Perform one operation with the functions of the crate: result and new list. -/
def ListOp.run (E : Env) (o : Obj) : ListOp → Option Obj × Obj
  | .push v => (none, o.listPush E v)
  | .pop => o.listPop
  | .tryRemove i => o.listTryRemove i

/-- The intended result and effect on a plain list with element type `t`. -/
def ListOp.abs (E : Env) (t : Ty) (l : List Obj) : ListOp → Option Obj × List Obj
  | .push v => (none, l ++ (fromReflect E t v).toList)
  | .pop => (l.getLast?, l.dropLast)
  | .tryRemove i => (l[i]?, l.eraseIdx i)

/-- Run a history: the results in order, and the final list. -/
def ListOp.runAll (E : Env) (o : Obj) : List ListOp → List (Option Obj) × Obj
  | [] => ([], o)
  | op :: ops =>
    let r := op.run E o
    let rs := ListOp.runAll E r.2 ops
    (r.1 :: rs.1, rs.2)

/-- Run a history on a plain list. -/
def ListOp.absAll (E : Env) (t : Ty) (l : List Obj) : List ListOp → List (Option Obj) × List Obj
  | [] => ([], l)
  | op :: ops =>
    let r := op.abs E t l
    let rs := ListOp.absAll E t r.2 ops
    (r.1 :: rs.1, rs.2)

/-! ## Records -/

/-- The last value given to `n` in a sequence of `set_field(name, value)` calls. -/
def lastSet (n : String) (calls : List (String × Value)) : Option Value :=
  (calls.reverse.find? fun p => p.1 = n).map (·.2)

end Mirror
