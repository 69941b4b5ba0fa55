import Verif.Model.Containers
import Verif.Spec.Path

/-!
# Specification: a patch addressed to one part

A `Value` that mentions one part only: the new content, wrapped once for each step of the way there. Where a
wrapper must have something in the positions before, it has `()`.
-/

namespace Mirror

/-- A step from a value to one of its parts, with the kind of the value. -/
inductive Step
  | field (n : String)
  | tupleStruct (i : Nat)
  | tuple (i : Nat)
  | element (i : Nat)
  | entry (k : Value)

/-- The kind of value the step starts from. -/
def Step.kind : Step → Kind
  | .field _ => .struct
  | .tupleStruct _ => .tupleStruct
  | .tuple _ => .tuple
  | .element _ => .list
  | .entry _ => .map

/-- The key of the step in a path. -/
def Step.key : Step → Key
  | .field n => .named n
  | .tupleStruct i => .numbered i
  | .tuple i => .numbered i
  | .element i => .get (.scalar (.int .usize i))
  | .entry k => .get k

/-- Indices are `usize`, map keys are values safe code can build. -/
def Step.WF : Step → Prop
  | .element i => i < 18446744073709551616
  | .entry k => k.WF
  | _ => True

/-- `()` -/
def unitValue : Value := .tuple []

/-- A value that has `v` where the step leads, and nothing of interest elsewhere. -/
def Step.wrap (s : Step) (v : Value) : Value :=
  match s with
  | .field n => svSetField svNew n v
  | .tupleStruct i => .tupleStruct (List.replicate i unitValue ++ [v])
  | .tuple i => .tuple (List.replicate i unitValue ++ [v])
  | .element i => .list (List.replicate i unitValue ++ [v])
  | .entry k => .map [(k, v)]

/-- `v`, wrapped for a whole way. -/
def wrapAll (ss : List Step) (v : Value) : Value := ss.foldr Step.wrap v

/-- The way leads from `x` through values of the right kinds to a part. -/
def Leads (E : Env) : Obj → List Step → Prop
  | _, [] => True
  | x, s :: ss => x.kind = s.kind ∧ ∃ y, x.atKey E s.key = some y ∧ Leads E y ss

/-- `x` and `v` have a part each at `p`, `y` and `w`; and on the way there they are of the same kinds, none of them
an enum or a map. (Arrays count as a kind of their own, see `Kind`.) -/
inductive InStep (E : Env) : Obj → Obj → KeyPath → Obj → Obj → Prop
  | here (x v) : InStep E x v [] x v
  | step (x v k x' v' p y w) : v.kind = x.kind → x.kind ≠ .enum → x.kind ≠ .map → x.atKey E k = some x' →
      v.atKey E k = some v' → InStep E x' v' p y w → InStep E x v (k :: p) y w

end Mirror
