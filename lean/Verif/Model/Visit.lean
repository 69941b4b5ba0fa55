import Verif.Model.TypePath
import Verif.Model.Containers

/-!
# `try_visit`

Models try_visit.rs:48-144. A visitor is a state machine: a function from the leaf it is called with and
its state to an optional error and a new state. Callbacks that panic are not modelled.
-/

namespace Mirror

/-- What a callback is called with (try_visit.rs:21-45): a scalar, whose kind selects the callback, or
an opaque value with its `OpaqueType`, given by the id of the type. -/
inductive Leaf
  | scalar (s : Scalar)
  | opaque (o : Obj) (ty : Ty)

/-- `impl TryVisit` (try_visit.rs:17-46): `none` is `Ok(())`. -/
abbrev Visitor (σ ε : Type) := Leaf → σ → Option ε × σ

/-- How a call of `try_visit` ends, and the visitor's state then: `Ok(())`, `Err`, or a panic. -/
inductive Visited (σ ε : Type)
  | ok (s : σ)
  | err (e : ε) (s : σ)
  | panic (s : σ)

/-- A `for` loop whose body may return early with `?` or panic. -/
def visitLoop {α σ ε : Type} (f : α → σ → Visited σ ε) : List α → σ → Visited σ ε
  | [], s => .ok s
  | a :: r, s =>
    match f a s with
    | .ok s' => visitLoop f r s'
    | x => x

/-- A part of `o`, remembering that it is one. -/
abbrev Obj.Part (o : Obj) := { x : Obj // sizeOf x < sizeOf o }

/-- The result of an accessor of `o`. -/
def Obj.part (o : Obj) (r : Option Obj) (h : ∀ x, r = some x → sizeOf x < sizeOf o) : Option o.Part :=
  match r, h with
  | none, _ => none
  | some x, h => some ⟨x, h x rfl⟩

theorem Obj.posIter_size {o : Obj} {x : Obj} (h : x ∈ o.posIter) : sizeOf x < sizeOf o := by
  cases o <;> simp only [Obj.posIter, List.not_mem_nil] at h
  case vec => have := List.sizeOf_lt_of_mem h; simp; omega
  case array => have := List.sizeOf_lt_of_mem h; simp; omega
  all_goals
    have := List.sizeOf_lt_of_mem ((List.takeWhile_prefix _).subset h)
    simp; omega

theorem Obj.mapIter_size {o : Obj} {p : Obj × Obj} (h : p ∈ o.mapIter) :
    sizeOf p.1 < sizeOf o ∧ sizeOf p.2 < sizeOf o := by
  cases o <;> simp only [Obj.mapIter, List.not_mem_nil] at h
  have h1 := List.sizeOf_lt_of_mem h
  obtain ⟨a, b⟩ := p
  simp at h1 ⊢; omega

/-- The field to visit and its type id, or `none` if an `unwrap` on the way panics. -/
def visitStep {o : Obj} (t : Option Ty) (x : Option o.Part) : Option (Ty × o.Part) :=
  match x, t with
  | some x, some t => some (t, x)
  | _, _ => none

/-- The iterations of the loops of `try_visit`, each with the value and type it recurses on, `none` where
an `unwrap` panics (try_visit.rs:77-138; a wrong kind of value panics before the loop, and so does an element,
key or value type that is not in the graph). -/
def visitSteps (g : TypeGraph) (o : Obj) : TypeNode → List (Option (Ty × o.Part))
  | .scalar _ => []
  | .opaque => []
  | .struct names fields =>
    if o.kind = .struct then
      (namedTypes names fields).map fun q =>
        visitStep q.2 (o.part (o.field q.1) fun _ h => Obj.field_size h)
    else [none]
  | .tupleStruct fields =>
    if o.kind = .tupleStruct then
      fields.mapIdx fun i t => visitStep (some t) (o.part (o.fieldAt i) fun _ h => Obj.fieldAt_size h)
    else [none]
  | .tuple fields =>
    if o.kind = .tuple then
      fields.mapIdx fun i t => visitStep (some t) (o.part (o.fieldAt i) fun _ h => Obj.fieldAt_size h)
    else [none]
  | .enum vs =>
    match o.variantName.bind (findVariant vs) with
    | none => [none]
    | some (.struct _ names fields) =>
      (namedTypes names fields).map fun q =>
        visitStep q.2 (o.part (o.field q.1) fun _ h => Obj.field_size h)
    | some (.tuple _ fields) =>
      fields.mapIdx fun i t => visitStep (some t) (o.part (o.fieldAt i) fun _ h => Obj.fieldAt_size h)
    | some (.unit _) => []
  | .list t =>
    if o.kind = .list ∧ (g.node t).isSome then o.posIter.attach.map fun x => some (t, ⟨x.1, Obj.posIter_size x.2⟩)
    else [none]
  | .array t _ =>
    if o.kind = .array ∧ (g.node t).isSome then o.posIter.attach.map fun x => some (t, ⟨x.1, Obj.posIter_size x.2⟩)
    else [none]
  | .map k v =>
    if o.kind = .map ∧ (g.node k).isSome ∧ (g.node v).isSome then
      o.mapIter.attach.flatMap fun p => [some (k, ⟨p.1.1, (Obj.mapIter_size p.2).1⟩),
        some (v, ⟨p.1.2, (Obj.mapIter_size p.2).2⟩)]
    else [none]

/-- `visitor.try_visit_*(..)?`. -/
def visitLeaf {σ ε : Type} (v : Visitor σ ε) (l : Leaf) (s : σ) : Visited σ ε :=
  match v l s with
  | (none, s') => .ok s'
  | (some e, s') => .err e s'

/-- `try_visit(visitor, value, ty)` with `ty` given by a graph and an id (try_visit.rs:48-144). -/
def tryVisit {σ ε : Type} (g : TypeGraph) (v : Visitor σ ε) (id : Ty) (o : Obj) (s : σ) : Visited σ ε :=
  match g.node id with
  | none => .panic s
  | some (.scalar _) =>
    match o.asScalar with
    | none => .panic s
    | some a => visitLeaf v (.scalar a) s
  | some .opaque => visitLeaf v (.opaque o id) s
  | some node =>
    visitLoop (fun st s =>
      match st with
      | none => .panic s
      | some (t, x) => tryVisit g v t x.1 s) (visitSteps g o node) s
termination_by sizeOf o
decreasing_by exact x.2

end Mirror
