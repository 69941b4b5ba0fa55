import Verif.Model.Impl
import Verif.Model.Visit

/-!
# `try_visit` on values whose `Reflect` implementation somebody wrote by hand

The value is known through its trait methods only (`Model/Impl`). The type is any descriptor.
-/

namespace Mirror

/-- What a callback is called with (try_visit.rs:21-45): a scalar, or a value with its `OpaqueType`, given
by the id of the type. -/
inductive LeafA (A : Type)
  | scalar (s : Scalar)
  | opaque (a : A) (ty : Ty)

/-- `impl TryVisit` (try_visit.rs:17-46): `none` is `Ok(())`. -/
abbrev VisitorA (A σ ε : Type) := LeafA A → σ → Option ε × σ

/-- `visitor.try_visit_*(..)?`. -/
def visitLeafA {A σ ε : Type} (v : VisitorA A σ ε) (l : LeafA A) (s : σ) : Visited σ ε :=
  match v l s with
  | (none, s') => .ok s'
  | (some e, s') => .err e s'

/-- An `unwrap` that panics before the loop. -/
def noTurn {α : Type} (i : Nat) : Option (Option α) :=
  if i = 0 then some none else none

/-- The turns of the loops over declared fields with names (try_visit.rs:77-80, 102-110). -/
def namedVisits {A : Type} (tys : List (String × Option Ty)) (field : String → Option A) (i : Nat) :
    Option (Option (List (Ty × A))) :=
  match tys[i]? with
  | none => none
  | some q =>
    match field q.1, q.2 with
    | some x, some t => some (some [(t, x)])
    | _, _ => some none

/-- The turns of the loops over declared fields with positions (try_visit.rs:85-88, 93-96, 102-110). -/
def posVisits {A : Type} (tys : List Ty) (fieldAt : Nat → Option A) (i : Nat) :
    Option (Option (List (Ty × A))) :=
  match tys[i]? with
  | none => none
  | some t =>
    match fieldAt i with
    | some x => some (some [(t, x)])
    | none => some none

/-- The turns of the loops over elements (try_visit.rs:116-118, 124-126). -/
def itemVisits {A : Type} (t : Ty) (get : Nat → Option A) (i : Nat) : Option (Option (List (Ty × A))) :=
  (get i).map fun x => some [(t, x)]

/-- The turns of the loop over entries (try_visit.rs:133-136). -/
def entryVisits {A : Type} (k v : Ty) (entries : Nat → Option (A × A)) (i : Nat) :
    Option (Option (List (Ty × A))) :=
  (entries i).map fun p => some [(k, p.1), (v, p.2)]

/-- What turn `i` of the loop of `try_visit` visits (try_visit.rs:74-137): `none` if the loop is over,
`some none` if an `unwrap` panics. A value of another kind, and an element, key or value type that is not
in the graph, panic before the loop. -/
def visitTurn {A : Type} (g : TypeGraph) : TypeNode → RefView A → Nat → Option (Option (List (Ty × A)))
  | .struct names fields, .struct _ field _ _ => namedVisits (namedTypes names fields) field
  | .tupleStruct fields, .tupleStruct _ fieldAt => posVisits fields fieldAt
  | .tuple fields, .tuple _ fieldAt => posVisits fields fieldAt
  | .enum vs, .enum v _ _ field fieldAt _ =>
    match findVariant vs v with
    | none => noTurn
    | some (.struct _ names fields) => namedVisits (namedTypes names fields) field
    | some (.tuple _ fields) => posVisits fields fieldAt
    | some (.unit _) => fun _ => none
  | .list t, .list _ get => if (g.node t).isSome then itemVisits t get else noTurn
  | .array t _, .array _ get => if (g.node t).isSome then itemVisits t get else noTurn
  | .map k v, .map _ _ entries =>
    if (g.node k).isSome ∧ (g.node v).isSome then entryVisits k v entries else noTurn
  | _, _ => noTurn

/-- The visits of one turn, each with a `?` (try_visit.rs:79, 134-135). -/
def visitSeq {A σ ε : Type} (rec : Ty → A → σ → Option (Visited σ ε)) :
    List (Ty × A) → σ → Option (Visited σ ε)
  | [], s => some (.ok s)
  | p :: r, s =>
    match rec p.1 p.2 s with
    | some (.ok s') => visitSeq rec r s'
    | x => x

/-- The loops, from turn `i` on, in so many turns. -/
def visitTurns {A σ ε : Type} (rec : Ty → A → σ → Option (Visited σ ε))
    (turn : Nat → Option (Option (List (Ty × A)))) : Nat → Nat → σ → Option (Visited σ ε)
  | 0, _, _ => none
  | f + 1, i, s =>
    match turn i with
    | none => some (.ok s)
    | some none => some (.panic s)
    | some (some l) =>
      match visitSeq rec l s with
      | some (.ok s') => visitTurns rec turn f (i + 1) s'
      | x => x

/-- `try_visit(visitor, &a, ty)` with `ty` given by a graph and an id, in so many steps
(try_visit.rs:48-144). -/
def Impl.visit {A σ ε : Type} (I : Impl A) (g : TypeGraph) (v : VisitorA A σ ε) :
    Nat → Ty → A → σ → Option (Visited σ ε)
  | 0, _, _, _ => none
  | f + 1, id, a, s =>
    match g.node id with
    | none => some (.panic s)
    | some (.scalar _) =>
      match I.view a with
      | .scalar x => some (visitLeafA v (.scalar x) s)
      | _ => some (.panic s)
    | some .opaque => some (visitLeafA v (.opaque a id) s)
    | some node => visitTurns (I.visit g v f) (visitTurn g node (I.view a)) f 0 s

end Mirror
