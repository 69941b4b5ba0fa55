import Verif.Spec.Visit
import Verif.Spec.StandIn

/-!
# Specification: walking over a value along a type that need not be its own

A type, given as a node of a type graph, asks a value for parts: a struct type for the field of each of its
names, a tuple type for the field at each of its positions, and so on. A visit asks in the order of the type and
does not look at anything it does not ask for.
-/

namespace Mirror

/-- The value has, for each name of the type in order, a field of that name, and the type has a type for it:
these are the fields with their types. -/
def AskedNamed (o : Obj) (names : List String) (fields : List (String × Ty)) (ps : List (Ty × Obj)) : Prop :=
  ps.length = names.length ∧ ∀ (i : Nat) n p, names[i]? = some n → ps[i]? = some p →
    namedType fields n = some p.1 ∧ o.field n = some p.2

/-- The value has a field at each position of the type: these are the fields with their types. -/
def AskedPos (o : Obj) (fields : List Ty) (ps : List (Ty × Obj)) : Prop :=
  ps.map (·.1) = fields ∧ ∀ (i : Nat) p, ps[i]? = some p → o.fieldAt i = some p.2

/-- The parts, with their types, that a type asks of a value, if the value has them all. -/
inductive AskedOf (g : TypeGraph) (o : Obj) : TypeNode → List (Ty × Obj) → Prop
  | struct (names fields ps) : o.kind = .struct → AskedNamed o names fields ps → AskedOf g o (.struct names fields) ps
  | tupleStruct (fields ps) : o.kind = .tupleStruct → AskedPos o fields ps → AskedOf g o (.tupleStruct fields) ps
  | tuple (fields ps) : o.kind = .tuple → AskedPos o fields ps → AskedOf g o (.tuple fields) ps
  | enumS (vs n m names fields ps) : o.variantName = some n → findVariant vs n = some (.struct m names fields) →
      AskedNamed o names fields ps → AskedOf g o (.enum vs) ps
  | enumT (vs n m fields ps) : o.variantName = some n → findVariant vs n = some (.tuple m fields) →
      AskedPos o fields ps → AskedOf g o (.enum vs) ps
  | enumU (vs n m) : o.variantName = some n → findVariant vs n = some (.unit m) → AskedOf g o (.enum vs) []
  | list (t) : o.kind = .list → (g.node t).isSome → AskedOf g o (.list t) (o.posIter.map fun x => (t, x))
  | array (t n) : o.kind = .array → (g.node t).isSome → AskedOf g o (.array t n) (o.posIter.map fun x => (t, x))
  | map (k v) : o.kind = .map → (g.node k).isSome → (g.node v).isSome →
      AskedOf g o (.map k v) (o.mapIter.flatMap fun p => [(k, p.1), (v, p.2)])

/-- The value has all the parts the type asks for, at every depth; these are the leaves at the end of the walk.
A scalar type asks for a scalar, whatever its kind; an opaque type for nothing. -/
inductive Walks (g : TypeGraph) : Ty → Obj → List Leaf → Prop
  | scalar (id k o s) : g.node id = some (.scalar k) → o.asScalar = some s → Walks g id o [.scalar s]
  | opaque (id o) : g.node id = some .opaque → Walks g id o [.opaque o id]
  | parts (id o node ps) (ls : List (List Leaf)) : g.node id = some node → AskedOf g o node ps →
      ls.length = ps.length →
      (∀ (i : Nat) p l, ps[i]? = some p → ls[i]? = some l → Walks g p.1 p.2 l) → Walks g id o ls.flatten

/-- Walking over a value along its own type comes to a fixed-size array. -/
inductive MeetsArray (E : Env) : Ty → Obj → Prop
  | here (t xs) : MeetsArray E (.array t xs.length) (.array t xs)
  | box (t o) : MeetsArray E t o → MeetsArray E (.box t) o
  | part (t o ps p) : Parts E t o ps → p ∈ ps → MeetsArray E p.1 p.2 → MeetsArray E t o


/-- The leaf of the copy (`to_value`) that takes the place of a leaf. -/
def Leaf.copied : Leaf → Leaf
  | .scalar s => .scalar s
  | .opaque o t => .opaque o.copied t

end Mirror
