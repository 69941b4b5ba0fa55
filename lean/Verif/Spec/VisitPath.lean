import Verif.Spec.VisitAny
import Verif.Model.TypePath

/-!
# Specification: the leaves a visit sees and the leaves paths lead to
-/

namespace Mirror

/-- A visitor that accepts everything is called on exactly these leaves, in this order. -/
def VisitsAll (d : TypeDescriptor) (x : Obj) (l : List Leaf) : Prop :=
  tryVisit (ε := Empty) d.graph (fun a (s : List Leaf) => (none, s ++ [a])) d.root x [] = .ok l

/-- The path leads to the leaf: `type_at` finds a scalar type there and `at` a scalar, or `type_at` finds an
opaque type there and `at` a value. -/
def LeafAt (E : Env) (d : TypeDescriptor) (x : Obj) (p : KeyPath) (a : Leaf) : Prop :=
  ∃ id n y, d.typeAt p = some (some (.ty id n)) ∧ atPath E x p = some y ∧
    ((∃ k s, n = .scalar k ∧ y.asScalar = some s ∧ a = .scalar s) ∨ (n = .opaque ∧ a = .opaque y id))

/-- The leaf belongs to an entry of a map, found at some path, and there to the key, or to a value that no key
of a path reads from the map. -/
def InMapEntry (E : Env) (d : TypeDescriptor) (x : Obj) (a : Leaf) : Prop :=
  ∃ p id kt vt y k v, d.typeAt p = some (some (.ty id (.map kt vt))) ∧ atPath E x p = some y ∧
    (k, v) ∈ y.mapIter ∧
    ((∃ l, VisitsAll ⟨kt, d.graph⟩ k l ∧ a ∈ l) ∨
      ((∀ w : Value, y.mapGet E w.toObj ≠ some v) ∧ ∃ l, VisitsAll ⟨vt, d.graph⟩ v l ∧ a ∈ l))

/-- The names a struct type or struct variant lists are all it has types for. -/
def NamesListed (g : TypeGraph) : Prop :=
  (∀ id names fields, g.node id = some (.struct names fields) →
    ∀ n u, namedType fields n = some u → n ∈ names) ∧
  ∀ id vs v names fields, g.node id = some (.enum vs) → VariantNode.struct v names fields ∈ vs →
    ∀ n u, namedType fields n = some u → n ∈ names

/-- No list or array found at a path has more elements than there are indices. -/
def Indexable (E : Env) (x : Obj) : Prop :=
  ∀ p y, atPath E x p = some y → y.posIter.length ≤ usizeSize

end Mirror
