import Verif.Model.ImplVisit
import Mathlib.Data.List.Forall2

/-!
# Specification: the leaves a value shows along a type

Independent of how `try_visit` goes about it: which parts a type says a value has, what leaves these come
down to, and what a visitor makes of a list of leaves.
-/

namespace Mirror

/-- `ps` are the parts, with their types, that a value with these answers has according to a node of a type
descriptor. A list or array has as many elements as it gives; the length it announces, and the length in
the type of an array, do not matter. -/
inductive PartsOf {A : Type} (g : TypeGraph) : TypeNode → RefView A → List (Ty × A) → Prop
  | struct {names fields len field fieldAt nameAt ps} :
      List.Forall₂ (fun q p => q.2 = some p.1 ∧ field q.1 = some p.2) (namedTypes names fields) ps →
      PartsOf g (.struct names fields) (.struct len field fieldAt nameAt) ps
  | tupleStruct {fields len fieldAt ps} : ps.map (·.1) = fields →
      (∀ (i : Nat) p, ps[i]? = some p → fieldAt i = some p.2) →
      PartsOf g (.tupleStruct fields) (.tupleStruct len fieldAt) ps
  | tuple {fields len fieldAt ps} : ps.map (·.1) = fields →
      (∀ (i : Nat) p, ps[i]? = some p → fieldAt i = some p.2) →
      PartsOf g (.tuple fields) (.tuple len fieldAt) ps
  | enumS {vs v w names fields k len field fieldAt nameAt ps} :
      findVariant vs v = some (.struct w names fields) →
      List.Forall₂ (fun q p => q.2 = some p.1 ∧ field q.1 = some p.2) (namedTypes names fields) ps →
      PartsOf g (.enum vs) (.enum v k len field fieldAt nameAt) ps
  | enumT {vs v w fields k len field fieldAt nameAt ps} :
      findVariant vs v = some (.tuple w fields) → ps.map (·.1) = fields →
      (∀ (i : Nat) p, ps[i]? = some p → fieldAt i = some p.2) →
      PartsOf g (.enum vs) (.enum v k len field fieldAt nameAt) ps
  | enumU {vs v w k len field fieldAt nameAt} : findVariant vs v = some (.unit w) →
      PartsOf g (.enum vs) (.enum v k len field fieldAt nameAt) []
  | list {t len get} {xs : List A} : (g.node t).isSome → get xs.length = none →
      (∀ (i : Nat) x, xs[i]? = some x → get i = some x) →
      PartsOf g (.list t) (.list len get) (xs.map fun x => (t, x))
  | array {t n len get} {xs : List A} : (g.node t).isSome → get xs.length = none →
      (∀ (i : Nat) x, xs[i]? = some x → get i = some x) →
      PartsOf g (.array t n) (.array len get) (xs.map fun x => (t, x))
  | map {k v len get entries} {es : List (A × A)} : (g.node k).isSome → (g.node v).isSome →
      entries es.length = none → (∀ (i : Nat) p, es[i]? = some p → entries i = some p) →
      PartsOf g (.map k v) (.map len get entries) (es.flatMap fun p => [(k, p.1), (v, p.2)])

/-- The values `ps`, each along its type, come down to the leaves `ls`, in this order. -/
inductive Impl.ShowAll {A : Type} (I : Impl A) (g : TypeGraph) : List (Ty × A) → List (LeafA A) → Prop
  | nil : I.ShowAll g [] []
  | scalar {id a k s r ls} : g.node id = some (.scalar k) → I.view a = .scalar s → I.ShowAll g r ls →
      I.ShowAll g ((id, a) :: r) (.scalar s :: ls)
  | opaque {id a r ls} : g.node id = some .opaque → I.ShowAll g r ls →
      I.ShowAll g ((id, a) :: r) (.opaque a id :: ls)
  | parts {id a node ps ms r ls} : g.node id = some node → PartsOf g node (I.view a) ps →
      I.ShowAll g ps ms → I.ShowAll g r ls → I.ShowAll g ((id, a) :: r) (ms ++ ls)

/-- `a` comes down to the leaves `ls` along the type `id`. -/
def Impl.Shows {A : Type} (I : Impl A) (g : TypeGraph) (id : Ty) (a : A) (ls : List (LeafA A)) : Prop :=
  I.ShowAll g [(id, a)] ls

/-- What a visitor makes of leaves: it is called with each in turn, up to the first for which it returns an
error. -/
def callAll {A σ ε : Type} (v : VisitorA A σ ε) : List (LeafA A) → σ → Visited σ ε
  | [], s => .ok s
  | l :: r, s =>
    match v l s with
    | (none, s') => callAll v r s'
    | (some e, s') => .err e s'


/-! ## Visits that do not get to the end -/

/-- `ps` are the first parts, with their types, that a value has according to a node. -/
inductive FirstParts {A : Type} (g : TypeGraph) : TypeNode → RefView A → List (Ty × A) → Prop
  | none {node w} : FirstParts g node w []
  | struct {names fields len field fieldAt nameAt ps} :
      (∀ (i : Nat) p, ps[i]? = some p →
        ∃ n, (namedTypes names fields)[i]? = some (n, some p.1) ∧ field n = some p.2) →
      FirstParts g (.struct names fields) (.struct len field fieldAt nameAt) ps
  | tupleStruct {fields len fieldAt ps} :
      (∀ (i : Nat) p, ps[i]? = some p → fields[i]? = some p.1 ∧ fieldAt i = some p.2) →
      FirstParts g (.tupleStruct fields) (.tupleStruct len fieldAt) ps
  | tuple {fields len fieldAt ps} :
      (∀ (i : Nat) p, ps[i]? = some p → fields[i]? = some p.1 ∧ fieldAt i = some p.2) →
      FirstParts g (.tuple fields) (.tuple len fieldAt) ps
  | enumS {vs v w names fields k len field fieldAt nameAt ps} :
      findVariant vs v = some (.struct w names fields) →
      (∀ (i : Nat) p, ps[i]? = some p →
        ∃ n, (namedTypes names fields)[i]? = some (n, some p.1) ∧ field n = some p.2) →
      FirstParts g (.enum vs) (.enum v k len field fieldAt nameAt) ps
  | enumT {vs v w fields k len field fieldAt nameAt ps} :
      findVariant vs v = some (.tuple w fields) →
      (∀ (i : Nat) p, ps[i]? = some p → fields[i]? = some p.1 ∧ fieldAt i = some p.2) →
      FirstParts g (.enum vs) (.enum v k len field fieldAt nameAt) ps
  | list {t len get} {xs : List A} : (g.node t).isSome →
      (∀ (i : Nat) x, xs[i]? = some x → get i = some x) →
      FirstParts g (.list t) (.list len get) (xs.map fun x => (t, x))
  | array {t n len get} {xs : List A} : (g.node t).isSome →
      (∀ (i : Nat) x, xs[i]? = some x → get i = some x) →
      FirstParts g (.array t n) (.array len get) (xs.map fun x => (t, x))
  | map {k v len get entries} {es : List (A × A)} : (g.node k).isSome → (g.node v).isSome →
      (∀ (i : Nat) p, es[i]? = some p → entries i = some p) →
      FirstParts g (.map k v) (.map len get entries) (es.flatMap fun p => [(k, p.1), (v, p.2)])

/-- The value is the kind of thing the node describes, an enum is in a variant the node has, and the node's
element, key and value types are in the graph. -/
inductive NodeFits {A : Type} (g : TypeGraph) : TypeNode → RefView A → Prop
  | scalar {k s} : NodeFits g (.scalar k) (.scalar s)
  | opaque {w} : NodeFits g .opaque w
  | struct {names fields len field fieldAt nameAt} :
      NodeFits g (.struct names fields) (.struct len field fieldAt nameAt)
  | tupleStruct {fields len fieldAt} : NodeFits g (.tupleStruct fields) (.tupleStruct len fieldAt)
  | tuple {fields len fieldAt} : NodeFits g (.tuple fields) (.tuple len fieldAt)
  | enum {vs v k len field fieldAt nameAt} : (findVariant vs v).isSome →
      NodeFits g (.enum vs) (.enum v k len field fieldAt nameAt)
  | list {t len get} : (g.node t).isSome → NodeFits g (.list t) (.list len get)
  | array {t n len get} : (g.node t).isSome → NodeFits g (.array t n) (.array len get)
  | map {k v len get entries} : (g.node k).isSome → (g.node v).isSome →
      NodeFits g (.map k v) (.map len get entries)

/-- The node asks for something that is not there after `i` parts: the value does not fit the node, or a
field the node lists is missing. -/
inductive Missing {A : Type} (g : TypeGraph) : TypeNode → RefView A → Nat → Prop
  | unfit {node w} : ¬ NodeFits g node w → Missing g node w 0
  | struct {names fields len field fieldAt nameAt i q} : (namedTypes names fields)[i]? = some q →
      q.2 = none ∨ field q.1 = none →
      Missing g (.struct names fields) (.struct len field fieldAt nameAt) i
  | tupleStruct {fields len fieldAt i} : i < fields.length → fieldAt i = none →
      Missing g (.tupleStruct fields) (.tupleStruct len fieldAt) i
  | tuple {fields len fieldAt i} : i < fields.length → fieldAt i = none →
      Missing g (.tuple fields) (.tuple len fieldAt) i
  | enumS {vs v w names fields k len field fieldAt nameAt i q} :
      findVariant vs v = some (.struct w names fields) → (namedTypes names fields)[i]? = some q →
      q.2 = none ∨ field q.1 = none → Missing g (.enum vs) (.enum v k len field fieldAt nameAt) i
  | enumT {vs v w fields k len field fieldAt nameAt i} :
      findVariant vs v = some (.tuple w fields) → i < fields.length → fieldAt i = none →
      Missing g (.enum vs) (.enum v k len field fieldAt nameAt) i

/-- The leaves of `ps` begin with `ls`. -/
inductive Impl.Begins {A : Type} (I : Impl A) (g : TypeGraph) : List (Ty × A) → List (LeafA A) → Prop
  | nil {ps} : I.Begins g ps []
  | inside {id a node ps ls r} : g.node id = some node → FirstParts g node (I.view a) ps →
      I.Begins g ps ls → I.Begins g ((id, a) :: r) ls
  | after {id a ms r ls} : I.Shows g id a ms → I.Begins g r ls → I.Begins g ((id, a) :: r) (ms ++ ls)

/-- The leaves of `ps` begin with `ls`, and then something is not there. -/
inductive Impl.Breaks {A : Type} (I : Impl A) (g : TypeGraph) : List (Ty × A) → List (LeafA A) → Prop
  | node {id a r} : g.node id = none → I.Breaks g ((id, a) :: r) []
  | missing {id a node ps ls r} : g.node id = some node → FirstParts g node (I.view a) ps →
      Missing g node (I.view a) ps.length → I.ShowAll g ps ls → I.Breaks g ((id, a) :: r) ls
  | inside {id a node ps ls r} : g.node id = some node → FirstParts g node (I.view a) ps →
      I.Breaks g ps ls → I.Breaks g ((id, a) :: r) ls
  | after {id a ms r ls} : I.Shows g id a ms → I.Breaks g r ls → I.Breaks g ((id, a) :: r) (ms ++ ls)

end Mirror
