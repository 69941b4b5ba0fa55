import Verif.Model.WireDefault
import Verif.Spec.SerdeType
import Verif.Spec.SpeedyExact
import Mathlib.Data.List.Forall2

/-!
# Specification: the default of a type, read off any descriptor

What a type needs for its default is a list of ids, in order. Everything else is said in terms of that:
which types have a default, which ids are asked for on the way, and how asking can go wrong. Entries are
looked up in the graph and among the fields by going through the lists; none of the functions of the
model is mentioned.
-/

namespace Mirror

/-- What it takes to have a default. -/
inductive Need
  /-- There is none: an enum without variants, an opaque type without a default. -/
  | refused
  /-- Looking panics: the id has no node, or an array is too long for a `Vec`. -/
  | broken
  /-- The defaults of these types, in this order; `none` stands for a field that is listed but not
  there, at which looking panics. -/
  | parts (ids : List (Option WireId))

/-- The fields in the order in which they are listed; `none` for those that are not there. -/
def listedFields (names : List String) (fields : List (String × WireNamed)) : List (Option WireNamed) :=
  names.map fun n => (fields.find? (fun p => p.1 = n)).map (·.2)

/-- The types of all fields of a variant. -/
def WireVariant.parts : WireVariant → List (Option WireId)
  | .struct v => (listedFields v.fieldNames v.fields).map (Option.map (·.id))
  | .tuple v => v.fields.map fun f => some f.id
  | .unit _ => []

/-- What a type needs for its default. With `some cap` an array needs its elements, and its length must
not be more than `cap`; with `none` (for `has_default_value`) it needs its element type once. -/
def WireNode.need (cap : Option Nat) : WireNode → Need
  | .struct n => .parts ((listedFields n.fieldNames n.fields).map (Option.map (·.id)))
  | .tupleStruct n => .parts (n.fields.map fun f => some f.id)
  | .tuple n => .parts (n.fields.map fun f => some f.id)
  | .enum n =>
    match n.variants with
    | [] => .refused
    | v :: _ => .parts v.parts
  | .list _ => .parts []
  | .array n =>
    match cap with
    | none => .parts [some n.elem]
    | some c => if c < n.len then .broken else .parts (List.replicate n.len (some n.elem))
  | .map _ => .parts []
  | .scalar _ => .parts []
  | .opaque n => if n.defaultValue = none then .refused else .parts []

/-- What the type with an id needs. -/
def WireDescriptor.need (x : WireDescriptor) (cap : Option Nat) (i : WireId) : Need :=
  match x.graph.find? (fun p => p.1 = i) with
  | some (_, some n) => n.need cap
  | _ => .broken

/-- Everything needed has a default. -/
inductive Has (st : WireId → Need) : WireId → Prop
  | mk (i : WireId) (js : List WireId) : st i = .parts (js.map some) → (∀ j ∈ js, Has st j) → Has st i

/-- On the way to the default of `i` the next that is asked for is `o` (a type, or a missing field):
everything needed before it has a default. -/
def Next (st : WireId → Need) (i : WireId) (o : Option WireId) : Prop :=
  ∃ pre post, st i = .parts (pre ++ o :: post) ∧ ∀ p ∈ pre, ∃ k, p = some k ∧ Has st k

/-- The types that are asked for on the way to the default of `i`, at any depth, `i` included. -/
inductive Asked (st : WireId → Need) (i : WireId) : WireId → Prop
  | refl : Asked st i i
  | step (j k : WireId) : Asked st i j → Next st j (some k) → Asked st i k

/-- A type that is asked for refuses. -/
def Lacks (st : WireId → Need) (i : WireId) : Prop := ∃ j, Asked st i j ∧ st j = .refused

/-- Looking at a type that is asked for panics, or at one of its fields when its turn comes. -/
def Panics (st : WireId → Need) (i : WireId) : Prop :=
  ∃ j, Asked st i j ∧ (st j = .broken ∨ Next st j none)

/-- A type that is asked for asks for itself. -/
def Circles (st : WireId → Need) (i : WireId) : Prop :=
  ∃ j k, Asked st i j ∧ Next st j (some k) ∧ Asked st k j

/-! ## The default itself -/

/-- The fields `ds` with the values `vs`: what is kept under the names in the fields, the last one of
every name, and the names in the order in which they were set. -/
def Record (ds : List WireNamed) (vs : List Value) (names : List String) (fs : List (String × Value)) :
    Prop :=
  ds.length = vs.length ∧ names = ds.map (·.name) ∧ Collected strCmp (names.zip vs) fs

/-- A type with these parts, given the defaults `vs` of its parts, has the default `v`. -/
inductive MadeOf : WireNode → List Value → Value → Prop
  | struct (n : WireStruct) (ds : List WireNamed) (vs : List Value) (names fs) :
      listedFields n.fieldNames n.fields = ds.map some → Record ds vs names fs →
      MadeOf (.struct n) vs (.struct names fs)
  | tupleStruct (n : WireTuple) (vs : List Value) : MadeOf (.tupleStruct n) vs (.tupleStruct vs)
  | tuple (n : WireTuple) (vs : List Value) : MadeOf (.tuple n) vs (.tuple vs)
  | structVariant (n : WireEnum) (v : WireStructVariant) (rest : List WireVariant) (ds : List WireNamed)
      (vs : List Value) (names fs) : n.variants = .struct v :: rest →
      listedFields v.fieldNames v.fields = ds.map some → Record ds vs names fs →
      MadeOf (.enum n) vs (.enumS v.name names fs)
  | tupleVariant (n : WireEnum) (v : WireTupleVariant) (rest : List WireVariant) (vs : List Value) :
      n.variants = .tuple v :: rest → MadeOf (.enum n) vs (.enumT v.name vs)
  | unitVariant (n : WireEnum) (v : WireUnitVariant) (rest : List WireVariant) :
      n.variants = .unit v :: rest → MadeOf (.enum n) [] (.enumU v.name)
  | list (n : WireList) : MadeOf (.list n) [] (.list [])
  | array (n : WireArray) (vs : List Value) : MadeOf (.array n) vs (.list vs)
  | map (n : WireMap) : MadeOf (.map n) [] (.map [])
  | scalar (k : ScalarKind) : MadeOf (.scalar k) [] (.scalar k.default)
  | opaque (n : WireOpaque) (v : Value) : n.defaultValue = some v → MadeOf (.opaque n) [] v

/-- `v` is the default of the type with id `i`. -/
inductive HasDefaultOf (cap : Nat) (x : WireDescriptor) : WireId → Value → Prop
  | mk (i : WireId) (n : WireNode) (js : List WireId) (vs : List Value) (v : Value) :
      (i, some n) ∈ x.graph → n.need (some cap) = .parts (js.map some) → js.length = vs.length →
      (∀ p ∈ js.zip vs, HasDefaultOf cap x p.1 p.2) → MadeOf n vs v → HasDefaultOf cap x i v

/-- Every field has the name it is kept under. -/
def NamesAgree (fields : List (String × WireNamed)) : Prop := ∀ p ∈ fields, p.1 = p.2.name

/-- What the library builds for types without hand-written nodes. -/
def WireNode.Plain (cap : Nat) : WireNode → Prop
  | .struct n => NamesAgree n.fields
  | .enum n => ∀ v ∈ n.variants, ∀ s, v = .struct s → NamesAgree s.fields
  | .array n => n.len ≤ cap
  | .opaque n => n.defaultValue = none
  | _ => True

end Mirror
