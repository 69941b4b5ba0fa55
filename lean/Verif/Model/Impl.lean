import Verif.Model.Path

/-!
# `Reflect` implementations the macros did not write

The operations that read a `&dyn Reflect` see nothing of it but what its trait methods answer. Here
the operations are modelled over an arbitrary implementation of those traits, so that they also speak
about types whose implementation somebody wrote by hand. `Obj.impl` is the implementation of the types
modelled elsewhere.

Simplification: the methods are functions of the value (asking twice gives the same answer) and do not
panic. A hand-written implementation may yield fields for ever or contain itself, so the operations
that recurse take a number of steps, and answer `none` when that does not suffice.
-/

namespace Mirror

/-- `ReflectRef` (lib.rs:890-902) with the methods of its trait objects: `Struct` (struct_.rs:24-40),
`TupleStruct` (tuple_struct.rs:23-33), `Tuple` (tuple.rs:23-33), `Enum` (enum_.rs:27-49), `Array`
(array.rs:8-20), `List` (list.rs:8-14), `Map` (map.rs:18-34). Not modelled: the methods that mutate,
and the iterators other than a map's, which are made of the other methods (struct_.rs:213-222,
tuple_struct.rs:185-193, tuple.rs:334-342, enum_.rs:396-413, array.rs:40-48). -/
inductive RefView (A : Type) : Type
  | scalar (s : Scalar)
  | struct (len : Nat) (field : String → Option A) (fieldAt : Nat → Option A)
      (nameAt : Nat → Option String)
  | tupleStruct (len : Nat) (fieldAt : Nat → Option A)
  | tuple (len : Nat) (fieldAt : Nat → Option A)
  | enum (variant : String) (kind : VKind) (len : Nat) (field : String → Option A)
      (fieldAt : Nat → Option A) (nameAt : Nat → Option String)
  | array (len : Nat) (get : Nat → Option A)
  | list (len : Nat) (get : Nat → Option A)
  | map (len : Nat) (get : A → Option A) (entries : Nat → Option (A × A))
  | opaque

/-- The values a program can turn into `&dyn Reflect`: what `reflect_ref` answers on each (lib.rs:394),
and how a `Value` is one of them (value.rs:188-266). -/
structure Impl (A : Type) where
  view : A → RefView A
  ofValue : Value → A

/-- The implementation of the types modelled by `Obj` (the methods are cited at `Model/Reflect`). -/
def Obj.view (E : Env) (o : Obj) : RefView Obj :=
  match o with
  | .scalar s => .scalar s
  | .nonzero k n => .scalar (.int k n)
  | .struct .. => .struct o.fieldsLen o.field o.fieldAt o.nameAt
  | .tupleStruct .. => .tupleStruct o.fieldsLen o.fieldAt
  | .tuple .. => .tuple o.fieldsLen o.fieldAt
  | .enumS _ v _ => .enum v .struct o.fieldsLen o.field o.fieldAt o.nameAt
  | .enumT _ v _ => .enum v .tuple o.fieldsLen o.field o.fieldAt o.nameAt
  | .enumU _ v => .enum v .unit o.fieldsLen o.field o.fieldAt o.nameAt
  | .array .. => .array o.fieldsLen o.fieldAt
  | .vec .. => .list o.fieldsLen o.fieldAt
  | .map _ _ kvs => .map o.fieldsLen (o.mapGet E) (kvs[·]?)
  | .hidden _ => .opaque

/-- See `Obj.view`. -/
def Obj.impl (E : Env) : Impl Obj := ⟨Obj.view E, Value.toObj⟩

/-! ## `at` -/

/-- One step of `at` (key_path.rs:53-114). -/
def Impl.atKey {A : Type} (I : Impl A) (a : A) : Key → Option A
  | .named n =>
    match I.view a with
    | .struct _ field _ _ => field n
    | .enum _ .struct _ field _ _ => field n
    | _ => none
  | .numbered i =>
    match I.view a with
    | .tupleStruct _ fieldAt => fieldAt i
    | .tuple _ fieldAt => fieldAt i
    | .enum _ .tuple _ _ fieldAt _ => fieldAt i
    | _ => none
  | .get v =>
    match I.view a with
    | .map _ get _ => get (I.ofValue v)
    | .array _ get => (valueToUsize v).bind get
    | .list _ get => (valueToUsize v).bind get
    | _ => none
  | .variant v =>
    match I.view a with
    | .enum name _ _ _ _ _ => if name = v then some a else none
    | _ => none

/-- The inner function of `at` (key_path.rs:44-121). -/
def Impl.atGo {A : Type} (I : Impl A) (a : A) : List Key → Option A
  | [] => none
  | k :: r =>
    match I.atKey a k with
    | none => none
    | some x =>
      match r with
      | [] => some x
      | k' :: r' => I.atGo x (k' :: r')

/-- `GetPath::at` (key_path.rs:43-128). -/
def Impl.at {A : Type} (I : Impl A) (a : A) (p : KeyPath) : Option A :=
  if KeyPath.isEmpty p then some a else I.atGo a p

/-! ## `reflect_eq` -/

/-- The `i`-th turn of the loop over the fields of a struct or of a struct variant
(reflect_eq.rs:107-118, 162-179; the iterator: struct_.rs:213-222, enum_.rs:401-406): no turn, a field
that `b` does not have, or two values to compare. -/
def namedTurn {A : Type} (nameAt : Nat → Option String) (fieldAt : Nat → Option A)
    (field : String → Option A) (i : Nat) : Option (Option (A × A)) :=
  match nameAt i with
  | none => none
  | some n =>
    match fieldAt i with
    | none => none
    | some x =>
      match field n with
      | none => some none
      | some y => some (some (x, y))

/-- The `i`-th turn of the loops over two positional containers (reflect_eq.rs:127-135, 144-152,
183-203, 224-232, 241-249): `zip` of two iterators that count up and ask for that position. -/
def posTurn {A : Type} (getA getB : Nat → Option A) (i : Nat) : Option (Option (A × A)) :=
  match getA i with
  | none => none
  | some x =>
    match getB i with
    | none => none
    | some y => some (some (x, y))

/-- The `i`-th turn of the loop over the entries of a map (reflect_eq.rs:258-269). -/
def mapTurn {A : Type} (entries : Nat → Option (A × A)) (get : A → Option A) (i : Nat) :
    Option (Option (A × A)) :=
  match entries i with
  | none => none
  | some (k, x) =>
    match get k with
    | none => some none
    | some y => some (some (x, y))

/-- What `reflect_eq` does on two views: answer, or go through the turns of a loop. -/
inductive Plan (A : Type)
  | answer (r : Option Bool)
  | walk (turn : Nat → Option (Option (A × A)))

/-- The `match` of `reflect_eq` (reflect_eq.rs:10-101) with the first lines of its helpers
(reflect_eq.rs:104-106, 124-126, 141-143, 158-161, 207-216, 221-223, 238-240, 255-257). -/
def RefView.plan {A : Type} : RefView A → RefView A → Plan A
  | .scalar s, .scalar t => .answer (some (s.eqv t))
  | .struct len _ fieldAt nameAt, .struct len' field' _ _ =>
    if len = len' then .walk (namedTurn nameAt fieldAt field') else .answer (some false)
  | .tupleStruct len fieldAt, .tupleStruct len' fieldAt' =>
    if len = len' then .walk (posTurn fieldAt fieldAt') else .answer (some false)
  | .tuple len fieldAt, .tuple len' fieldAt' =>
    if len = len' then .walk (posTurn fieldAt fieldAt') else .answer (some false)
  | .enum v k len _ fieldAt nameAt, .enum v' k' len' field' fieldAt' _ =>
    if v = v' ∧ len = len' then
      match k, k' with
      | .struct, .struct => .walk (namedTurn nameAt fieldAt field')
      | .tuple, .tuple => .walk (posTurn fieldAt fieldAt')
      | .unit, .unit => .answer (some true)
      | _, _ => .answer (some false)
    else .answer (some false)
  | .array len get, .array len' get' =>
    if len = len' then .walk (posTurn get get') else .answer (some false)
  | .list len get, .list len' get' =>
    if len = len' then .walk (posTurn get get') else .answer (some false)
  | .map len _ entries, .map len' get' _ =>
    if len = len' then .walk (mapTurn entries get') else .answer (some false)
  | .opaque, _ => .answer none
  | _, .opaque => .answer none
  | _, _ => .answer (some false)

/-- A loop of `reflect_eq` (reflect_eq.rs:107-119 and its likes) from turn `i` on, in so many turns:
stop at the first result that is not `Some(true)`. -/
def eqLoop {A : Type} (cmp : A → A → Option (Option Bool)) (turn : Nat → Option (Option (A × A))) :
    Nat → Nat → Option (Option Bool)
  | 0, _ => none
  | f + 1, i =>
    match turn i with
    | none => some (some true)
    | some none => some (some false)
    | some (some (x, y)) =>
      match cmp x y with
      | some (some true) => eqLoop cmp turn f (i + 1)
      | r => r

/-- `reflect_eq(a, b)` (reflect_eq.rs:9-273) in so many steps; `none` if they do not suffice. -/
def Impl.reflectEq {A : Type} (I : Impl A) : Nat → A → A → Option (Option Bool)
  | 0, _, _ => none
  | n + 1, a, b =>
    match (I.view a).plan (I.view b) with
    | .answer r => some r
    | .walk turn => eqLoop (I.reflectEq n) turn n 0

end Mirror
