import Verif.Model.Impl

/-!
# `at_mut` on values whose `Reflect` implementation somebody wrote by hand

The value is known through its trait methods only, as in `Model/Impl`, with the methods that give mutable
access. These methods are functions of the value and do not panic, and asking for a reference changes
nothing.
-/

namespace Mirror

/-- A `&mut dyn Reflect` into a value: what it points to, and what the value becomes when that is
overwritten. -/
structure Spot (A : Type) where
  get : A
  put : A → A

/-- `ReflectMut` (lib.rs:1032-1044) with the methods of its trait objects that give mutable access: `Struct`
(struct_.rs:27), `TupleStruct` (tuple_struct.rs:26), `Tuple` (tuple.rs:26), `Enum` (enum_.rs:27-49), `Array`
(array.rs:11), `Map` (map.rs:18-34). Scalars and opaque values give access to no part. -/
inductive MutView (A : Type) : Type
  | struct (fieldMut : String → Option (Spot A))
  | tupleStruct (fieldAtMut : Nat → Option (Spot A))
  | tuple (fieldAtMut : Nat → Option (Spot A))
  | enum (variant : String) (kind : VKind) (fieldMut : String → Option (Spot A))
      (fieldAtMut : Nat → Option (Spot A))
  | array (getMut : Nat → Option (Spot A))
  | list (getMut : Nat → Option (Spot A))
  | map (getMut : A → Option (Spot A))
  | leaf

/-- The values a program can turn into `&mut dyn Reflect`: what `reflect_mut` answers on each (lib.rs:396). -/
structure MutImpl (A : Type) extends Impl A where
  viewMut : A → MutView A

/-- One step of `at_mut` (key_path.rs:140-201). `as_reflect_mut` is the enum itself (key_path.rs:187). -/
def MutImpl.atKeyMut {A : Type} (M : MutImpl A) (a : A) : Key → Option (Spot A)
  | .named n =>
    match M.viewMut a with
    | .struct fieldMut => fieldMut n
    | .enum _ .struct fieldMut _ => fieldMut n
    | _ => none
  | .numbered i =>
    match M.viewMut a with
    | .tupleStruct fieldAtMut => fieldAtMut i
    | .tuple fieldAtMut => fieldAtMut i
    | .enum _ .tuple _ fieldAtMut => fieldAtMut i
    | _ => none
  | .get v =>
    match M.viewMut a with
    | .array getMut => (valueToUsize v).bind getMut
    | .list getMut => (valueToUsize v).bind getMut
    | .map getMut => getMut (M.ofValue v)
    | _ => none
  | .variant v =>
    match M.viewMut a with
    | .enum name _ _ _ => if name = v then some ⟨a, fun z => z⟩ else none
    | _ => none

/-- The inner function of `at_mut` (key_path.rs:131-208). -/
def MutImpl.atMutGo {A : Type} (M : MutImpl A) (a : A) : List Key → Option (Spot A)
  | [] => none
  | k :: r =>
    match M.atKeyMut a k with
    | none => none
    | some pl =>
      match r with
      | [] => some pl
      | k' :: r' =>
        match M.atMutGo pl.get (k' :: r') with
        | none => none
        | some pl' => some ⟨pl'.get, fun z => pl.put (pl'.put z)⟩

/-- `GetPath::at_mut` (key_path.rs:130-215). -/
def MutImpl.atMut {A : Type} (M : MutImpl A) (a : A) (p : KeyPath) : Option (Spot A) :=
  if KeyPath.isEmpty p then some ⟨a, fun z => z⟩ else M.atMutGo a p

/-- A reference into a derived or built-in value. -/
def Place.spot (pl : Place) : Spot Obj := ⟨pl.get, pl.put⟩

/-- The derived and built-in types (the methods are cited at `Model/Path`). -/
def Obj.viewMut (E : Env) (o : Obj) : MutView Obj :=
  match o with
  | .struct .. => .struct fun n => (o.fieldMut n).map Place.spot
  | .tupleStruct .. => .tupleStruct fun i => (o.fieldAtMut i).map Place.spot
  | .tuple .. => .tuple fun i => (o.fieldAtMut i).map Place.spot
  | .enumS _ v _ => .enum v .struct (fun n => (o.fieldMut n).map Place.spot) fun i => (o.fieldAtMut i).map Place.spot
  | .enumT _ v _ => .enum v .tuple (fun n => (o.fieldMut n).map Place.spot) fun i => (o.fieldAtMut i).map Place.spot
  | .enumU _ v => .enum v .unit (fun n => (o.fieldMut n).map Place.spot) fun i => (o.fieldAtMut i).map Place.spot
  | .array .. => .array fun i => (o.fieldAtMut i).map Place.spot
  | .vec .. => .list fun i => (o.fieldAtMut i).map Place.spot
  | .map .. => .map fun k => (o.mapGetMut E k).map Place.spot
  | _ => .leaf

/-- See `Obj.viewMut`. -/
def Obj.mutImpl (E : Env) : MutImpl Obj := { Obj.impl E with viewMut := Obj.viewMut E }

end Mirror
