import Verif.Model.Access
import Verif.Model.Path

/-!
# Mutable access

`fields_mut`, `iter_mut` and `get_field_mut`.
-/

namespace Mirror

/-! ## Iterating over mutable references -/

/-- Assign `ys`, in order, to the entries of `fs` that are not skipped. The entries beyond `ys` stay
(the loop over the mutable references was left early). -/
def fillVis : List Obj → List Obj → List Obj
  | [], _ => []
  | x :: r, ys =>
    if x.isHidden then x :: fillVis r ys
    else
      match ys with
      | [] => x :: r
      | y :: ys => y :: fillVis r ys

/-- `fillVis` for named fields. -/
def fillNamed : List (String × Obj) → List Obj → List (String × Obj)
  | [], _ => []
  | (m, x) :: r, ys =>
    if x.isHidden then (m, x) :: fillNamed r ys
    else
      match ys with
      | [] => (m, x) :: r
      | y :: ys => (m, y) :: fillNamed r ys

/-- Assign `ys`, in order, to the elements of a slice. -/
def fillAll : List Obj → List Obj → List Obj
  | [], _ => []
  | x :: r, [] => x :: r
  | _ :: r, y :: ys => y :: fillAll r ys

/-- Assign `ys`, in order, to the values of a map. -/
def fillVals : List (Obj × Obj) → List Obj → List (Obj × Obj)
  | [], _ => []
  | p :: r, [] => p :: r
  | (k, _) :: r, y :: ys => (k, y) :: fillVals r ys

/-- The mutable references an iterator hands out, in order, each with its name if there is one, and the
object after assigning new contents to the first few of them. -/
structure Slots where
  items : List (Option String × Obj)
  put : List Obj → Obj

/-- No mutable references. -/
def Slots.empty (o : Obj) : Slots := ⟨[], fun _ => o⟩

/-- `fields_mut` of structs, tuple structs, tuples and enums, and `iter_mut` of lists and arrays.

* derived struct: the reflected fields, in declaration order (struct_named.rs:387-406);
* `StructValue`: the entries of the map, in the order of their names (struct_.rs:145-151);
* tuple structs: macros tuple_struct.rs:326-348, tuple_struct.rs:133-136; tuples:
  tuple.rs:82-85,257-260;
* enums: macros enum_.rs:762-813 (the reflected fields of the variant, without stopping at skipped ones),
  enum_.rs:310-320;
* lists and arrays: vec.rs:70-76, array.rs:97-100. -/
def Obj.fieldsMut (o : Obj) : Slots :=
  match o with
  | .struct tag fs =>
    ⟨(visFields fs).map fun p => (some p.1, p.2), fun ys => .struct tag (fillNamed fs ys)⟩
  | .enumS tag v fs =>
    ⟨(visFields fs).map fun p => (some p.1, p.2), fun ys => .enumS tag v (fillNamed fs ys)⟩
  | .tupleStruct tag fs =>
    ⟨(fs.filter fun x => !x.isHidden).map fun x => (none, x), fun ys => .tupleStruct tag (fillVis fs ys)⟩
  | .tuple tag fs =>
    ⟨(fs.filter fun x => !x.isHidden).map fun x => (none, x), fun ys => .tuple tag (fillVis fs ys)⟩
  | .enumT tag v fs =>
    ⟨(fs.filter fun x => !x.isHidden).map fun x => (none, x), fun ys => .enumT tag v (fillVis fs ys)⟩
  | .vec t xs => ⟨xs.map fun x => (none, x), fun ys => .vec t (fillAll xs ys)⟩
  | .array t xs => ⟨xs.map fun x => (none, x), fun ys => .array t (fillAll xs ys)⟩
  | o => .empty o

/-- `Map::iter_mut` (btree_map.rs:64-69): keys are shared references, values mutable ones. -/
def Obj.mapIterMut : Obj → List (Obj × Obj) × (List Obj → Obj)
  | .map kt vt kvs => (kvs, fun ys => .map kt vt (fillVals kvs ys))
  | o => ([], fun _ => o)

/-! ## `get_field_mut` -/

/-- `downcast_mut` (lib.rs:519-525) on a reference to a place of the Rust type `s`. -/
def Place.downcast (pl : Place) (s t : Ty) : Option Place :=
  if pl.get.anyTy s == some t then some pl else none

/-- `get_field_mut` with a name, on a struct or an enum (get_field.rs:184-194, 232-242). -/
def getNamedMut (E : Env) (o : Obj) (n : String) (t : Ty) : Option Place :=
  (o.fieldMut n).bind fun x => (o.fieldRefTy E n x.get).bind fun s => x.downcast s t

/-- `get_field_mut` with an index, on a tuple struct, enum, tuple, array or list (get_field.rs:208-218,
256-266, 280-290, 305-315). -/
def getIndexedMut (o : Obj) (i : Nat) (t : Ty) : Option Place :=
  (o.fieldAtMut i).bind fun x => (o.fieldAtRefTy i x.get).bind fun s => x.downcast s t

/-- `get_field_mut` with a reflected key, on a map (get_field.rs:330-341); `get_mut` calls `as_reflect_mut`
(btree_map.rs:30-34). -/
def getEntryMut (E : Env) (o k : Obj) (t : Ty) : Option Place :=
  (o.mapGetMut E k).bind fun x => x.get.typeOf.bind fun s => x.downcast s t

/-- `get_field_mut` with a `&str`, on a map (get_field.rs:355-365). -/
def getEntryStrMut (E : Env) (o : Obj) (n : String) (t : Ty) : Option Place :=
  getEntryMut E o (.scalar (.string n)) t

/-- `get_field_mut` with a `&str`, on a `Value` (get_field.rs:61-78). -/
def valueGetStrMut (E : Env) (o : Obj) (n : String) (t : Ty) : Option Place :=
  match o.reflectMut with
  | .struct x => getNamedMut E x n t
  | .enum x => getNamedMut E x n t
  | .map x => getEntryStrMut E x n t
  | _ => none

/-- `get_field_mut` with any reflected key, on a `Value` (get_field.rs:126-170). -/
def valueGetKeyMut (E : Env) (o k : Obj) (t : Ty) : Option Place :=
  match k.asUsize with
  | some i =>
    match o.reflectMut with
    | .tupleStruct x => getIndexedMut x i t
    | .tuple x => getIndexedMut x i t
    | .enum x => getIndexedMut x i t
    | .array x => getIndexedMut x i t
    | .list x => getIndexedMut x i t
    | .map x => getEntryMut E x k t
    | .struct _ | .scalar _ | .opaque _ => none
  | none =>
    match k.asString with
    | some n =>
      match o.reflectMut with
      | .map x => getEntryStrMut E x n t
      | .struct x => getNamedMut E x n t
      | _ => none
    | none =>
      match o.reflectMut with
      | .map x => getEntryMut E x k t
      | _ => none

/-- `get_at_mut` (key_path.rs:27-32). -/
def getAtMut (E : Env) (o : Obj) (p : KeyPath) (t : Ty) : Option Place :=
  (atMutPath E o p).bind fun x => (atRefTy E o p).bind fun s => x.downcast s t

end Mirror
