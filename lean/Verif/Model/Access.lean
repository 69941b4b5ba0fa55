import Verif.Model.Path

/-!
# Views, downcasts, typed field access

`ReflectRef`, `ReflectMut`, `ReflectOwned` with their accessors, `downcast_ref`, `get_field` and
`get_at`.
-/

namespace Mirror

/-- `ReflectRef`, `ReflectMut` and `ReflectOwned` (lib.rs:890-902, 1032-1044, 695-707), which have the
same variants. References and boxes are left out: a view holds the object it gives access to. -/
inductive View
  | struct (o : Obj)
  | tupleStruct (o : Obj)
  | tuple (o : Obj)
  | enum (o : Obj)
  | array (o : Obj)
  | list (o : Obj)
  | map (o : Obj)
  | scalar (s : Scalar)
  | opaque (o : Obj)

/-- `reflect_ref` (lib.rs:571-573, 643-645; via_scalar.rs:36-38; macros struct_named.rs, tuple_struct.rs,
enum_.rs: `fn_reflect_ref`; struct_.rs:123-125 and its likes; vec.rs, array.rs, btree_map.rs, tuple.rs;
value.rs:240-265 and boxed.rs:55-57 delegate to the content). -/
def Obj.reflectRef : Obj → View
  | .scalar s => .scalar s
  | .nonzero k n => .scalar (.int k n)
  | .struct tag fs => .struct (.struct tag fs)
  | .tupleStruct tag fs => .tupleStruct (.tupleStruct tag fs)
  | .tuple tag fs => .tuple (.tuple tag fs)
  | .enumS tag v fs => .enum (.enumS tag v fs)
  | .enumT tag v fs => .enum (.enumT tag v fs)
  | .enumU tag v => .enum (.enumU tag v)
  | .vec t xs => .list (.vec t xs)
  | .array t xs => .array (.array t xs)
  | .map k v kvs => .map (.map k v kvs)
  | .hidden d => .opaque (.hidden d)

/-- `reflect_mut` (lib.rs:575-577, 647-649; via_scalar.rs:40-42: opaque; the others as `reflect_ref`). -/
def Obj.reflectMut : Obj → View
  | .scalar s => .scalar s
  | .nonzero k n => .opaque (.nonzero k n)
  | .struct tag fs => .struct (.struct tag fs)
  | .tupleStruct tag fs => .tupleStruct (.tupleStruct tag fs)
  | .tuple tag fs => .tuple (.tuple tag fs)
  | .enumS tag v fs => .enum (.enumS tag v fs)
  | .enumT tag v fs => .enum (.enumT tag v fs)
  | .enumU tag v => .enum (.enumU tag v)
  | .vec t xs => .list (.vec t xs)
  | .array t xs => .array (.array t xs)
  | .map k v kvs => .map (.map k v kvs)
  | .hidden d => .opaque (.hidden d)

/-- `reflect_owned` (lib.rs:567-569, 639-641; via_scalar.rs:31-33; value.rs:213-238; boxed.rs:51-53). -/
def Obj.reflectOwned : Obj → View
  | .scalar s => .scalar s
  | .nonzero k n => .scalar (.int k n)
  | .struct tag fs => .struct (.struct tag fs)
  | .tupleStruct tag fs => .tupleStruct (.tupleStruct tag fs)
  | .tuple tag fs => .tuple (.tuple tag fs)
  | .enumS tag v fs => .enum (.enumS tag v fs)
  | .enumT tag v fs => .enum (.enumT tag v fs)
  | .enumU tag v => .enum (.enumU tag v)
  | .vec t xs => .list (.vec t xs)
  | .array t xs => .array (.array t xs)
  | .map k v kvs => .map (.map k v kvs)
  | .hidden d => .opaque (.hidden d)

/-- `as_reflect` of a view (lib.rs:710-736, 905-917); a scalar view gives the plain scalar. -/
def View.asReflect : View → Obj
  | .struct o | .tupleStruct o | .tuple o | .enum o | .array o | .list o | .map o | .opaque o => o
  | .scalar s => .scalar s

/-- `as_struct`, `as_struct_mut`, `into_struct` (lib.rs:745-750, 926-931); likewise below. -/
def View.asStruct : View → Option Obj
  | .struct o => some o
  | _ => none
/-- lib.rs:752-757, 933-938. -/
def View.asTupleStruct : View → Option Obj
  | .tupleStruct o => some o
  | _ => none
/-- lib.rs:738-743, 919-924. -/
def View.asTuple : View → Option Obj
  | .tuple o => some o
  | _ => none
/-- lib.rs:759-764, 940-945. -/
def View.asEnum : View → Option Obj
  | .enum o => some o
  | _ => none
/-- lib.rs:773-778, 954-959. -/
def View.asArray : View → Option Obj
  | .array o => some o
  | _ => none
/-- lib.rs:766-771, 947-952. -/
def View.asList : View → Option Obj
  | .list o => some o
  | _ => none
/-- lib.rs:780-785, 961-966. -/
def View.asMap : View → Option Obj
  | .map o => some o
  | _ => none
/-- lib.rs:787-792, 968-973. -/
def View.asScalar : View → Option Scalar
  | .scalar s => some s
  | _ => none
/-- lib.rs:794-799, 975-980. -/
def View.asOpaque : View → Option Obj
  | .opaque o => some o
  | _ => none

/-! ## Downcasts -/

/-- The type that `as_any` reveals through a reference to a value of the Rust type `s`. A `Box` hands over to
its content (boxed.rs:35-41). A `Value` hands over to the payload of its variant (value.rs:197-203, with the
macro at value.rs:155-182), and the payload of `Value::StructValue` and `Value::EnumValue` is itself a `Box`
(value.rs:56-57), so there it is the box that becomes the `dyn Any`. Every other type is its own `dyn Any`. -/
def Obj.anyTy (o : Obj) : Ty → Option Ty
  | .box t => o.anyTy t
  | .value =>
    match o.typeOf with
    | some .structValue => some (.box .structValue)
    | some .enumValue => some (.box .enumValue)
    | t => t
  | _ => o.typeOf

/-- `downcast_ref::<T>()`, `downcast_mut::<T>()` (lib.rs:511-525), on a reference to a value of the Rust type
`s`. -/
def Obj.downcast (o : Obj) (s t : Ty) : Option Obj :=
  if o.anyTy s == some t then some o else none

/-- `as_reflect()`, `as_reflect_mut()` (value.rs:205-211, boxed.rs:43-49): the Rust type of the reference they
give, from a reference of type `s`. A `Box` hands over to its content, a `Value` to the payload of its variant,
everything else is itself. -/
def Obj.reflTy (o : Obj) : Ty → Option Ty
  | .box t => o.reflTy t
  | .value =>
    match o.typeOf with
    | some .structValue => some (.box .structValue)
    | some .enumValue => some (.box .enumValue)
    | t => t
  | t => some t

/-- The type with which a derived struct declares its field `n`. -/
def Env.structFieldTy (E : Env) (m n : String) : Option Ty :=
  match E.decl m with
  | some ⟨.struct fds, _⟩ => (fds.find? fun fd => fd.name == n).map (·.ty)
  | _ => none

/-- The Rust type of the reference to the field `x` that `field(n)` and `field_mut(n)` give. Derived structs
(macros struct_named.rs:277,299), and `StructValue` (struct_.rs:133-139) also inside an `EnumValue`
(enum_.rs:274-288), give a reference to the field as it is declared. Derived enums call `as_reflect` on it
(macros enum_.rs:638,702); whatever the declared type, what it gives then shows the type of its content
(`anyTy_reflTy`), so that type is used. -/
def Obj.fieldRefTy (E : Env) (o : Obj) (n : String) (x : Obj) : Option Ty :=
  match o with
  | .struct (.derived m) _ => E.structFieldTy m n
  | .struct (.dyn _) _ => some .value
  | .enumS (.dyn _) _ _ => some .value
  | _ => x.typeOf

/-- The same for `field_at(i)`, `get(i)` and their mutable forms, except on structs. Tuples give a reference
to the element as declared (tuple.rs:229-251); an `EnumValue` holding a `StructValue` a reference to the
`Value` (enum_.rs:290-304, struct_.rs:157-166). The others call `as_reflect`: derived tuple structs (macros
tuple_struct.rs:278,303), derived enums (macros enum_.rs:657,721), `TupleValue` (tuple.rs:70-76), hence also
`TupleStructValue` and the tuple variants of an `EnumValue`, lists (vec.rs:48-56) and arrays
(array.rs:75-83). -/
def Obj.fieldAtRefTy (o : Obj) (i : Nat) (x : Obj) : Option Ty :=
  match o with
  | .enumS (.dyn _) _ _ => some .value
  | .tuple (.typed ts) _ => ts[i]?
  | _ => x.typeOf

/-! ## `get_field` -/

/-- `get_field` with a name, on a struct or an enum (get_field.rs:172-182, 220-230). -/
def getNamed (E : Env) (o : Obj) (n : String) (t : Ty) : Option Obj :=
  (o.field n).bind fun x => (o.fieldRefTy E n x).bind fun s => x.downcast s t

/-- `get_field` with an index, on a tuple struct, enum, tuple, array or list (get_field.rs:196-206,
244-254, 268-278, 293-303). -/
def getIndexed (o : Obj) (i : Nat) (t : Ty) : Option Obj :=
  (o.fieldAt i).bind fun x => (o.fieldAtRefTy i x).bind fun s => x.downcast s t

/-- `get_field` with a reflected key, on a map (get_field.rs:317-328); `get` calls `as_reflect` on the value
(btree_map.rs:24-28). -/
def getEntry (E : Env) (o k : Obj) (t : Ty) : Option Obj :=
  (o.mapGet E k).bind fun x => x.typeOf.bind fun s => x.downcast s t

/-- `get_field` with a `&str`, on a map (get_field.rs:343-353). -/
def getEntryStr (E : Env) (o : Obj) (n : String) (t : Ty) : Option Obj :=
  getEntry E o (.scalar (.string n)) t

/-- `get_field` with a `&str`, on a `Value` (get_field.rs:42-58). -/
def valueGetStr (E : Env) (o : Obj) (n : String) (t : Ty) : Option Obj :=
  match o.reflectRef with
  | .struct x => getNamed E x n t
  | .enum x => getNamed E x n t
  | .map x => getEntryStr E x n t
  | _ => none

/-- The `usize` in a key, if it is one (get_field.rs:88). -/
def Obj.asUsize : Obj → Option Nat
  | .scalar (.int .usize n) => some n.toNat
  | _ => none

/-- The `String` in a key, if it is one (get_field.rs:98). -/
def Obj.asString : Obj → Option String
  | .scalar (.string s) => some s
  | _ => none

/-- `get_field` with any reflected key, on a `Value` (get_field.rs:80-124). -/
def valueGetKey (E : Env) (o k : Obj) (t : Ty) : Option Obj :=
  match k.asUsize with
  | some i =>
    match o.reflectRef with
    | .tupleStruct x => getIndexed x i t
    | .tuple x => getIndexed x i t
    | .enum x => getIndexed x i t
    | .array x => getIndexed x i t
    | .list x => getIndexed x i t
    | .map x => getEntry E x k t
    | .struct _ | .scalar _ | .opaque _ => none
  | none =>
    match k.asString with
    | some n =>
      match o.reflectRef with
      | .map x => getEntryStr E x n t
      | .struct x => getNamed E x n t
      | _ => none
    | none =>
      match o.reflectRef with
      | .map x => getEntry E x k t
      | _ => none

/-! ## `get_at` -/

/-- The Rust type of the reference to `x` that one step of `at` or `at_mut` gives (key_path.rs:53-114,
140-201). Maps, lists and arrays call `as_reflect` (btree_map.rs:27,33, vec.rs:49,55, array.rs:76,82), and so
does the step for a variant (key_path.rs:100,187). -/
def Obj.atKeyRefTy (E : Env) (o : Obj) (k : Key) (x : Obj) : Option Ty :=
  match k with
  | .named n => o.fieldRefTy E n x
  | .numbered i => o.fieldAtRefTy i x
  | .get _ => x.typeOf
  | .variant _ => x.typeOf

/-- The Rust type of the reference that `at` and `at_mut` give (key_path.rs:43-128, 130-215): that of the last
step; the empty path gives `self.as_reflect()` (key_path.rs:123-125, 210-212). -/
def atRefTy (E : Env) (o : Obj) : KeyPath → Option Ty
  | [] => o.typeOf
  | k :: p =>
    (o.atKey E k).bind fun x =>
      match p with
      | [] => o.atKeyRefTy E k x
      | k' :: p' => atRefTy E x (k' :: p')

/-- `get_at` (key_path.rs:18-23). -/
def getAt (E : Env) (o : Obj) (p : KeyPath) (t : Ty) : Option Obj :=
  (atPath E o p).bind fun x => (atRefTy E o p).bind fun s => x.downcast s t

end Mirror
