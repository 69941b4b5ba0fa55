import Verif.Model.Value

/-!
# Types, declarations and reflected objects

`Ty` are type expressions, `Env` the declarations of derived types, `Obj` the values that can sit
behind a `&dyn Reflect`.
-/

namespace Mirror

/-- Rust types that implement `Reflect` and `FromReflect` in this crate.

* `scalar`: lib.rs:547-682; `nonzero`: `NonZero*`, foreign_impls/via_scalar.rs:88-98;
* `named n`: a type declared with `#[derive(Reflect)]` (or `__private_derive_reflect_foreign!`:
  `Option`, `Result`, ranges, glam and macaw types, foreign_impls/mod.rs), monomorphised;
* `tuple`: tuple.rs:154-286; `vec`, `array`, `map`, `box`: foreign_impls/*.rs;
* `value`, `structValue`, ...: the dynamic types of value.rs, struct_.rs, ... -/
inductive Ty
  | scalar (k : ScalarKind)
  | nonzero (k : IntKind)
  | named (n : String)
  | tuple (ts : List Ty)
  | vec (t : Ty)
  | array (t : Ty) (len : Nat)
  | map (k v : Ty)
  | box (t : Ty)
  | value | structValue | tupleStructValue | tupleValue | enumValue
  deriving Repr, Inhabited

mutual
/-- Structural equality test for types (`TypeId` equality). -/
def Ty.beq : Ty → Ty → Bool
  | .scalar a, .scalar b => a == b
  | .nonzero a, .nonzero b => a == b
  | .named a, .named b => a == b
  | .tuple a, .tuple b => Ty.beqList a b
  | .vec a, .vec b => Ty.beq a b
  | .array a n, .array b m => Ty.beq a b && n == m
  | .map k v, .map k' v' => Ty.beq k k' && Ty.beq v v'
  | .box a, .box b => Ty.beq a b
  | .value, .value | .structValue, .structValue | .tupleStructValue, .tupleStructValue
  | .tupleValue, .tupleValue | .enumValue, .enumValue => true
  | _, _ => false
/-- Structural equality test for lists of types. -/
def Ty.beqList : List Ty → List Ty → Bool
  | [], [] => true
  | a :: as, b :: bs => Ty.beq a b && Ty.beqList as bs
  | _, _ => false
end

mutual
theorem Ty.beq_iff : ∀ a b : Ty, Ty.beq a b = true ↔ a = b
  | .scalar a, b => by cases b <;> simp [Ty.beq]
  | .nonzero a, b => by cases b <;> simp [Ty.beq]
  | .named a, b => by cases b <;> simp [Ty.beq]
  | .tuple a, b => by cases b <;> simp [Ty.beq, Ty.beqList_iff a]
  | .vec a, b => by cases b <;> simp [Ty.beq, Ty.beq_iff a]
  | .array a n, b => by cases b <;> simp [Ty.beq, Ty.beq_iff a]
  | .map k v, b => by cases b <;> simp [Ty.beq, Ty.beq_iff k, Ty.beq_iff v]
  | .box a, b => by cases b <;> simp [Ty.beq, Ty.beq_iff a]
  | .value, b => by cases b <;> simp [Ty.beq]
  | .structValue, b => by cases b <;> simp [Ty.beq]
  | .tupleStructValue, b => by cases b <;> simp [Ty.beq]
  | .tupleValue, b => by cases b <;> simp [Ty.beq]
  | .enumValue, b => by cases b <;> simp [Ty.beq]
theorem Ty.beqList_iff : ∀ a b : List Ty, Ty.beqList a b = true ↔ a = b
  | [], b => by cases b <;> simp [Ty.beqList]
  | a :: as, b => by cases b <;> simp [Ty.beqList, Ty.beq_iff a, Ty.beqList_iff as]
end

instance : DecidableEq Ty := fun a b => decidable_of_iff _ (Ty.beq_iff a b)

/-- A field in a declaration: its name (`""` for tuple positions), its type and whether it carries
`#[reflect(skip)]` (macros attrs.rs:280-285). `#[reflect(from_reflect_with)]`, metadata and docs are
not part of this model. -/
structure FieldDef where
  name : String
  ty : Ty
  skip : Bool := false
  deriving Repr, Inhabited

/-- An enum variant (macros enum_.rs:949-1033). Variants with `#[reflect(skip)]` are not listed;
values that currently hold one are treated in `Verif.Model.Panic`. -/
inductive VariantDef
  | struct (name : String) (fields : List FieldDef)
  | tuple (name : String) (fields : List FieldDef)
  | unit (name : String)
  deriving Repr, Inhabited

/-- The name of a variant. -/
def VariantDef.name : VariantDef → String
  | .struct n _ => n
  | .tuple n _ => n
  | .unit n => n

/-- What `#[derive(Reflect)]` is applied to. Unit structs are structs without fields
(macros mod.rs:41-50). -/
inductive Shape
  | struct (fields : List FieldDef)
  | tupleStruct (fields : List FieldDef)
  | enum (variants : List VariantDef)
  deriving Repr, Inhabited

/-- A declaration: shape plus the `opt_out(Clone)` switch (macros attrs.rs:28-36). -/
structure TyDef where
  shape : Shape
  cloneOptOut : Bool := false
  deriving Repr, Inhabited

/-- Tag of a record: a derived type, or `StructValue` with its `field_names` (struct_.rs:51-55). -/
inductive STag
  | derived (n : String)
  | dyn (names : List String)
  deriving Repr, Inhabited, DecidableEq

/-- Tag of a tuple struct or of a tuple/unit enum variant: a derived type or the dynamic type. -/
inductive TSTag
  | derived (n : String)
  | dyn
  deriving Repr, Inhabited, DecidableEq

/-- Tag of a tuple: the Rust tuple type, or `TupleValue`. -/
inductive TTag
  | typed (ts : List Ty)
  | dyn
  deriving Repr, Inhabited, DecidableEq

/-- A value behind `&dyn Reflect`, with the type information that `as_any` (lib.rs:381-400,511-525)
gives access to.

* A `Value` is represented by what its `as_reflect`/`as_any` expose (value.rs:197-211), so there is
  no constructor for it: see `Value.toObj`. A `Box<T>` is likewise its content (boxed.rs:35-49).
* Derived structs and enums list all declared fields in declaration order; a field with
  `#[reflect(skip)]` holds `hidden d`, where `d` stands for its (unreflected) data and `0` for its
  `Default`.
* In `tupleStruct`, `tuple` and `enumT`, the list holds the positional fields. -/
inductive Obj
  | scalar (s : Scalar)
  | nonzero (k : IntKind) (n : Int)
  | struct (tag : STag) (fields : List (String × Obj))
  | tupleStruct (tag : TSTag) (fs : List Obj)
  | tuple (tag : TTag) (fs : List Obj)
  | enumS (tag : STag) (variant : String) (fields : List (String × Obj))
  | enumT (tag : TSTag) (variant : String) (fs : List Obj)
  | enumU (tag : TSTag) (variant : String)
  | vec (t : Ty) (xs : List Obj)
  | array (t : Ty) (xs : List Obj)
  | map (kt vt : Ty) (kvs : List (Obj × Obj))
  | hidden (d : Nat)
  deriving Repr, Inhabited

/-- Whether an entry stands for a skipped field. -/
def Obj.isHidden : Obj → Bool
  | .hidden _ => true
  | _ => false

/-- Type environment: the declarations of the derived types, and the user's `Ord` on map keys
(`K: Ord` in foreign_impls/btree_map.rs:21), given per key type. -/
structure Env where
  decl : String → Option TyDef
  kcmp : Ty → Obj → Obj → Ordering

/-- The concrete Rust type of a value, looking through `Value` and `Box<_>`, so never one of these. It is what
`as_any`, hence `downcast_ref` (lib.rs:511-525), reveals, except that a struct or enum inside a `Value` is
seen with the `Box` that `Value` keeps it in (`Obj.anyTy` in `Verif.Model.Access`). -/
def Obj.typeOf : Obj → Option Ty
  | .scalar s => some (.scalar s.kind)
  | .nonzero k _ => some (.nonzero k)
  | .struct (.derived n) _ => some (.named n)
  | .struct (.dyn _) _ => some .structValue
  | .tupleStruct (.derived n) _ => some (.named n)
  | .tupleStruct .dyn _ => some .tupleStructValue
  | .tuple (.typed ts) _ => some (.tuple ts)
  | .tuple .dyn _ => some .tupleValue
  | .enumS (.derived n) _ _ => some (.named n)
  | .enumS (.dyn _) _ _ => some .enumValue
  | .enumT (.derived n) _ _ => some (.named n)
  | .enumT .dyn _ _ => some .enumValue
  | .enumU (.derived n) _ => some (.named n)
  | .enumU .dyn _ => some .enumValue
  | .vec t _ => some (.vec t)
  | .array t xs => some (.array t xs.length)
  | .map k v _ => some (.map k v)
  | .hidden _ => none

/-- `downcast_ref::<T>().is_some()` (lib.rs:511-525), as the derived code uses it to decide between cloning a
field and converting it. For `StructValue`, `EnumValue` and their boxes the real downcast differs on a `Value`;
there cloning and converting give the same (`from_reflect_shortcut` in `Verif.Lemmas.Access`). -/
def Obj.isTy (o : Obj) (t : Ty) : Bool := o.typeOf == some t

/-! ## Embedding of `Value` -/

/-- `Value::as_reflect` (value.rs:205-207): the content of the variant as a reflected object.
`Value::List` is a `Vec<Value>`, `Value::Map` a `BTreeMap<Value, Value>`. -/
def Value.toObj : Value → Obj
  | .scalar s => .scalar s
  | .struct ns fs => .struct (.dyn ns) (fs.map fun p => (p.1, p.2.toObj))
  | .enumS n ns fs => .enumS (.dyn ns) n (fs.map fun p => (p.1, p.2.toObj))
  | .enumT n fs => .enumT .dyn n (fs.map fun x => x.toObj)
  | .enumU n => .enumU .dyn n
  | .tupleStruct fs => .tupleStruct .dyn (fs.map fun x => x.toObj)
  | .tuple fs => .tuple .dyn (fs.map fun x => x.toObj)
  | .list xs => .vec .value (xs.map fun x => x.toObj)
  | .map kvs => .map .value .value (kvs.map fun p => (p.1.toObj, p.2.toObj))

/-! ## Building dynamic structs -/

/-- `StructValue::set_field` (struct_.rs:75-79) on `(field_names, fields)`: the name is appended even
if already present. -/
def svSet (s : List String × List (String × Value)) (n : String) (v : Value) :
    List String × List (String × Value) :=
  (s.1 ++ [n], bmInsert strCmp n v s.2)

/-- `fold(StructValue::default(), with_field)` (struct_.rs:175-179, and the chain of `with_field`
calls the derive macro emits, struct_named.rs:112-133). -/
def svOfList (l : List (String × Value)) : List String × List (String × Value) :=
  l.foldl (fun s p => svSet s p.1 p.2) ([], [])

/-- The record named by the builder state. -/
def svFinish (s : List String × List (String × Value)) : Value := .struct s.1 s.2

/-! ## `to_value` -/

/-- `Reflect::to_value`.

* scalars: lib.rs:563-565,635-637; `NonZero`: via_scalar.rs:51-53;
* derived struct: macros struct_named.rs:112-133 (skipped fields left out, then `with_field` in
  declaration order); derived tuple struct: tuple_struct.rs:111-135; derived enum: enum_.rs:222-295;
* dynamic types: `self.clone().into()` (struct_.rs:103-105, tuple.rs:113-115, enum_.rs:232-234,
  tuple_struct.rs);
* tuples: tuple.rs:194-201; `Vec`: vec.rs:104-107; arrays: array.rs:56-59 (a `Value::List`);
  maps: btree_map.rs:111-117 (collected into a `BTreeMap<Value, Value>`).

`hidden` is never asked for its value; the model returns a placeholder for it. -/
def Obj.toValue : Obj → Value
  | .scalar s => .scalar s
  | .nonzero k n => .scalar (.int k n)
  | .struct (.derived _) fs =>
    svFinish (svOfList ((fs.map fun p => (p.1, p.2.isHidden, p.2.toValue)).filterMap
      fun q => if q.2.1 then none else some (q.1, q.2.2)))
  | .struct (.dyn ns) fs => .struct ns (fs.map fun p => (p.1, p.2.toValue))
  | .tupleStruct _ fs =>
    .tupleStruct ((fs.map fun x => (x.isHidden, x.toValue)).filterMap
      fun q => if q.1 then none else some q.2)
  | .tuple _ fs => .tuple (fs.map fun x => x.toValue)
  | .enumS (.derived _) v fs =>
    let s := svOfList ((fs.map fun p => (p.1, p.2.isHidden, p.2.toValue)).filterMap
      fun q => if q.2.1 then none else some (q.1, q.2.2))
    .enumS v s.1 s.2
  | .enumS (.dyn ns) v fs => .enumS v ns (fs.map fun p => (p.1, p.2.toValue))
  | .enumT _ v fs =>
    .enumT v ((fs.map fun x => (x.isHidden, x.toValue)).filterMap
      fun q => if q.1 then none else some q.2)
  | .enumU _ v => .enumU v
  | .vec _ xs => .list (xs.map fun x => x.toValue)
  | .array _ xs => .list (xs.map fun x => x.toValue)
  | .map _ _ kvs => .map (bmCollect Value.cmp (kvs.map fun p => (p.1.toValue, p.2.toValue)))
  | .hidden _ => .tuple []

end Mirror
