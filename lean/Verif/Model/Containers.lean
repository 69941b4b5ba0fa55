import Verif.Model.Reflect

/-!
# Containers: maps, lists, dynamic builders, iterators
-/

namespace Mirror

/-! ## Maps -/

/-- `Map::insert` (btree_map.rs:36-41): what is returned, and the map afterwards. Key and value are
converted first; nothing happens if one of them does not convert. -/
def Obj.mapInsert (E : Env) (o key val : Obj) : Option Obj × Obj :=
  match o with
  | .map kt vt kvs =>
    match fromReflect E kt key with
    | none => (none, o)
    | some k =>
      match fromReflect E vt val with
      | none => (none, o)
      | some v => (bmGet (E.kcmp kt) k kvs, .map kt vt (bmInsert (E.kcmp kt) k v kvs))
  | _ => (none, o)

/-- `Map::remove` (btree_map.rs:43-47). -/
def Obj.mapRemove (E : Env) (o key : Obj) : Option Obj × Obj :=
  match o with
  | .map kt vt kvs =>
    match fromReflect E kt key with
    | none => (none, o)
    | some k => (bmGet (E.kcmp kt) k kvs, .map kt vt (bmRemove (E.kcmp kt) k kvs))
  | _ => (none, o)

/-- `Map::iter` (btree_map.rs:57-62): the entries in key order. -/
def Obj.mapIter : Obj → List (Obj × Obj)
  | .map _ _ kvs => kvs
  | _ => []

/-! ## Lists -/

/-- `Vec::pop` (std). -/
def vecPop {α} : List α → Option (α × List α)
  | [] => none
  | [x] => some (x, [])
  | x :: y :: r =>
    match vecPop (y :: r) with
    | none => none
    | some q => some (q.1, x :: q.2)

/-- `Vec::remove` (std): the element and the rest, shifted left. -/
def vecRemove {α} : Nat → List α → Option (α × List α)
  | _, [] => none
  | 0, x :: r => some (x, r)
  | i + 1, x :: r =>
    match vecRemove i r with
    | none => none
    | some q => some (q.1, x :: q.2)

/-- `List::push` (vec.rs:23-27): a value that does not convert is dropped. -/
def Obj.listPush (E : Env) (o v : Obj) : Obj :=
  match o with
  | .vec t xs =>
    match fromReflect E t v with
    | none => o
    | some y => .vec t (xs ++ [y])
  | _ => o

/-- `List::pop` (vec.rs:29-32). -/
def Obj.listPop (o : Obj) : Option Obj × Obj :=
  match o with
  | .vec t xs =>
    match vecPop xs with
    | none => (none, o)
    | some q => (some q.1, .vec t q.2)
  | _ => (none, o)

/-- `List::try_remove` (vec.rs:34-41). -/
def Obj.listTryRemove (o : Obj) (i : Nat) : Option Obj × Obj :=
  match o with
  | .vec t xs =>
    if i < xs.length then
      match vecRemove i xs with
      | none => (none, o)
      | some q => (some q.1, .vec t q.2)
    else (none, o)
  | _ => (none, o)

/-! ## Dynamic builders -/

/-- `StructValue::new` (struct_.rs:58-60). -/
def svNew : Value := .struct [] []

/-- `StructValue::set_field` and `with_field` (struct_.rs:70-79). -/
def svSetField (v : Value) (n : String) (x : Value) : Value :=
  match v with
  | .struct ns fs => svFinish (svSet (ns, fs) n x)
  | v => v

/-- `TupleValue::new` (tuple.rs:49-51). -/
def tvNew : Value := .tuple []

/-- `TupleValue::push_field` and `with_field` (tuple.rs:59-66). -/
def tvPush (v x : Value) : Value :=
  match v with
  | .tuple fs => .tuple (fs ++ [x])
  | v => v

/-- `TupleStructValue::new` (tuple_struct.rs:49-51). -/
def tsvNew : Value := .tupleStruct []

/-- `TupleStructValue::push_field` and `with_field` (tuple_struct.rs:59-67). -/
def tsvPush (v x : Value) : Value :=
  match v with
  | .tupleStruct fs => .tupleStruct (fs ++ [x])
  | v => v

/-- `EnumValue::new_struct_variant(..)`, followed by `finish` (enum_.rs:82-96,173-175). -/
def evNewStruct (n : String) : Value := .enumS n [] []

/-- `EnumValue::new_tuple_variant(..)`, followed by `finish` (enum_.rs:98-112,193-195). -/
def evNewTuple (n : String) : Value := .enumT n []

/-- `EnumValue::new_unit_variant` (enum_.rs:114-119). -/
def evNewUnit (n : String) : Value := .enumU n

/-- `EnumValue::set_struct_field`, `with_struct_field`, also through `StructVariantBuilder`
(enum_.rs:121-125,133-142,164-171); `none` is the panic. -/
def evSetStructField (v : Value) (n : String) (x : Value) : Option Value :=
  match v with
  | .enumS vn ns fs => let s := svSet (ns, fs) n x; some (.enumS vn s.1 s.2)
  | _ => none

/-- `EnumValue::push_tuple_field`, `with_tuple_field`, also through `TupleVariantBuilder`
(enum_.rs:127-131,144-155,184-191); `none` is the panic. -/
def evPushTupleField (v x : Value) : Option Value :=
  match v with
  | .enumT vn fs => some (.enumT vn (fs ++ [x]))
  | _ => none

/-! ## Iterators -/

/-- The state shared by the iterators of struct_.rs:201-205, tuple.rs:322-326, tuple_struct.rs:170-174,
array.rs:28-32 and enum_.rs:386-390: the container and the next index. -/
structure FieldIter where
  obj : Obj
  index : Nat

/-- `fields()`/`iter()`: index 0 (struct_.rs:207-211 and its copies). -/
def Obj.iter (o : Obj) : FieldIter := ⟨o, 0⟩

/-- `struct_::Iter::next` (struct_.rs:216-221), and `VariantFieldIter::next` on a struct variant
(enum_.rs:401-407,412-413). The index advances only on success. -/
def FieldIter.nextNamed (it : FieldIter) : Option (String × Obj) × FieldIter :=
  match it.obj.nameAt it.index with
  | none => (none, it)
  | some n =>
    match it.obj.fieldAt it.index with
    | none => (none, it)
    | some x => (some (n, x), { it with index := it.index + 1 })

/-- `next` of the positional iterators (tuple.rs:337-341, tuple_struct.rs:188-192, array.rs:43-47) and
`VariantFieldIter::next` on a tuple variant (enum_.rs:408-413). -/
def FieldIter.nextPos (it : FieldIter) : Option Obj × FieldIter :=
  match it.obj.fieldAt it.index with
  | none => (none, it)
  | some x => (some x, { it with index := it.index + 1 })

/-- `VariantField` (enum_.rs:419-423). -/
inductive VField
  | struct (n : String) (x : Obj)
  | tuple (x : Obj)

/-- `VariantFieldIter::next` (enum_.rs:398-417). -/
def FieldIter.nextVariant (it : FieldIter) : Option VField × FieldIter :=
  match it.obj.variantKind with
  | some .struct =>
    match it.nextNamed with
    | (some p, it') => (some (.struct p.1 p.2), it')
    | (none, it') => (none, it')
  | some .tuple =>
    match it.nextPos with
    | (some x, it') => (some (.tuple x), it')
    | (none, it') => (none, it')
  | _ => (none, it)

/-- The fields yielded by `Enum::fields()`. That repeated `next` calls (enum_.rs:398-417) produce this list is
`nextVariant_yields` in `Verif.Lemmas.Containers`. -/
def Obj.variantIter (o : Obj) : List VField :=
  match o.variantKind with
  | some .struct => o.namedIter.map fun p => .struct p.1 p.2
  | some .tuple => o.posIter.map .tuple
  | _ => []

/-- `ExactSizeIterator::len` of these iterators (struct_.rs:224-228, tuple.rs:344-348,
tuple_struct.rs:195-199, array.rs:50-54): the number of fields of the container. -/
def FieldIter.len (it : FieldIter) : Nat := it.obj.fieldsLen

end Mirror
