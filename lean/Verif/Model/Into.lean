import Verif.Model.Containers
import Verif.Model.Path

/-!
# Conversions into `Value`, `FromIterator`, and the iterators of key paths

The `From<..> for Value` impls, `FromIterator` of the dynamic types and of `KeyPath`, and the functions that make
paths and keys (value.rs, struct_.rs, tuple.rs, tuple_struct.rs, key_path.rs, foreign_impls, the derive macro).
-/

namespace Mirror

/-- What `Value` can be made from with `From`, by impl. -/
inductive Source
  /-- integers, floats, `bool`, `char`, `String` (value.rs:316-327,353-359) -/
  | scalar (s : Scalar)
  /-- `&str` (value.rs:341-345) -/
  | str (s : String)
  /-- `TupleValue`, `TupleStructValue`, `StructValue`, `EnumValue` (value.rs:329-339,358), and `Value` itself
  (`impl From<T> for T` of core): `v` is the `Value` of that variant -/
  | dynamic (v : Value)
  /-- `&dyn Reflect` (value.rs:347-351), derived types (macros derive_reflect/mod.rs:84-88), `NonZero`
  (via_scalar.rs:79-83) -/
  | reflect (o : Obj)
  /-- `Vec<T>` (vec.rs:145-156) -/
  | vec (t : Ty) (xs : List Obj)
  /-- `[T; N]` (array.rs:115-126) -/
  | array (t : Ty) (xs : List Obj)
  /-- `BTreeMap<K, V>` (btree_map.rs:144-156) -/
  | map (kt vt : Ty) (kvs : List (Obj × Obj))
  /-- `Box<T>` (boxed.rs:89-96) -/
  | boxed (s : Source)

/-- `Value::from(source)`; citations with the impls of `Source`. `From<Infallible>` (foreign_impls/mod.rs:202-206)
has no source. -/
def Source.into : Source → Value
  | .scalar s => .scalar s
  | .str s => .scalar (.string s)
  | .dynamic v => v
  | .reflect o => o.toValue
  | .vec _ xs => .list (xs.map fun x => x.toValue)
  | .array _ xs => .list (xs.map fun x => x.toValue)
  | .map _ _ kvs => .map (bmCollect Value.cmp (kvs.map fun p => (p.1.toValue, p.2.toValue)))
  | .boxed s => s.into

/-- `FromIterator<(S, V)> for StructValue` (struct_.rs:184-198). -/
def svFromIter (items : List (String × Obj)) : Value :=
  items.foldl (fun out p => svSetField out p.1 p.2.toValue) svNew

/-- `FromIterator<V> for TupleValue` (tuple.rs:306-320). -/
def tvFromIter (items : List Obj) : Value := items.foldl (fun out x => tvPush out x.toValue) tvNew

/-- `FromIterator<V> for TupleStructValue` (tuple_struct.rs:154-168). -/
def tsvFromIter (items : List Obj) : Value := items.foldl (fun out x => tsvPush out x.toValue) tsvNew

/-- `FromIterator<Key> for KeyPath` (key_path.rs:595-604): `Vec::from_iter`. -/
def KeyPath.fromIter (ks : List Key) : KeyPath := ks

/-- `Key::named_field` (key_path.rs:387-389). -/
def Key.namedField (n : String) : Key := .named n

/-- `Key::numbered_field` (key_path.rs:392-394). -/
def Key.numberedField (i : Nat) : Key := .numbered i

/-- `Key::get` (key_path.rs:397-399). -/
def Key.getOf (s : Source) : Key := .get s.into

/-- `Key::variant` (key_path.rs:402-404). -/
def Key.variantOf (v : String) : Key := .variant v

/-- `field(name)` (key_path.rs:462-464). -/
def pathField (n : String) : KeyPath := KeyPath.field [] n

/-- `field(index)` (key_path.rs:462-464). -/
def pathFieldAt (i : Nat) : KeyPath := KeyPath.fieldAt [] i

/-- `get(value)` (key_path.rs:466-468). -/
def pathGet (s : Source) : KeyPath := KeyPath.getKey [] s.into

/-- `variant(name)` (key_path.rs:470-472). -/
def pathVariant (v : String) : KeyPath := KeyPath.variant [] v

/-- `KeyPath::iter`, `into_iter` (key_path.rs:269-271,298-305,332-339): an iterator over the vector, as the keys
it has not yielded yet and the window it has left. `vec::IntoIter` and `slice::Iter` are trusted to be double
ended queues. -/
structure PathIter where
  path : KeyPath
  front : Nat
  back : Nat

/-- `KeyPath::iter` (key_path.rs:269-271). -/
def KeyPath.iter (p : KeyPath) : PathIter := ⟨p, 0, List.length p⟩

/-- `Iterator::next` (key_path.rs:310-316,344-350). -/
def PathIter.next (it : PathIter) : Option Key × PathIter :=
  if it.front < it.back then (it.path[it.front]?, { it with front := it.front + 1 }) else (none, it)

/-- `DoubleEndedIterator::next_back` (key_path.rs:318-322,352-356). -/
def PathIter.nextBack (it : PathIter) : Option Key × PathIter :=
  if it.front < it.back then (it.path[it.back - 1]?, { it with back := it.back - 1 }) else (none, it)

/-- `ExactSizeIterator::len` (key_path.rs:324-328,358-362). -/
def PathIter.len (it : PathIter) : Nat := it.back - it.front

end Mirror
