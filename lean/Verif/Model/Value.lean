import Verif.Model.Common
import Verif.Model.Scalar

/-!
# The dynamic `Value`

Models `/repo/crates/mirror-mirror/src/value.rs` together with the dynamic containers `StructValue`
(struct_.rs), `TupleValue` (tuple.rs), `TupleStructValue` (tuple_struct.rs), `EnumValue` (enum_.rs).
-/

namespace Mirror

/-- `Value` (value.rs:39-62). The sixteen scalar variants are one constructor.
`struct names fields` is `StructValue { field_names, fields }` (struct_.rs:51-55), where `fields` is
a `BTreeMap` (a list sorted by name). `EnumValue { name, kind }` (enum_.rs:67-79) is split by kind:
`enumS` holds a `StructValue`, `enumT` a `TupleValue`. `tupleStruct`/`tuple` hold the field vectors
of tuple_struct.rs / tuple.rs:44-46. `list` is `Vec<Value>`, `map` is `BTreeMap<Value, Value>`. -/
inductive Value
  | scalar (s : Scalar)
  | struct (names : List String) (fields : List (String × Value))
  | enumS (name : String) (names : List String) (fields : List (String × Value))
  | enumT (name : String) (fs : List Value)
  | enumU (name : String)
  | tupleStruct (fs : List Value)
  | tuple (fs : List Value)
  | list (xs : List Value)
  | map (kvs : List (Value × Value))
  deriving Repr, Inhabited

/-- Position among the variants of `Value`/`OrdEqHashValue` (value.rs:72-95). -/
def Value.idx : Value → Nat
  | .scalar s => s.kind.idx
  | .struct _ _ => 16
  | .enumS .. | .enumT .. | .enumU _ => 17
  | .tupleStruct _ => 18
  | .tuple _ => 19
  | .list _ => 20
  | .map _ => 21

/-- Position among the variants of `EnumValueKind` (enum_.rs:75-79). -/
def Value.enumKindIdx : Value → Nat
  | .enumS .. => 0
  | .enumT .. => 1
  | _ => 2

/-- `Ord for Vec<String>`: lexicographic. -/
def strsCmp : List String → List String → Ordering
  | [], [] => .eq
  | [], _ :: _ => .lt
  | _ :: _, [] => .gt
  | a :: as, b :: bs => (strCmp a b).then (strsCmp as bs)

mutual
/-- `Ord for Value` (value.rs:140-144), i.e. the derived `Ord` of `OrdEqHashValue` (value.rs:71-95):
variant position first, then the payloads. `StructValue` compares `field_names` then `fields`
(derived, struct_.rs:48-55), `EnumValue` compares `name` then `kind` (derived, enum_.rs:64-79). -/
def Value.cmp : Value → Value → Ordering
  | .scalar a, .scalar b => Scalar.cmp a b
  | .struct ns fs, .struct ns' fs' => (strsCmp ns ns').then (Value.cmpFields fs fs')
  | .enumS n ns fs, .enumS n' ns' fs' =>
    (strCmp n n').then ((strsCmp ns ns').then (Value.cmpFields fs fs'))
  | .enumT n fs, .enumT n' fs' => (strCmp n n').then (Value.cmpList fs fs')
  | .enumU n, .enumU n' => strCmp n n'
  | .enumS n _ _, .enumT n' _ => (strCmp n n').then .lt
  | .enumS n _ _, .enumU n' => (strCmp n n').then .lt
  | .enumT n _, .enumU n' => (strCmp n n').then .lt
  | .enumT n _, .enumS n' _ _ => (strCmp n n').then .gt
  | .enumU n, .enumS n' _ _ => (strCmp n n').then .gt
  | .enumU n, .enumT n' _ => (strCmp n n').then .gt
  | .tupleStruct fs, .tupleStruct fs' => Value.cmpList fs fs'
  | .tuple fs, .tuple fs' => Value.cmpList fs fs'
  | .list xs, .list ys => Value.cmpList xs ys
  | .map m, .map m' => Value.cmpPairs m m'
  | a, b => compare a.idx b.idx

/-- `Ord for [Value]`: lexicographic. -/
def Value.cmpList : List Value → List Value → Ordering
  | [], [] => .eq
  | [], _ :: _ => .lt
  | _ :: _, [] => .gt
  | a :: as, b :: bs => (Value.cmp a b).then (Value.cmpList as bs)

/-- `Ord for BTreeMap<String, Value>`: lexicographic on the entries. -/
def Value.cmpFields : List (String × Value) → List (String × Value) → Ordering
  | [], [] => .eq
  | [], _ :: _ => .lt
  | _ :: _, [] => .gt
  | (n, a) :: as, (m, b) :: bs =>
    ((strCmp n m).then (Value.cmp a b)).then (Value.cmpFields as bs)

/-- `Ord for BTreeMap<Value, Value>`: lexicographic on the entries. -/
def Value.cmpPairs : List (Value × Value) → List (Value × Value) → Ordering
  | [], [] => .eq
  | [], _ :: _ => .lt
  | _ :: _, [] => .gt
  | (k, a) :: as, (l, b) :: bs =>
    ((Value.cmp k l).then (Value.cmp a b)).then (Value.cmpPairs as bs)
end

/-- `==` of scalars inside `OrdEqHashValue` (value.rs:71-88): same variant and equal payload, floats
through `OrderedFloat`, for which every NaN equals every NaN and `0.0 == -0.0`. -/
def Scalar.ordEq : Scalar → Scalar → Bool
  | .int k n, .int k' n' => k == k' && n == n'
  | .bool b, .bool b' => b == b'
  | .char c, .char c' => c == c'
  | .f32 b, .f32 b' => if f32NaN b then f32NaN b' else f32Eq b b'
  | .f64 b, .f64 b' => if f64NaN b then f64NaN b' else f64Eq b b'
  | .string s, .string s' => s == s'
  | _, _ => false

mutual
/-- `PartialEq for Value` (value.rs:126-130), the derived `==` of `OrdEqHashValue` and of
`StructValue` (struct_.rs:48), `EnumValue`/`EnumValueKind` (enum_.rs:64-79), `TupleStructValue`
(tuple_struct.rs:41), `TupleValue` (tuple.rs:41): component-wise, written independently of `cmp`. -/
def Value.beq : Value → Value → Bool
  | .scalar a, .scalar b => Scalar.ordEq a b
  | .struct ns fs, .struct ns' fs' => ns == ns' && Value.beqFields fs fs'
  | .enumS n ns fs, .enumS n' ns' fs' => n == n' && (ns == ns' && Value.beqFields fs fs')
  | .enumT n fs, .enumT n' fs' => n == n' && Value.beqList fs fs'
  | .enumU n, .enumU n' => n == n'
  | .tupleStruct fs, .tupleStruct fs' => Value.beqList fs fs'
  | .tuple fs, .tuple fs' => Value.beqList fs fs'
  | .list xs, .list ys => Value.beqList xs ys
  | .map m, .map m' => Value.beqPairs m m'
  | _, _ => false
/-- `==` of `[Value]`. -/
def Value.beqList : List Value → List Value → Bool
  | [], [] => true
  | a :: as, b :: bs => Value.beq a b && Value.beqList as bs
  | _, _ => false
/-- `==` of `BTreeMap<String, Value>`. -/
def Value.beqFields : List (String × Value) → List (String × Value) → Bool
  | [], [] => true
  | (n, a) :: as, (m, b) :: bs => (n == m && Value.beq a b) && Value.beqFields as bs
  | _, _ => false
/-- `==` of `BTreeMap<Value, Value>`. -/
def Value.beqPairs : List (Value × Value) → List (Value × Value) → Bool
  | [], [] => true
  | (k, a) :: as, (l, b) :: bs => (Value.beq k l && Value.beq a b) && Value.beqPairs as bs
  | _, _ => false
end

/-- A write to the `Hasher`: a discriminant, a number, a string, or a length prefix. -/
inductive HTok
  | disc (n : Nat)
  | num (n : Int)
  | str (s : String)
  | len (n : Nat)
  deriving DecidableEq, Repr

/-- `Hash` of scalars in `OrdEqHashValue` (value.rs:71-88). `OrderedFloat` hashes every NaN as one
canonical NaN, both zeros as zero, and every other number by its bits. -/
def Scalar.hashFeed : Scalar → List HTok
  | .int k n => [.disc k.idx, .num n]
  | .bool b => [.disc 11, .num b.toNat]
  | .char c => [.disc 12, .num c.toNat]
  | .f32 b =>
    [.disc 13, .num (if f32NaN b then 0x7FC00000 else if f32Mag b = 0 then 0 else b.toNat)]
  | .f64 b =>
    [.disc 14, .num (if f64NaN b then 0x7FF8000000000000 else if f64Mag b = 0 then 0 else b.toNat)]
  | .string s => [.disc 15, .str s]

/-- `Hash for Value` (value.rs:146-153): the sequence of writes of the derived `Hash` of
`OrdEqHashValue` and of the dynamic containers. Slices, vectors and maps write their length first. -/
def Value.hashFeed : Value → List HTok
  | .scalar s => s.hashFeed
  | .struct ns fs =>
    .disc 16 :: .len ns.length :: (ns.map .str) ++ .len fs.length ::
      (fs.map fun p => .str p.1 :: p.2.hashFeed).flatten
  | .enumS n ns fs =>
    .disc 17 :: .str n :: .disc 0 :: .len ns.length :: (ns.map .str) ++ .len fs.length ::
      (fs.map fun p => .str p.1 :: p.2.hashFeed).flatten
  | .enumT n fs =>
    .disc 17 :: .str n :: .disc 1 :: .len fs.length :: (fs.map fun x => x.hashFeed).flatten
  | .enumU n => [.disc 17, .str n, .disc 2]
  | .tupleStruct fs => .disc 18 :: .len fs.length :: (fs.map fun x => x.hashFeed).flatten
  | .tuple fs => .disc 19 :: .len fs.length :: (fs.map fun x => x.hashFeed).flatten
  | .list xs => .disc 20 :: .len xs.length :: (xs.map fun x => x.hashFeed).flatten
  | .map m =>
    .disc 21 :: .len m.length :: (m.map fun p => p.1.hashFeed ++ p.2.hashFeed).flatten

end Mirror
