import Verif.Model.SerdeType

/-!
# Serialising values, key paths and type descriptors with speedy

`Value`, its containers, `KeyPath`, `ScalarOwned`, `ScalarType`, `TypeDescriptor` and every node type
of graph.rs derive `speedy::Readable` and `speedy::Writable` without attributes (value.rs:37,
struct_.rs:49, enum_.rs:65,73, tuple.rs:42, tuple_struct.rs:42, key_path.rs:219,377,418, lib.rs:821,
type_info/mod.rs:100,590, graph.rs:17-508). What the derives do is fixed by the declarations: a struct
is its fields one after the other, an enum a `u32` tag - the position of the variant - and the payload.
What speedy does for the types of the fields is written out here; how it lays out a single primitive is
a parameter (`Speedy`), of which little endian is one instance.

Simplifications: writing fails only on lengths that do not fit a `u32`; running out of memory or stack
is not modelled.
-/

namespace Mirror

/-- The `Writable` and `Readable` implementations of a type: the bytes written (`none` is an error),
and what is read from the front of some bytes, with the bytes that are left. -/
structure Bin (α : Type) where
  w : α → Option (List UInt8)
  r : List UInt8 → Option (α × List UInt8)

/-- How speedy lays out the primitives that the types of the crate are made of: enum tags (`u32`),
lengths (`u32`), the presence of an `Option`, and the payloads of value.rs:40-55. -/
structure Speedy where
  tag : Bin Nat
  len : Bin Nat
  flag : Bin Bool
  int : IntKind → Bin Int
  bool : Bin Bool
  char : Bin Char
  f32 : Bin (BitVec 32)
  f64 : Bin (BitVec 64)
  str : Bin String

/-! ## By the types of the fields -/

/-- Writing one thing after the other; an error stops. -/
def wcat (a b : Option (List UInt8)) : Option (List UInt8) :=
  a.bind fun x => b.map fun y => x ++ y

/-- Writing many things one after the other. -/
def wcats : List (Option (List UInt8)) → Option (List UInt8)
  | [] => some []
  | a :: as => wcat a (wcats as)

/-- Reading one thing after the other. -/
def rpair {α β} (a : List UInt8 → Option (α × List UInt8)) (b : List UInt8 → Option (β × List UInt8))
    (bs : List UInt8) : Option ((α × β) × List UInt8) :=
  (a bs).bind fun p => (b p.2).map fun q => ((p.1, q.1), q.2)

/-- Reading a given number of things. -/
def rmany {α} (a : List UInt8 → Option (α × List UInt8)) :
    Nat → List UInt8 → Option (List α × List UInt8)
  | 0, bs => some ([], bs)
  | n + 1, bs => (a bs).bind fun p => (rmany a n p.2).map fun q => (p.1 :: q.1, q.2)

/-- Reading a `Vec<T>`, `Box<[T]>`: the length, then the elements. -/
def Speedy.rvec {α} (F : Speedy) (a : List UInt8 → Option (α × List UInt8)) (bs : List UInt8) :
    Option (List α × List UInt8) :=
  (F.len.r bs).bind fun p => rmany a p.1 p.2

/-- Reading a `BTreeMap<K, V>`: the length, then keys and values, which are collected. -/
def Speedy.rbtree {κ α} (F : Speedy) (cmp : κ → κ → Ordering)
    (k : List UInt8 → Option (κ × List UInt8)) (a : List UInt8 → Option (α × List UInt8))
    (bs : List UInt8) : Option (List (κ × α) × List UInt8) :=
  (F.rvec (rpair k a) bs).map fun p => (bmCollect cmp p.1, p.2)

/-- Two fields. -/
def Bin.pair {α β} (c : Bin α) (d : Bin β) : Bin (α × β) :=
  ⟨fun p => wcat (c.w p.1) (d.w p.2), rpair c.r d.r⟩

/-- A struct, whose fields are given by `un`. -/
def Bin.iso {α β} (c : Bin α) (mk : α → β) (un : β → α) : Bin β :=
  ⟨fun b => c.w (un b), fun bs => (c.r bs).map fun p => (mk p.1, p.2)⟩

/-- `Vec<T>` and `Box<[T]>` (tuple.rs:45, graph.rs:131,174). -/
def Speedy.vec {α} (F : Speedy) (c : Bin α) : Bin (List α) :=
  ⟨fun xs => wcat (F.len.w xs.length) (wcats (xs.map c.w)), F.rvec c.r⟩

/-- `BTreeMap<K, V>` (struct_.rs:54, graph.rs:59,130): written in key order. -/
def Speedy.btree {κ α} (F : Speedy) (cmp : κ → κ → Ordering) (k : Bin κ) (c : Bin α) :
    Bin (List (κ × α)) :=
  ⟨(F.vec (k.pair c)).w, F.rbtree cmp k.r c.r⟩

/-- `Option<T>` (graph.rs:59,513): whether there is something, and what. -/
def Speedy.option {α} (F : Speedy) (c : Bin α) : Bin (Option α) where
  w
    | none => F.flag.w false
    | some a => wcat (F.flag.w true) (c.w a)
  r bs := (F.flag.r bs).bind fun p =>
    if p.1 then (c.r p.2).map fun q => (some q.1, q.2) else some (none, p.2)

/-- A derived enum: the position of the variant, then its payload. -/
def Speedy.enum {α} (F : Speedy) (idx : α → Nat) (w : α → Option (List UInt8))
    (r : Nat → List UInt8 → Option (α × List UInt8)) : Bin α where
  w a := wcat (F.tag.w (idx a)) (w a)
  r bs := (F.tag.r bs).bind fun p => r p.1 p.2

/-- A payload read as that of a variant. -/
def Bin.arm {α β} (c : Bin α) (mk : α → β) (bs : List UInt8) : Option (β × List UInt8) :=
  (c.r bs).map fun p => (mk p.1, p.2)

/-! ## Scalars -/

/-- The payload of a scalar variant (value.rs:40-55). -/
def Speedy.wscalar (F : Speedy) : Scalar → Option (List UInt8)
  | .int k n => (F.int k).w n
  | .bool b => F.bool.w b
  | .char c => F.char.w c
  | .f32 b => F.f32.w b
  | .f64 b => F.f64.w b
  | .string s => F.str.w s

/-- The payload of a scalar variant (value.rs:40-55). -/
def Speedy.rscalar (F : Speedy) : ScalarKind → List UInt8 → Option (Scalar × List UInt8)
  | .int k => (F.int k).arm (.int k)
  | .bool => F.bool.arm .bool
  | .char => F.char.arm .char
  | .f32 => F.f32.arm .f32
  | .f64 => F.f64.arm .f64
  | .string => F.str.arm .string

/-- Derives of `ScalarOwned` (lib.rs:818-841). -/
def Speedy.scalar (F : Speedy) : Bin Scalar :=
  F.enum (fun s => s.kind.idx) F.wscalar fun i bs =>
    match ScalarKind.ofIdx i with
    | some k => F.rscalar k bs
    | none => none

/-- Derives of `ScalarType` (type_info/mod.rs:587-608) and of `ScalarNode` (graph.rs:464-486): unit
variants. -/
def Speedy.kind (F : Speedy) : Bin ScalarKind :=
  F.enum ScalarKind.idx (fun _ => some []) fun i bs => (ScalarKind.ofIdx i).map fun k => (k, bs)

/-! ## Values -/

/-- The field names of a `StructValue` (struct_.rs:52). -/
def Speedy.strs (F : Speedy) : Bin (List String) := F.vec F.str

mutual
/-- Derived `Writable for Value` (value.rs:37-62); `Box` is transparent. `StructValue` is its two fields
(struct_.rs:49-55), `EnumValue` its name and its kind, an enum (enum_.rs:65-79), `TupleStructValue` one
tuple (tuple_struct.rs:42-46), `TupleValue` one vector (tuple.rs:42-46). -/
def Value.bw (F : Speedy) : Value → Option (List UInt8)
  | .scalar s => wcat (F.tag.w s.kind.idx) (F.wscalar s)
  | .struct ns fs => wcat (F.tag.w 16) (wcat (F.strs.w ns)
      (wcat (F.len.w fs.length) (Value.bwFields F fs)))
  | .enumS n ns fs => wcat (F.tag.w 17) (wcat (F.str.w n) (wcat (F.tag.w 0) (wcat (F.strs.w ns)
      (wcat (F.len.w fs.length) (Value.bwFields F fs)))))
  | .enumT n fs => wcat (F.tag.w 17) (wcat (F.str.w n) (wcat (F.tag.w 1)
      (wcat (F.len.w fs.length) (Value.bwList F fs))))
  | .enumU n => wcat (F.tag.w 17) (wcat (F.str.w n) (F.tag.w 2))
  | .tupleStruct fs => wcat (F.tag.w 18) (wcat (F.len.w fs.length) (Value.bwList F fs))
  | .tuple fs => wcat (F.tag.w 19) (wcat (F.len.w fs.length) (Value.bwList F fs))
  | .list xs => wcat (F.tag.w 20) (wcat (F.len.w xs.length) (Value.bwList F xs))
  | .map kvs => wcat (F.tag.w 21) (wcat (F.len.w kvs.length) (Value.bwPairs F kvs))
/-- The elements of a `Vec<Value>` (tuple.rs:45, value.rs:60). -/
def Value.bwList (F : Speedy) : List Value → Option (List UInt8)
  | [] => some []
  | v :: vs => wcat (v.bw F) (Value.bwList F vs)
/-- The entries of a `BTreeMap<String, Value>` (struct_.rs:54). -/
def Value.bwFields (F : Speedy) : List (String × Value) → Option (List UInt8)
  | [] => some []
  | (n, v) :: fs => wcat (wcat (F.str.w n) (v.bw F)) (Value.bwFields F fs)
/-- The entries of a `BTreeMap<Value, Value>` (value.rs:61). -/
def Value.bwPairs (F : Speedy) : List (Value × Value) → Option (List UInt8)
  | [] => some []
  | (k, v) :: kvs => wcat (wcat (k.bw F) (v.bw F)) (Value.bwPairs F kvs)
end

/-- Derived `Readable for StructValue` (struct_.rs:49-55), values being read by `rv`. -/
def Speedy.rstruct (F : Speedy) (rv : List UInt8 → Option (Value × List UInt8)) :
    List UInt8 → Option ((List String × List (String × Value)) × List UInt8) :=
  rpair F.strs.r (F.rbtree strCmp F.str.r rv)

/-- The payload of the variants of `EnumValueKind` (enum_.rs:75-79) by position, `n` being the name of
the enum's variant. -/
def Speedy.rkindArm (F : Speedy) (rv : List UInt8 → Option (Value × List UInt8)) (n : String) (i : Nat)
    (bs : List UInt8) : Option (Value × List UInt8) :=
  match i with
  | 0 => (F.rstruct rv bs).map fun q => (.enumS n q.1.1 q.1.2, q.2)
  | 1 => (F.rvec rv bs).map fun q => (.enumT n q.1, q.2)
  | 2 => some (.enumU n, bs)
  | _ => none

/-- Derived `Readable for EnumValueKind` (enum_.rs:73-79). -/
def Speedy.rkind (F : Speedy) (rv : List UInt8 → Option (Value × List UInt8)) (n : String)
    (bs : List UInt8) : Option (Value × List UInt8) :=
  (F.tag.r bs).bind fun p => F.rkindArm rv n p.1 p.2

/-- The payload of the variants of `Value` (value.rs:39-62) by position, values inside being read by
`rv`. -/
def Speedy.rvalue (F : Speedy) (rv : List UInt8 → Option (Value × List UInt8)) (i : Nat)
    (bs : List UInt8) : Option (Value × List UInt8) :=
  match i with
  | 16 => (F.rstruct rv bs).map fun q => (.struct q.1.1 q.1.2, q.2)
  | 17 => (F.str.r bs).bind fun p => F.rkind rv p.1 p.2
  | 18 => (F.rvec rv bs).map fun q => (.tupleStruct q.1, q.2)
  | 19 => (F.rvec rv bs).map fun q => (.tuple q.1, q.2)
  | 20 => (F.rvec rv bs).map fun q => (.list q.1, q.2)
  | 21 => (F.rbtree Value.cmp rv rv bs).map fun q => (.map q.1, q.2)
  | i =>
    match ScalarKind.ofIdx i with
    | some k => (F.rscalar k bs).map fun q => (.scalar q.1, q.2)
    | none => none

/-- Derived `Readable for Value` (value.rs:37-62). The Rust code recurses without a bound; here the
depth is bounded by `fuel`, which the number of bytes exceeds never (`C75_fuel`). -/
def Value.br (F : Speedy) : Nat → List UInt8 → Option (Value × List UInt8)
  | 0, _ => none
  | fuel + 1, bs => (F.tag.r bs).bind fun p => F.rvalue (Value.br F fuel) p.1 p.2

/-- Derives of `Value` (value.rs:37-62). -/
def Speedy.value (F : Speedy) : Bin Value := ⟨Value.bw F, fun bs => Value.br F (bs.length + 1) bs⟩

/-! ## Key paths -/

/-- A `usize`: indices and lengths of arrays (key_path.rs:422, graph.rs:403). -/
def Speedy.usize (F : Speedy) : Bin Nat := (F.int .usize).iso Int.toNat Nat.cast

/-- `NodeId`, a struct around a `u64` (graph.rs:17-19). -/
def Speedy.id (F : Speedy) : Bin WireId := (F.int .u64).iso Int.toNat Nat.cast

/-- Derives of `NamedOrNumbered` (key_path.rs:418-423). -/
def Speedy.namedOrNumbered (F : Speedy) : Bin (String ⊕ Nat) :=
  F.enum (fun | .inl _ => 0 | .inr _ => 1)
    (fun | .inl n => F.str.w n | .inr i => F.usize.w i)
    fun i bs => match i with
      | 0 => F.str.arm .inl bs
      | 1 => F.usize.arm .inr bs
      | _ => none

/-- Derives of `Key` (key_path.rs:377-383). -/
def Speedy.key (F : Speedy) : Bin Key :=
  F.enum (fun | .named _ => 0 | .numbered _ => 0 | .get _ => 1 | .variant _ => 2)
    (fun
      | .named n => F.namedOrNumbered.w (.inl n)
      | .numbered i => F.namedOrNumbered.w (.inr i)
      | .get v => F.value.w v
      | .variant v => F.str.w v)
    fun i bs => match i with
      | 0 => F.namedOrNumbered.arm (fun | .inl n => .named n | .inr i => .numbered i) bs
      | 1 => F.value.arm .get bs
      | 2 => F.str.arm .variant bs
      | _ => none

/-- Derives of `KeyPath` (key_path.rs:219-223). -/
def Speedy.keyPath (F : Speedy) : Bin KeyPath := F.vec F.key

/-! ## Type descriptors -/

/-- The metadata of a node (graph.rs:132). -/
def Speedy.metadata (F : Speedy) : Bin WireMeta := F.btree strCmp F.str F.value

/-- Derives of `NamedFieldNode` (graph.rs:343-350). -/
def Speedy.named (F : Speedy) : Bin WireNamed :=
  (F.str.pair (F.id.pair (F.metadata.pair F.strs))).iso
    (fun (a, b, c, d) => ⟨a, b, c, d⟩) (fun x => (x.name, x.id, x.metadata, x.docs))

/-- Derives of `UnnamedFieldNode` (graph.rs:372-378). -/
def Speedy.unnamed (F : Speedy) : Bin WireUnnamed :=
  (F.id.pair (F.metadata.pair F.strs)).iso
    (fun (a, b, c) => ⟨a, b, c⟩) (fun x => (x.id, x.metadata, x.docs))

/-- `BTreeMap<String, NamedFieldNode>` (graph.rs:130,239). -/
def Speedy.namedFields (F : Speedy) : Bin (List (String × WireNamed)) := F.btree strCmp F.str F.named

/-- Derives of `StructNode` (graph.rs:126-134). -/
def Speedy.struct (F : Speedy) : Bin WireStruct :=
  (F.str.pair (F.namedFields.pair (F.strs.pair (F.metadata.pair F.strs)))).iso
    (fun (a, b, c, d, e) => ⟨a, b, c, d, e⟩)
    (fun x => (x.typeName, x.fields, x.fieldNames, x.metadata, x.docs))

/-- Derives of `TupleStructNode` and `TupleNode` (graph.rs:170-177,315-322). -/
def Speedy.tuple (F : Speedy) : Bin WireTuple :=
  (F.str.pair ((F.vec F.unnamed).pair (F.metadata.pair F.strs))).iso
    (fun (a, b, c, d) => ⟨a, b, c, d⟩) (fun x => (x.typeName, x.fields, x.metadata, x.docs))

/-- Derives of `StructVariantNode` (graph.rs:235-243). -/
def Speedy.structVariant (F : Speedy) : Bin WireStructVariant :=
  (F.str.pair (F.namedFields.pair (F.strs.pair (F.metadata.pair F.strs)))).iso
    (fun (a, b, c, d, e) => ⟨a, b, c, d, e⟩)
    (fun x => (x.name, x.fields, x.fieldNames, x.metadata, x.docs))

/-- Derives of `TupleVariantNode` (graph.rs:266-273). -/
def Speedy.tupleVariant (F : Speedy) : Bin WireTupleVariant :=
  (F.str.pair ((F.vec F.unnamed).pair (F.metadata.pair F.strs))).iso
    (fun (a, b, c, d) => ⟨a, b, c, d⟩) (fun x => (x.name, x.fields, x.metadata, x.docs))

/-- Derives of `UnitVariantNode` (graph.rs:292-298). -/
def Speedy.unitVariant (F : Speedy) : Bin WireUnitVariant :=
  (F.str.pair (F.metadata.pair F.strs)).iso
    (fun (a, b, c) => ⟨a, b, c⟩) (fun x => (x.name, x.metadata, x.docs))

/-- Derives of `VariantNode` (graph.rs:226-232). -/
def Speedy.variant (F : Speedy) : Bin WireVariant :=
  F.enum (fun | .struct _ => 0 | .tuple _ => 1 | .unit _ => 2)
    (fun
      | .struct v => F.structVariant.w v
      | .tuple v => F.tupleVariant.w v
      | .unit v => F.unitVariant.w v)
    fun i bs => match i with
      | 0 => F.structVariant.arm .struct bs
      | 1 => F.tupleVariant.arm .tuple bs
      | 2 => F.unitVariant.arm .unit bs
      | _ => none

/-- Derives of `EnumNode` (graph.rs:198-205). -/
def Speedy.enumNode (F : Speedy) : Bin WireEnum :=
  (F.str.pair ((F.vec F.variant).pair (F.metadata.pair F.strs))).iso
    (fun (a, b, c, d) => ⟨a, b, c, d⟩) (fun x => (x.typeName, x.variants, x.metadata, x.docs))

/-- Derives of `ArrayNode` (graph.rs:398-404). -/
def Speedy.arrayNode (F : Speedy) : Bin WireArray :=
  (F.str.pair (F.id.pair F.usize)).iso
    (fun (a, b, c) => ⟨a, b, c⟩) (fun x => (x.typeName, x.elem, x.len))

/-- Derives of `ListNode` (graph.rs:421-426). -/
def Speedy.listNode (F : Speedy) : Bin WireList :=
  (F.str.pair F.id).iso (fun (a, b) => ⟨a, b⟩) (fun x => (x.typeName, x.elem))

/-- Derives of `MapNode` (graph.rs:442-448). -/
def Speedy.mapNode (F : Speedy) : Bin WireMap :=
  (F.str.pair (F.id.pair F.id)).iso
    (fun (a, b, c) => ⟨a, b, c⟩) (fun x => (x.typeName, x.key, x.val))

/-- Derives of `OpaqueNode` (graph.rs:508-514). -/
def Speedy.opaqueNode (F : Speedy) : Bin WireOpaque :=
  (F.str.pair (F.metadata.pair (F.option F.value))).iso
    (fun (a, b, c) => ⟨a, b, c⟩) (fun x => (x.typeName, x.metadata, x.defaultValue))

/-- Derives of `TypeNode` (graph.rs:91-103). -/
def Speedy.node (F : Speedy) : Bin WireNode :=
  F.enum
    (fun
      | .struct _ => 0 | .tupleStruct _ => 1 | .tuple _ => 2 | .enum _ => 3 | .list _ => 4
      | .array _ => 5 | .map _ => 6 | .scalar _ => 7 | .opaque _ => 8)
    (fun
      | .struct n => F.struct.w n
      | .tupleStruct n => F.tuple.w n
      | .tuple n => F.tuple.w n
      | .enum n => F.enumNode.w n
      | .list n => F.listNode.w n
      | .array n => F.arrayNode.w n
      | .map n => F.mapNode.w n
      | .scalar k => F.kind.w k
      | .opaque n => F.opaqueNode.w n)
    fun i bs => match i with
      | 0 => F.struct.arm .struct bs
      | 1 => F.tuple.arm .tupleStruct bs
      | 2 => F.tuple.arm .tuple bs
      | 3 => F.enumNode.arm .enum bs
      | 4 => F.listNode.arm .list bs
      | 5 => F.arrayNode.arm .array bs
      | 6 => F.mapNode.arm .map bs
      | 7 => F.kind.arm .scalar bs
      | 8 => F.opaqueNode.arm .opaque bs
      | _ => none

/-- Derives of `TypeGraph` (graph.rs:56-60): one map, by ascending id. -/
def Speedy.graph (F : Speedy) : Bin (List (WireId × Option WireNode)) :=
  F.btree compare F.id (F.option F.node)

/-- Derives of `TypeDescriptor` (type_info/mod.rs:100-105). -/
def Speedy.descriptor (F : Speedy) : Bin WireDescriptor :=
  (F.id.pair F.graph).iso (fun (a, b) => ⟨a, b⟩) (fun x => (x.root, x.graph))

/-! ## Little endian -/

/-- The bytes of a number, the least significant one first. -/
def leBytes : Nat → Nat → List UInt8
  | 0, _ => []
  | k + 1, n => UInt8.ofNat n :: leBytes k (n / 256)

/-- The number with these bytes. -/
def leNat : List UInt8 → Nat
  | [] => 0
  | b :: bs => b.toNat + 256 * leNat bs

/-- The first `k` bytes. -/
def takeBytes (k : Nat) (bs : List UInt8) : Option (List UInt8 × List UInt8) :=
  if k ≤ bs.length then some (bs.take k, bs.drop k) else none

/-- A number of `k` bytes, for enum tags and lengths; larger ones are errors. -/
def leBin (k : Nat) : Bin Nat where
  w n := if n < 256 ^ k then some (leBytes k n) else none
  r bs := (takeBytes k bs).map fun p => (leNat p.1, p.2)

/-- Integers: two's complement. -/
def leInt (k : IntKind) : Bin Int where
  w i := some (leBytes (k.bits / 8) (i % 2 ^ k.bits).toNat)
  r bs := (takeBytes (k.bits / 8) bs).map fun p =>
    let n : Int := leNat p.1
    (if k.signed && decide (2 ^ (k.bits - 1) ≤ n) then n - 2 ^ k.bits else n, p.2)

/-- A byte that is zero or not. -/
def leBool : Bin Bool where
  w b := some [if b then 1 else 0]
  r
    | [] => none
    | b :: bs => some (b != 0, bs)

/-- `char` as a `u32`. -/
def leChar : Bin Char where
  w c := (leBin 4).w c.toNat
  r bs := ((leBin 4).r bs).bind fun p =>
    if p.1.isValidChar then some (Char.ofNat p.1, p.2) else none

/-- Bit patterns. -/
def leBits (k : Nat) : Bin (BitVec (8 * k)) where
  w b := (leBin k).w b.toNat
  r bs := ((leBin k).r bs).map fun p => (BitVec.ofNat _ p.1, p.2)

/-- Strings: their length in bytes and their bytes. -/
def leStr : Bin String where
  w s := wcat ((leBin 4).w s.utf8ByteSize) (some s.toUTF8.data.toList)
  r bs := ((leBin 4).r bs).bind fun p => (takeBytes p.1 p.2).bind fun q =>
    (String.fromUTF8? ⟨⟨q.1⟩⟩).map fun s => (s, q.2)

/-- speedy's layout in little endian. -/
def Speedy.le : Speedy where
  tag := leBin 4
  len := leBin 4
  flag := leBool
  int := leInt
  bool := leBool
  char := leChar
  f32 := leBits 4
  f64 := leBits 8
  str := leStr

end Mirror
