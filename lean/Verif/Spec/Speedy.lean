import Verif.Model.Speedy
import Verif.Spec.SerdeType

/-!
# Specification for binary serialisation

`Bin.Faithful`: what a user relies on when writing something and reading it back. `Short`: what fits
the format, whose lengths are `u32`s.
-/

namespace Mirror

/-- A binary format of the things satisfying `held` (those the Rust type can hold):
* writing succeeds exactly on those satisfying `fits`;
* what was written is read back unchanged, whatever bytes follow, and these are left;
* reading untrusted bytes only ever gives things that the type can hold and that could be written, and
  leaves a rest of the bytes. -/
structure Bin.Faithful {α} (c : Bin α) (held fits : α → Prop) : Prop where
  writes : ∀ a, held a → ((∃ bs, c.w a = some bs) ↔ fits a)
  back : ∀ a bs rest, held a → c.w a = some bs → c.r (bs ++ rest) = some (a, rest)
  only : ∀ bs a rest, c.r bs = some (a, rest) → held a ∧ fits a ∧ ∃ used, bs = used ++ rest

/-- A length that fits a `u32`. -/
def Fits32 (n : Nat) : Prop := n < 2 ^ 32

/-- A string whose length in bytes fits a `u32`. -/
def ShortStr (s : String) : Prop := Fits32 s.utf8ByteSize

/-- What is assumed of the layout of primitives: each is faithful, an enum tag takes up space, lengths
and strings must fit a `u32`. -/
structure Speedy.Lawful (F : Speedy) : Prop where
  tag : F.tag.Faithful Fits32 fun _ => True
  tagMoves : ∀ bs i rest, F.tag.r bs = some (i, rest) → rest.length < bs.length
  len : F.len.Faithful (fun _ => True) Fits32
  flag : F.flag.Faithful (fun _ => True) fun _ => True
  int : ∀ k, (F.int k).Faithful k.InRange fun _ => True
  bool : F.bool.Faithful (fun _ => True) fun _ => True
  char : F.char.Faithful (fun _ => True) fun _ => True
  f32 : F.f32.Faithful (fun _ => True) fun _ => True
  f64 : F.f64.Faithful (fun _ => True) fun _ => True
  str : F.str.Faithful (fun _ => True) ShortStr

/-! ## What fits the format: every string, list and map in it is short -/

def Scalar.Short : Scalar → Prop
  | .string s => ShortStr s
  | _ => True

def ShortStrs (ns : List String) : Prop := Fits32 ns.length ∧ ∀ n ∈ ns, ShortStr n

inductive Value.Short : Value → Prop
  | scalar (s) : s.Short → Value.Short (.scalar s)
  | struct (ns fs) : ShortStrs ns → Fits32 fs.length → (∀ p ∈ fs, ShortStr p.1) →
      (∀ p ∈ fs, Value.Short p.2) → Value.Short (.struct ns fs)
  | enumS (v ns fs) : ShortStr v → ShortStrs ns → Fits32 fs.length → (∀ p ∈ fs, ShortStr p.1) →
      (∀ p ∈ fs, Value.Short p.2) → Value.Short (.enumS v ns fs)
  | enumT (v fs) : ShortStr v → Fits32 fs.length → (∀ x ∈ fs, Value.Short x) → Value.Short (.enumT v fs)
  | enumU (v) : ShortStr v → Value.Short (.enumU v)
  | tupleStruct (fs) : Fits32 fs.length → (∀ x ∈ fs, Value.Short x) → Value.Short (.tupleStruct fs)
  | tuple (fs) : Fits32 fs.length → (∀ x ∈ fs, Value.Short x) → Value.Short (.tuple fs)
  | list (xs) : Fits32 xs.length → (∀ x ∈ xs, Value.Short x) → Value.Short (.list xs)
  | map (kvs) : Fits32 kvs.length → (∀ p ∈ kvs, Value.Short p.1) → (∀ p ∈ kvs, Value.Short p.2) →
      Value.Short (.map kvs)

def Key.Short : Key → Prop
  | .named n => ShortStr n
  | .numbered _ => True
  | .get v => v.Short
  | .variant v => ShortStr v

/-- A key path the Rust type can hold. -/
def KeyPath.Storable (p : KeyPath) : Prop := ∀ k ∈ p, Key.Storable k

def KeyPath.Short (p : KeyPath) : Prop := Fits32 p.length ∧ ∀ k ∈ p, Key.Short k

def MetaShort (md : WireMeta) : Prop := Fits32 md.length ∧ ∀ p ∈ md, ShortStr p.1 ∧ p.2.Short

def WireNamed.Short (x : WireNamed) : Prop :=
  ShortStr x.name ∧ MetaShort x.metadata ∧ ShortStrs x.docs

def WireUnnamed.Short (x : WireUnnamed) : Prop := MetaShort x.metadata ∧ ShortStrs x.docs

def NamedShort (fs : List (String × WireNamed)) : Prop :=
  Fits32 fs.length ∧ ∀ p ∈ fs, ShortStr p.1 ∧ p.2.Short

def UnnamedShort (fs : List WireUnnamed) : Prop := Fits32 fs.length ∧ ∀ f ∈ fs, f.Short

def WireStruct.Short (x : WireStruct) : Prop :=
  ShortStr x.typeName ∧ NamedShort x.fields ∧ ShortStrs x.fieldNames ∧ MetaShort x.metadata ∧
    ShortStrs x.docs

def WireTuple.Short (x : WireTuple) : Prop :=
  ShortStr x.typeName ∧ UnnamedShort x.fields ∧ MetaShort x.metadata ∧ ShortStrs x.docs

def WireVariant.Short : WireVariant → Prop
  | .struct v => ShortStr v.name ∧ NamedShort v.fields ∧ ShortStrs v.fieldNames ∧
      MetaShort v.metadata ∧ ShortStrs v.docs
  | .tuple v => ShortStr v.name ∧ UnnamedShort v.fields ∧ MetaShort v.metadata ∧ ShortStrs v.docs
  | .unit v => ShortStr v.name ∧ MetaShort v.metadata ∧ ShortStrs v.docs

def WireNode.Short : WireNode → Prop
  | .struct n => n.Short
  | .tupleStruct n => n.Short
  | .tuple n => n.Short
  | .enum n => ShortStr n.typeName ∧ (Fits32 n.variants.length ∧ ∀ v ∈ n.variants, v.Short) ∧
      MetaShort n.metadata ∧ ShortStrs n.docs
  | .list n => ShortStr n.typeName
  | .array n => ShortStr n.typeName
  | .map n => ShortStr n.typeName
  | .scalar _ => True
  | .opaque n => ShortStr n.typeName ∧ MetaShort n.metadata ∧ ∀ v, n.defaultValue = some v → v.Short

def WireDescriptor.Short (x : WireDescriptor) : Prop :=
  Fits32 x.graph.length ∧ ∀ p ∈ x.graph, ∀ n, p.2 = some n → n.Short

end Mirror
