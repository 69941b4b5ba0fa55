/-!
# Scalars

Models the sixteen scalar kinds of mirror-mirror
(`/repo/crates/mirror-mirror/src/lib.rs:547-682` scalar impls, `lib.rs:983-1030` `ScalarRef`,
`/repo/crates/mirror-mirror/src/value.rs:39-55` scalar variants of `Value`).
-/

namespace Mirror

/-- The integer scalar kinds, in the order in which `Value` (value.rs:40-50) and
`OrdEqHashValue` (value.rs:73-83) list them; `usize` is taken to be 64 bits wide. -/
inductive IntKind
  | usize | u8 | u16 | u32 | u64 | u128 | i8 | i16 | i32 | i64 | i128
  deriving DecidableEq, Repr, Inhabited

/-- Position of the integer kind among the variants of `Value` (value.rs:40-50). -/
def IntKind.idx : IntKind → Nat
  | .usize => 0 | .u8 => 1 | .u16 => 2 | .u32 => 3 | .u64 => 4 | .u128 => 5
  | .i8 => 6 | .i16 => 7 | .i32 => 8 | .i64 => 9 | .i128 => 10

/-- The number of bits of an integer kind (`usize` on a 64 bit target). -/
def IntKind.bits : IntKind → Nat
  | .usize => 64 | .u8 => 8 | .u16 => 16 | .u32 => 32 | .u64 => 64 | .u128 => 128
  | .i8 => 8 | .i16 => 16 | .i32 => 32 | .i64 => 64 | .i128 => 128

/-- Whether the integer kind is signed. -/
def IntKind.signed : IntKind → Bool
  | .usize | .u8 | .u16 | .u32 | .u64 | .u128 => false
  | .i8 | .i16 | .i32 | .i64 | .i128 => true

/-- The integers a kind can represent. -/
def IntKind.InRange (k : IntKind) (n : Int) : Prop :=
  if k.signed then -(2 ^ (k.bits - 1) : Int) ≤ n ∧ n < 2 ^ (k.bits - 1)
  else 0 ≤ n ∧ n < 2 ^ k.bits

instance (k : IntKind) (n : Int) : Decidable (k.InRange n) := by
  unfold IntKind.InRange; infer_instance

/-- The kind (Rust type) of a scalar: `ScalarType` in
`/repo/crates/mirror-mirror/src/type_info/mod.rs:591-661`. -/
inductive ScalarKind
  | int (k : IntKind) | bool | char | f32 | f64 | string
  deriving DecidableEq, Repr, Inhabited

/-- Position of the scalar kind among the variants of `Value` (value.rs:40-55). -/
def ScalarKind.idx : ScalarKind → Nat
  | .int k => k.idx
  | .bool => 11 | .char => 12 | .f32 => 13 | .f64 => 14 | .string => 15

/-- A scalar value: the first sixteen variants of `Value` (value.rs:40-55), `ScalarRef`
(lib.rs:984-1003).

Simplification: an integer is its kind and a mathematical integer. Every theorem below holds for
all integers, hence for those in the range of the kind. Floats are IEEE-754 bit patterns. -/
inductive Scalar
  | int (k : IntKind) (n : Int)
  | bool (b : Bool)
  | char (c : Char)
  | f32 (bits : BitVec 32)
  | f64 (bits : BitVec 64)
  | string (s : String)
  deriving DecidableEq, Repr, Inhabited

/-- The Rust type of a scalar. -/
def Scalar.kind : Scalar → ScalarKind
  | .int k _ => .int k
  | .bool _ => .bool
  | .char _ => .char
  | .f32 _ => .f32
  | .f64 _ => .f64
  | .string _ => .string

/-! ## IEEE-754 floats on bit patterns -/

/-- Magnitude of an `f32`: the 31 bits below the sign. -/
def f32Mag (b : BitVec 32) : Nat := b.toNat % 2 ^ 31
/-- Sign bit of an `f32`. -/
def f32Neg (b : BitVec 32) : Bool := 2 ^ 31 ≤ b.toNat
/-- `f32::is_nan`: exponent all ones and a non-zero mantissa. -/
def f32NaN (b : BitVec 32) : Bool := 0x7F800000 < f32Mag b
/-- A key that orders the non-NaN `f32`s numerically; both zeros have key `0`. -/
def f32Key (b : BitVec 32) : Int := if f32Neg b then -(f32Mag b : Int) else f32Mag b

/-- Magnitude of an `f64`. -/
def f64Mag (b : BitVec 64) : Nat := b.toNat % 2 ^ 63
/-- Sign bit of an `f64`. -/
def f64Neg (b : BitVec 64) : Bool := 2 ^ 63 ≤ b.toNat
/-- `f64::is_nan`. -/
def f64NaN (b : BitVec 64) : Bool := 0x7FF0000000000000 < f64Mag b
/-- A key that orders the non-NaN `f64`s numerically. -/
def f64Key (b : BitVec 64) : Int := if f64Neg b then -(f64Mag b : Int) else f64Mag b

/-- `==` on `f32` (IEEE: NaN differs from everything, the two zeros are equal). -/
def f32Eq (a b : BitVec 32) : Bool := !f32NaN a && !f32NaN b && f32Key a == f32Key b
/-- `==` on `f64`. -/
def f64Eq (a b : BitVec 64) : Bool := !f64NaN a && !f64NaN b && f64Key a == f64Key b

/-- Key of `OrderedFloat<f32>`'s order (the `ordered-float` crate, used at value.rs:86,113): numeric
order, every NaN equal to every NaN and above all numbers. -/
def f32OrdKey (b : BitVec 32) : Int := if f32NaN b then 2 ^ 31 else f32Key b
/-- Key of `OrderedFloat<f64>`'s order (value.rs:87,114). -/
def f64OrdKey (b : BitVec 64) : Int := if f64NaN b then 2 ^ 63 else f64Key b

/-- Whether a scalar is a NaN. -/
def Scalar.isNaN : Scalar → Bool
  | .f32 b => f32NaN b
  | .f64 b => f64NaN b
  | _ => false

/-- `ScalarRef`'s derived `==` (lib.rs:984): same kind and `==` of that Rust type. -/
def Scalar.eqv : Scalar → Scalar → Bool
  | .int k n, .int k' n' => k == k' && n == n'
  | .bool b, .bool b' => b == b'
  | .char c, .char c' => c == c'
  | .f32 b, .f32 b' => f32Eq b b'
  | .f64 b, .f64 b' => f64Eq b b'
  | .string s, .string s' => s == s'
  | _, _ => false

/-- Lexicographic order on lists of numbers (`Ord` of slices: `[u8]`/`str` compare this way). -/
def natListCmp : List Nat → List Nat → Ordering
  | [], [] => .eq
  | [], _ :: _ => .lt
  | _ :: _, [] => .gt
  | a :: as, b :: bs => (compare a b).then (natListCmp as bs)

/-- `Ord for str`: byte-wise on UTF-8, which is code-point-wise lexicographic. -/
def strCmp (a b : String) : Ordering :=
  natListCmp (a.toList.map Char.toNat) (b.toList.map Char.toNat)

/-- Order of scalars inside `OrdEqHashValue` (value.rs:70-95, derived `Ord`: first the variant
position, then the payload; floats through `OrderedFloat`). -/
def Scalar.cmp (a b : Scalar) : Ordering :=
  (compare a.kind.idx b.kind.idx).then <|
    match a, b with
    | .int _ n, .int _ n' => compare n n'
    | .bool x, .bool y => compare x.toNat y.toNat
    | .char x, .char y => compare x.toNat y.toNat
    | .f32 x, .f32 y => compare (f32OrdKey x) (f32OrdKey y)
    | .f64 x, .f64 y => compare (f64OrdKey x) (f64OrdKey y)
    | .string x, .string y => strCmp x y
    | _, _ => .eq

end Mirror
