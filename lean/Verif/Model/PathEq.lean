import Verif.Model.Path

/-!
# `==` and `Hash` of key paths

The derived `PartialEq` and `Hash` of `KeyPath`, `Key` and `NamedOrNumbered` (key_path.rs). `Key` unfolds
`NamedOrNumbered` (see `Verif.Model.Path`), so the two field keys write two discriminants.
-/

namespace Mirror

/-- The derived `==` of `Key` (key_path.rs:376-383) and `NamedOrNumbered` (key_path.rs:417-423): same variant and
equal payload; the payload of `Get` is compared with `==` of `Value`. -/
def Key.beq : Key → Key → Bool
  | .named n, .named m => n == m
  | .numbered i, .numbered j => i == j
  | .get a, .get b => Value.beq a b
  | .variant v, .variant w => v == w
  | _, _ => false

/-- The derived `==` of `KeyPath` (key_path.rs:218-223): `==` of the vectors of keys. -/
def KeyPath.beq : KeyPath → KeyPath → Bool
  | [], [] => true
  | k :: p, l :: q => k.beq l && KeyPath.beq p q
  | _, _ => false

/-- The derived `Hash` of `Key` (key_path.rs:376-383) and `NamedOrNumbered` (key_path.rs:417-423): the
discriminants, then the payload. -/
def Key.hashFeed : Key → List HTok
  | .named n => [.disc 0, .disc 0, .str n]
  | .numbered i => [.disc 0, .disc 1, .num i]
  | .get v => .disc 1 :: v.hashFeed
  | .variant v => [.disc 2, .str v]

/-- The derived `Hash` of `KeyPath` (key_path.rs:218-223): the length of the vector, then its keys. -/
def KeyPath.hashFeed (p : KeyPath) : List HTok := .len p.length :: (p.map Key.hashFeed).flatten

end Mirror
