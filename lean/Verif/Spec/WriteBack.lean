import Verif.Spec.Versions

/-!
# Specification: values that only repeat what another value holds

A program with other (older, smaller) versions of the types reads a value, and sends back the `to_value` of what it
has read. `Echo x v` says that `v` does not disagree with `x` anywhere: it may say less than `x` about structs, tuples
and the fields of enum variants, it has the variants of `x`, and its lists and maps have the lengths and the keys of
those in `x`.
-/

namespace Mirror

/-- `v` only repeats what `x` holds. Named fields are compared by name and positional fields by position, where both
have one. -/
inductive Echo : Obj → Obj → Prop
  | same (x) : Echo x x.copied
  | struct (n fs v) : v.kind = .struct →
      (∀ m y w, (Obj.struct (.derived n) fs).field m = some y → v.field m = some w → Echo y w) →
      Echo (.struct (.derived n) fs) v
  | tupleStruct (n fs v) : v.kind = .tupleStruct →
      (∀ i y w, (Obj.tupleStruct (.derived n) fs).fieldAt i = some y → v.fieldAt i = some w → Echo y w) →
      Echo (.tupleStruct (.derived n) fs) v
  | tuple (ts fs v) : v.kind = .tuple →
      (∀ i y w, (Obj.tuple (.typed ts) fs).fieldAt i = some y → v.fieldAt i = some w → Echo y w) →
      Echo (.tuple (.typed ts) fs) v
  | enumS (n vn fs v) : v.variantName = some vn →
      (∀ m y w, (Obj.enumS (.derived n) vn fs).field m = some y → v.field m = some w → Echo y w) →
      Echo (.enumS (.derived n) vn fs) v
  | enumT (n vn fs v) : v.variantName = some vn →
      (∀ i y w, (Obj.enumT (.derived n) vn fs).fieldAt i = some y → v.fieldAt i = some w → Echo y w) →
      Echo (.enumT (.derived n) vn fs) v
  | enumU (n vn v) : v.variantName = some vn → Echo (.enumU (.derived n) vn) v
  | vec (t xs u ws) : xs.length = ws.length →
      (∀ (i : Nat) y w, xs[i]? = some y → ws[i]? = some w → Echo y w) → Echo (.vec t xs) (.vec u ws)
  | array (t xs u ws) : xs.length = ws.length →
      (∀ (i : Nat) y w, xs[i]? = some y → ws[i]? = some w → Echo y w) → Echo (.array t xs) (.vec u ws)
  | map (k t kvs u w new) : (∀ p ∈ kvs, ∃ q ∈ new, q.1 = p.1.copied) → (∀ q ∈ new, ∃ p ∈ kvs, q.1 = p.1.copied) →
      (∀ p q, p ∈ kvs → q ∈ new → q.1 = p.1.copied → Echo p.2 q.2) → Echo (.map k t kvs) (.map u w new)

/-- Reading with the type `b` what the type `a` has written loses nothing of the keys of maps, and does not take a
dynamic struct, tuple struct or tuple for a derived one. -/
def Lossless (E E' : Env) : Ty → Ty → Prop
  | .map k _, .map k' _ => ∀ x y, HasTy E k x → ConvertsTo E' k' x.copied y → y.copied = x.copied
  | .structValue, .named _ => False
  | .tupleStructValue, .named _ => False
  | .tupleValue, .tuple _ => False
  | _, _ => True

/-- `t'` is a view of `t`: it can read what `t` writes, losing at most fields. -/
def ViewOf (E E' : Env) (t t' : Ty) : Prop :=
  ∃ R : Ty → Ty → Prop, R t t' ∧ ∀ a b, R a b → ReadStep E E' R a b ∧ Lossless E E' a b

end Mirror
