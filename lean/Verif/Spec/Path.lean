import Verif.Model.Path
import Verif.Spec.Typing

/-!
# Specification: when two paths diverge
-/

namespace Mirror

/-- What distinguishes the non-variant keys: a name, a number, or an index/map key. -/
def Key.sort : Key → Nat
  | .named _ => 0
  | .numbered _ => 1
  | .get _ => 2
  | .variant _ => 3

/-- The keys `k` and `k'` select different parts of `o`: different names, different positions, indices
that are different numbers, map keys that are different for the map's order, or keys of different
sorts (of which at most one selects anything). -/
inductive Apart (E : Env) : Obj → Key → Key → Prop
  | named (o n m) : n ≠ m → Apart E o (.named n) (.named m)
  | numbered (o i j) : i ≠ j → Apart E o (.numbered i) (.numbered j)
  | index (o v w) : o.kind = .list ∨ o.kind = .array → valueToUsize v ≠ valueToUsize w →
      Apart E o (.get v) (.get w)
  | entry (kt vt kvs v w) :
      (∀ a b, fromReflect E kt v.toObj = some a → fromReflect E kt w.toObj = some b →
        E.kcmp kt a b ≠ .eq) →
      Apart E (.map kt vt kvs) (.get v) (.get w)
  | sort (o k k') : k.sort ≠ k'.sort → k.sort ≠ 3 → k'.sort ≠ 3 → Apart E o k k'

/-- The keys select the same part of `o`: they are the same key, or spell the same index or map key
with different integer types. -/
inductive Same (E : Env) : Obj → Key → Key → Prop
  | refl (o k) : k.sort ≠ 3 → Same E o k k
  | index (o v w) : o.kind = .list ∨ o.kind = .array → valueToUsize v = valueToUsize w →
      Same E o (.get v) (.get w)
  | entry (kt vt kvs v w a b) : fromReflect E kt v.toObj = some a → fromReflect E kt w.toObj = some b →
        E.kcmp kt a b = .eq →
      Same E (.map kt vt kvs) (.get v) (.get w)

/-- The paths `p` and `q` go through the same parts of `o` up to some point where they select
different parts. Variant keys select nothing: `::Some.0` and `.0` are the same place in an enum. -/
inductive Diverge (E : Env) : Obj → KeyPath → KeyPath → Prop
  | here (o k k' p q) : Apart E o k k' → Diverge E o (k :: p) (k' :: q)
  | deeper (o k k' x p q) : Same E o k k' → o.atKey E k = some x → Diverge E x p q →
      Diverge E o (k :: p) (k' :: q)
  | left (o v p q) : Diverge E o p q → Diverge E o (.variant v :: p) q
  | right (o v p q) : Diverge E o p q → Diverge E o p (.variant v :: q)

/-- Every key inside `p` is a value safe code can build. -/
def KeyPath.WF (p : KeyPath) : Prop := ∀ v, Key.get v ∈ p → v.WF

/-! ## Histories of path operations -/

/-- The operations that change a `KeyPath`. -/
inductive PathOp
  | field (n : String)
  | fieldAt (i : Nat)
  | get (v : Value)
  | variant (v : String)
  | push (k : Key)
  | pop
  | extend (ks : List Key)

/-- Perform one operation with the functions of the crate. -/
def PathOp.run (p : KeyPath) : PathOp → KeyPath
  | .field n => KeyPath.field p n
  | .fieldAt i => KeyPath.fieldAt p i
  | .get v => KeyPath.getKey p v
  | .variant v => KeyPath.variant p v
  | .push k => KeyPath.push p k
  | .pop => KeyPath.pop p
  | .extend ks => KeyPath.extend p ks

/-- The intended effect: a stack of keys, the most recent on top. -/
def PathOp.stack (st : List Key) : PathOp → List Key
  | .field n => .named n :: st
  | .fieldAt i => .numbered i :: st
  | .get v => .get v :: st
  | .variant v => .variant v :: st
  | .push k => k :: st
  | .pop => match st with | [] => [] | _ :: st => st
  | .extend ks => ks.foldl (fun st k => k :: st) st

/-- The key written by one piece of `key_path!` syntax. -/
def PathTok.key : PathTok → Key
  | .dotIdent n => .named n
  | .dotLit i => .numbered i
  | .bracket v => .get v
  | .colons v => .variant v

/-- A Rust identifier, as far as printing is concerned: neither `.` nor `:` occurs in it, and it does
not start with a digit. -/
def IsIdent (s : String) : Prop :=
  (∀ c ∈ s.toList, c ≠ '.' ∧ c ≠ ':') ∧ (∀ c r, s.toList = c :: r → c.isDigit = false)

/-- A field or variant key whose names are identifiers (`get` keys excluded). -/
def Key.Plain : Key → Prop
  | .named n => IsIdent n
  | .numbered _ => True
  | .get _ => False
  | .variant v => IsIdent v

end Mirror
