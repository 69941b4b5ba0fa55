import Verif.Spec.Typing

/-!
# Specification: the values that convert to their own type
-/

namespace Mirror

/-- Converting `x` to its type `T` meets no fixed-size array.

A field of a derived type (without `opt_out(Clone)`) that has exactly the declared type is cloned as
a whole, so arrays inside of it are not met. -/
inductive NoArrayMet (E : Env) : Ty → Obj → Prop
  | scalar (s) : NoArrayMet E (.scalar s.kind) (.scalar s)
  | nonzero (k n) : NoArrayMet E (.nonzero k) (.nonzero k n)
  | struct (n fds c fs) : E.decl n = some ⟨.struct fds, c⟩ →
      (∀ (i : Nat) fd p, fds[i]? = some fd → fs[i]? = some p → fd.skip = false →
        ¬ (c = false ∧ p.2.typeOf = some fd.ty) → NoArrayMet E fd.ty p.2) →
      NoArrayMet E (.named n) (.struct (.derived n) fs)
  | tupleStruct (n fds c fs) : E.decl n = some ⟨.tupleStruct fds, c⟩ →
      (∀ (i : Nat) fd x, fds[i]? = some fd → fs[i]? = some x → fd.skip = false →
        ¬ (c = false ∧ x.typeOf = some fd.ty) → NoArrayMet E fd.ty x) →
      NoArrayMet E (.named n) (.tupleStruct (.derived n) fs)
  | enumS (n vds c vn fds fs) : E.decl n = some ⟨.enum vds, c⟩ → .struct vn fds ∈ vds →
      (∀ (i : Nat) fd p, fds[i]? = some fd → fs[i]? = some p → fd.skip = false →
        ¬ (c = false ∧ p.2.typeOf = some fd.ty) → NoArrayMet E fd.ty p.2) →
      NoArrayMet E (.named n) (.enumS (.derived n) vn fs)
  | enumT (n vds c vn fds fs) : E.decl n = some ⟨.enum vds, c⟩ → .tuple vn fds ∈ vds →
      (∀ (i : Nat) fd x, fds[i]? = some fd → fs[i]? = some x → fd.skip = false →
        ¬ (c = false ∧ x.typeOf = some fd.ty) → NoArrayMet E fd.ty x) →
      NoArrayMet E (.named n) (.enumT (.derived n) vn fs)
  | enumU (n vn) : NoArrayMet E (.named n) (.enumU (.derived n) vn)
  | tuple (ts fs) : (∀ (i : Nat) t x, ts[i]? = some t → fs[i]? = some x → NoArrayMet E t x) →
      NoArrayMet E (.tuple ts) (.tuple (.typed ts) fs)
  | vec (t xs) : (∀ x ∈ xs, NoArrayMet E t x) → NoArrayMet E (.vec t) (.vec t xs)
  | map (kt vt kvs) : (∀ p ∈ kvs, NoArrayMet E kt p.1) → (∀ p ∈ kvs, NoArrayMet E vt p.2) →
      NoArrayMet E (.map kt vt) (.map kt vt kvs)
  | box (t o) : NoArrayMet E t o → NoArrayMet E (.box t) o
  | value (o) : NoArrayMet E .value o
  | structValue (o) : NoArrayMet E .structValue o
  | tupleStructValue (o) : NoArrayMet E .tupleStructValue o
  | tupleValue (o) : NoArrayMet E .tupleValue o
  | enumValue (o) : NoArrayMet E .enumValue o

end Mirror
