/-!
# Specification: what an iterator does when called repeatedly
-/

namespace Mirror

/-- The iterator after `n` calls of `next`. -/
def iterAfter {σ α : Type} (next : σ → Option α × σ) : Nat → σ → σ
  | 0, s => s
  | n + 1, s => iterAfter next n (next s).2

/-- What the call number `n` (counting from 0) of `next` returns. -/
def nthNext {σ α : Type} (next : σ → Option α × σ) (s : σ) (n : Nat) : Option α :=
  (next (iterAfter next n s)).1

/-- Repeated `next` calls yield the elements of `l` in order, then `None` forever. -/
def Yields {σ α : Type} (next : σ → Option α × σ) (s : σ) (l : List α) : Prop :=
  ∀ n, nthNext next s n = l[n]?

end Mirror
