import Verif.Model.Path

/-!
# Specification: values that differ only where `#[reflect(skip)]` hides it
-/

namespace Mirror

/-- `x.SeenAs y`: the two differ at most in what their skipped fields hold, at any depth. -/
inductive Obj.SeenAs : Obj → Obj → Prop
  | hidden (a b) : SeenAs (.hidden a) (.hidden b)
  | scalar (s) : SeenAs (.scalar s) (.scalar s)
  | nonzero (k n) : SeenAs (.nonzero k n) (.nonzero k n)
  | enumU (tag v) : SeenAs (.enumU tag v) (.enumU tag v)
  | struct (tag fs gs) : fs.map (·.1) = gs.map (·.1) →
      (∀ (i : Nat) p q, fs[i]? = some p → gs[i]? = some q → SeenAs p.2 q.2) →
      SeenAs (.struct tag fs) (.struct tag gs)
  | enumS (tag v fs gs) : fs.map (·.1) = gs.map (·.1) →
      (∀ (i : Nat) p q, fs[i]? = some p → gs[i]? = some q → SeenAs p.2 q.2) →
      SeenAs (.enumS tag v fs) (.enumS tag v gs)
  | tupleStruct (tag fs gs) : fs.length = gs.length →
      (∀ (i : Nat) x y, fs[i]? = some x → gs[i]? = some y → SeenAs x y) →
      SeenAs (.tupleStruct tag fs) (.tupleStruct tag gs)
  | tuple (tag fs gs) : fs.length = gs.length →
      (∀ (i : Nat) x y, fs[i]? = some x → gs[i]? = some y → SeenAs x y) →
      SeenAs (.tuple tag fs) (.tuple tag gs)
  | enumT (tag v fs gs) : fs.length = gs.length →
      (∀ (i : Nat) x y, fs[i]? = some x → gs[i]? = some y → SeenAs x y) →
      SeenAs (.enumT tag v fs) (.enumT tag v gs)
  | vec (t xs ys) : xs.length = ys.length →
      (∀ (i : Nat) x y, xs[i]? = some x → ys[i]? = some y → SeenAs x y) →
      SeenAs (.vec t xs) (.vec t ys)
  | array (t xs ys) : xs.length = ys.length →
      (∀ (i : Nat) x y, xs[i]? = some x → ys[i]? = some y → SeenAs x y) →
      SeenAs (.array t xs) (.array t ys)
  | map (kt vt kvs lws) : kvs.length = lws.length →
      (∀ (i : Nat) p q, kvs[i]? = some p → lws[i]? = some q → SeenAs p.1 q.1) →
      (∀ (i : Nat) p q, kvs[i]? = some p → lws[i]? = some q → SeenAs p.2 q.2) →
      SeenAs (.map kt vt kvs) (.map kt vt lws)

/-- Two calls that return an optional value return it both or neither, and then values that differ at most in
their skipped fields. -/
inductive SeenAlike : Option Obj → Option Obj → Prop
  | none : SeenAlike none none
  | some (x y) : x.SeenAs y → SeenAlike (some x) (some y)

end Mirror
