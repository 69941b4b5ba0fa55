import Verif.Spec.VisitPath

/-!
# Specification: the leaves of a visit as places to write to
-/

namespace Mirror

/-- Keys of maps found at paths are what some key of a path is read as. -/
def KeysRead (E : Env) (x : Obj) : Prop :=
  ∀ p kt vt kvs, atPath E x p = some (.map kt vt kvs) → ∀ e ∈ kvs, ∃ w : Value, fromReflect E kt w.toObj = some e.1

/-- The leaf belongs to the key of an entry of a map found at some path. -/
def InMapKey (E : Env) (d : TypeDescriptor) (x : Obj) (a : Leaf) : Prop :=
  ∃ p id kt vt y k v l, d.typeAt p = some (some (.ty id (.map kt vt))) ∧ atPath E x p = some y ∧
    (k, v) ∈ y.mapIter ∧ VisitsAll ⟨kt, d.graph⟩ k l ∧ a ∈ l

/-- Writing at the path puts another leaf in the place of this one, and leaves all others, before (`la`) and after
(`lb`) it, as they are. -/
def EditsOne (E : Env) (d : TypeDescriptor) (x : Obj) (p : KeyPath) (la : List Leaf) (a : Leaf) (lb : List Leaf) : Prop :=
  LeafAt E d x p a ∧ ∃ pl, atMutPath E x p = some pl ∧
    (∀ s, a = .scalar s → pl.get.asScalar = some s ∧
      ∀ s', VisitsAll d (pl.put (.scalar s')) (la ++ .scalar s' :: lb)) ∧
    (∀ y t, a = .opaque y t → pl.get = y ∧ HasTy E t y ∧
      ∀ y', HasTy E t y' → VisitsAll d (pl.put y') (la ++ .opaque y' t :: lb))

end Mirror
