import Verif.Spec.Edit
import Verif.Spec.Convert
import Verif.Spec.Parts
import Verif.Spec.PatchSelf

/-!
# Specification: working on the `to_value` of a value instead of the value

An editor that is not compiled with the type takes `x.to_value()`, works on that and sends it back. Here: what the
copy looks like, and which edits mean the same for the copy as for the value itself.
-/

namespace Mirror

/-- `x.to_value()`, seen through `&dyn Reflect`. -/
def Obj.copied (x : Obj) : Obj := x.toValue.toObj

/-- Two keys are equal for the `Ord` of their type if and only if they are equal as `Value`s. -/
def KeysFaithful (E : Env) : Prop :=
  ∀ t a b, HasTy E t a → HasTy E t b → (E.kcmp t a b = .eq ↔ Value.cmp a.toValue b.toValue = .eq)

/-- If `k` converts to the type `t`, the conversion loses nothing: it leads to an equal `Value`. Extra fields,
for instance, are lost in a conversion. And `k` converts if its `to_value` does. -/
def ReadsBack (E : Env) (t : Ty) (k : Obj) : Prop :=
  (∀ y, ConvertsTo E t k y → Value.cmp y.toValue k.toValue = .eq) ∧
  ((∃ y, ConvertsTo E t k.copied y) → ∃ y, ConvertsTo E t k y)

/-- `v` converts to the type `t`, and nothing is lost. -/
def Taken (E : Env) (t : Ty) (v : Obj) : Prop :=
  ∃ y, ConvertsTo E t v y ∧ y.toValue = v.toValue ∧ y.NoGaps

/-- Where the path looks up a key in a map, the key is one that the map can read without loss. -/
inductive PathFits (E : Env) : Obj → KeyPath → Prop
  | nil (x) : PathFits E x []
  | cons (x k p) : (∀ v kt vt kvs, k = .get v → x = .map kt vt kvs → ReadsBack E kt v.toObj) →
      (∀ y, x.atKey E k = some y → PathFits E y p) → PathFits E x (k :: p)

/-- The patch `v` does the same to `x` as to its copy. It holds nothing for an array (the copy of which is a list);
for a `NonZero` integer (the copy of which is an integer) no zero and no `NonZero` integer. An enum of a derived type
is replaced by a patch that converts and changed field by field by one of its variant that does not; its copy is
replaced by another variant and changed field by field by its own. So for such an enum `v` is not an enum (`notEnum`),
or a `Value` that converts without loss, of another variant (`otherVariant`) or leaving nothing of the old fields
(`replaced`), or of the same variant and does not convert (`mergedS`, `mergedT`). Map keys are read without loss. -/
inductive PatchesAlike (E : Env) : Obj → Obj → Prop
  | scalar (s v) : PatchesAlike E (.scalar s) v
  | nonzero (k n v) : v ≠ .scalar (.int k 0) → (∀ m, v ≠ .nonzero k m) → PatchesAlike E (.nonzero k n) v
  | struct (tag fs v) : (∀ n x w, (Obj.struct tag fs).field n = some x → v.field n = some w → PatchesAlike E x w) →
      PatchesAlike E (.struct tag fs) v
  | tupleStruct (tag fs v) : (∀ i x w, (Obj.tupleStruct tag fs).fieldAt i = some x → v.fieldAt i = some w →
      PatchesAlike E x w) → PatchesAlike E (.tupleStruct tag fs) v
  | tuple (tag fs v) : (∀ i x w, (Obj.tuple tag fs).fieldAt i = some x → v.fieldAt i = some w →
      PatchesAlike E x w) → PatchesAlike E (.tuple tag fs) v
  | list (t xs v) : (∀ i x w, (Obj.vec t xs).fieldAt i = some x → v.fieldAt i = some w →
      PatchesAlike E x w) → PatchesAlike E (.vec t xs) v
  | array (t xs v) : v.kind ≠ .array → v.kind ≠ .list → PatchesAlike E (.array t xs) v
  | map (kt vt kvs u w new) : (∀ q ∈ new, ReadsBack E kt q.1) →
      (∀ p ∈ kvs, ∀ q ∈ new, ∀ k, ConvertsTo E kt q.1 k → E.kcmp kt k p.1 = .eq → PatchesAlike E p.2 q.2) →
      PatchesAlike E (.map kt vt kvs) (.map u w new)
  | notMap (kt vt kvs v) : v.kind ≠ .map → PatchesAlike E (.map kt vt kvs) v
  | notEnum (x v) : x.kind = .enum → v.kind ≠ .enum → PatchesAlike E x v
  | otherVariant (n x v) : x.kind = .enum → x.typeOf = some (.named n) → v.kind = .enum →
      v.variantName ≠ x.variantName → HasTy E .value v → Taken E (.named n) v → PatchesAlike E x v
  | replaced (n x v) : x.kind = .enum → x.typeOf = some (.named n) → v.kind = .enum →
      v.variantName = x.variantName → HasTy E .value v → Taken E (.named n) v → ValueFills x.copied v →
      PatchesAlike E x v
  | mergedS (n vn fs v) : v.kind = .enum → v.variantName = some vn → v.typeOf ≠ some (.named n) →
      (∀ y, ¬ ConvertsTo E (.named n) v y) →
      (∀ m x w, (Obj.enumS (.derived n) vn fs).field m = some x → v.field m = some w → PatchesAlike E x w) →
      PatchesAlike E (.enumS (.derived n) vn fs) v
  | mergedT (n vn fs v) : v.kind = .enum → v.variantName = some vn → v.typeOf ≠ some (.named n) →
      (∀ y, ¬ ConvertsTo E (.named n) v y) →
      (∀ i x w, (Obj.enumT (.derived n) vn fs).fieldAt i = some x → v.fieldAt i = some w → PatchesAlike E x w) →
      PatchesAlike E (.enumT (.derived n) vn fs) v
  | dynamic (x v) : HasTy E .value x → PatchesAlike E x v

/-- The act means the same for `x` as for its copy. -/
inductive Act.Fits (E : Env) : Obj → Act → Prop
  | patch (x v) : PatchesAlike E x v → Act.Fits E x (.patch v)
  | assign (x y) : x.typeOf = y.typeOf → y.NoGaps → Act.Fits E x (.assign y)
  | push (x v) : x.kind ≠ .array → (∀ t xs, x = .vec t xs → Taken E t v) → Act.Fits E x (.list (.push v))
  | pop (x) : x.kind ≠ .array → Act.Fits E x (.list .pop)
  | tryRemove (x i) : x.kind ≠ .array → Act.Fits E x (.list (.tryRemove i))
  | insert (x k v) : (∀ kt vt kvs, x = .map kt vt kvs → Taken E kt k ∧ Taken E vt v) →
      Act.Fits E x (.map (.insert k v))
  | remove (x k) : (∀ kt vt kvs, x = .map kt vt kvs → ReadsBack E kt k) → Act.Fits E x (.map (.remove k))

/-- The same act for the copy: what is assigned is a `Value` as well. -/
def Act.forCopy : Act → Act
  | .assign y => .assign y.copied
  | a => a

/-- The same edit for the copy. -/
def Edit.forCopy (e : Edit) : Edit := ⟨e.path, e.act.forCopy⟩

/-- The edit means the same for `x` as for its copy. -/
def Edit.Fits (E : Env) (x : Obj) (e : Edit) : Prop :=
  PathFits E x e.path ∧ ∀ y, atPath E x e.path = some y → e.act.Fits E y

/-- Every edit of the history does, when its turn comes. -/
def EditsFit (E : Env) (x : Obj) : List Edit → Prop
  | [] => True
  | e :: es => e.Fits E x ∧ EditsFit E (e.run E x).2 es

end Mirror
