import Verif.Spec.Typing
import Verif.Model.Reflect

/-!
# Specification: the visible parts of an object
-/

namespace Mirror

/-- Positional fields that are not skipped. -/
def visPos (fs : List Obj) : List Obj := fs.filter fun x => !x.isHidden

/-- The parts of an object that its accessors can reach: its fields that are not skipped, its
elements, its keys and values. -/
def Obj.parts : Obj → List Obj
  | .struct _ fs => (visFields fs).map (·.2)
  | .enumS _ _ fs => (visFields fs).map (·.2)
  | .tupleStruct _ fs => visPos fs
  | .tuple _ fs => visPos fs
  | .enumT _ _ fs => visPos fs
  | .vec _ xs => xs
  | .array _ xs => xs
  | .map _ _ kvs => kvs.map (·.1) ++ kvs.map (·.2)
  | _ => []

/-- `P` holds of `o` and of everything that can be reached inside it. -/
inductive Obj.Everywhere (P : Obj → Prop) : Obj → Prop
  | mk (o : Obj) : P o → (∀ x ∈ o.parts, Everywhere P x) → Everywhere P o

/-- No skipped field stands before one that is not skipped. -/
def HiddenLast (fs : List Obj) : Prop :=
  ∀ (i j : Nat) x y, fs[i]? = some x → fs[j]? = some y → x.isHidden = true → y.isHidden = false →
    j < i

/-- No tuple struct or tuple variant anywhere has a skipped field before one that is not skipped. -/
def Obj.NoGaps : Obj → Prop :=
  Obj.Everywhere fun o => (∀ tag fs, o = .tupleStruct tag fs → HiddenLast fs) ∧
    (∀ tag v fs, o = .enumT tag v fs → HiddenLast fs)

/-- No skipped field stands before a field that is not skipped, in this value of a tuple struct or derived
enum. -/
def Obj.GapFree : Obj → Prop
  | .tupleStruct _ fs | .tuple _ fs | .enumT _ _ fs =>
    ∀ i j : Nat, i < j → ∀ x, fs[j]? = some x → x.isHidden = false →
      ∃ y, fs[i]? = some y ∧ y.isHidden = false
  | .enumS (.derived _) _ fs =>
    ∀ i j : Nat, i < j → ∀ p, fs[j]? = some p → p.2.isHidden = false →
      ∃ q, fs[i]? = some q ∧ q.2.isHidden = false
  | _ => True

/-- What the enums inside `o` hold has no gaps: no tuple struct or tuple variant inside a field of an enum has a
skipped field before one that is not skipped. Elsewhere there may be gaps. -/
def Obj.EnumsGapFree : Obj → Prop :=
  Obj.Everywhere fun o => o.kind = .enum → ∀ x ∈ o.parts, x.NoGaps

/-- No NaN anywhere. -/
def Obj.NoNaN : Obj → Prop :=
  Obj.Everywhere fun o => ∀ s, o.asScalar = some s → s.isNaN = false

/-- No `StructValue` or struct-like `EnumValue` anywhere lists the same name twice. -/
def Obj.NamesNodup : Obj → Prop :=
  Obj.Everywhere fun o => (∀ ns fs, o = .struct (.dyn ns) fs → ns.Nodup) ∧
    (∀ ns v fs, o = .enumS (.dyn ns) v fs → ns.Nodup)

/-- All maps anywhere inside have key types in `K`. -/
def Obj.KeyTypes (K : Ty → Prop) : Obj → Prop :=
  Obj.Everywhere fun o => ∀ kt vt kvs, o = .map kt vt kvs → K kt

/-- No key of a map anywhere inside contains a fixed-size array. -/
def Obj.KeysArrayFree : Obj → Prop :=
  Obj.Everywhere fun o => ∀ kt vt kvs, o = .map kt vt kvs → ∀ p ∈ kvs, p.1.ArrayFree

/-- In tuple structs and enum variants of any kind, skipped fields come after all reflected ones. -/
def SkipsLastAll (E : Env) : Prop :=
  SkipsLast E ∧
  ∀ n vds c vn fds, E.decl n = some ⟨.enum vds, c⟩ → VariantDef.struct vn fds ∈ vds →
    ∀ (i j : Nat) fd fd', fds[i]? = some fd → fds[j]? = some fd' → fd.skip = true → fd'.skip = false →
      j < i

/-- Among maps with key types in `K`, looking up a key finds exactly the entry whose key has the same
`Value`. -/
def KeysByValue (E : Env) (K : Ty → Prop) : Prop :=
  ∀ t u k o, K t → K u → HasTy E t k → HasTy E u o →
    ((∃ k', fromReflect E t o = some k' ∧ E.kcmp t k' k = .eq) ↔
      Value.cmp o.toValue k.toValue = .eq)

/-- `x` and `y`, of the same type, agree everywhere except in skipped fields: scalars are `==`,
structs, tuples, enums, lists and arrays agree field by field, `StructValue`s as sets of named fields,
and maps have equal keys (for the keys' `Ord`) with agreeing values. -/
inductive Agree (E : Env) : Obj → Obj → Prop
  | scalar (s s') : s.eqv s' = true → Agree E (.scalar s) (.scalar s')
  | nonzero (k n) : Agree E (.nonzero k n) (.nonzero k n)
  | hidden (d d') : Agree E (.hidden d) (.hidden d')
  | struct (n fs gs) : fs.map (·.1) = gs.map (·.1) →
      (∀ (i : Nat) p q, fs[i]? = some p → gs[i]? = some q → Agree E p.2 q.2) →
      Agree E (.struct (.derived n) fs) (.struct (.derived n) gs)
  | structDyn (ns ms fs gs) : ns.Perm ms →
      (∀ n x y, lookup n fs = some x → lookup n gs = some y → Agree E x y) →
      Agree E (.struct (.dyn ns) fs) (.struct (.dyn ms) gs)
  | tupleStruct (t fs gs) : fs.length = gs.length →
      (∀ (i : Nat) p q, fs[i]? = some p → gs[i]? = some q → Agree E p q) →
      Agree E (.tupleStruct t fs) (.tupleStruct t gs)
  | tuple (t fs gs) : fs.length = gs.length →
      (∀ (i : Nat) p q, fs[i]? = some p → gs[i]? = some q → Agree E p q) →
      Agree E (.tuple t fs) (.tuple t gs)
  | enumS (n v fs gs) : fs.map (·.1) = gs.map (·.1) →
      (∀ (i : Nat) p q, fs[i]? = some p → gs[i]? = some q → Agree E p.2 q.2) →
      Agree E (.enumS (.derived n) v fs) (.enumS (.derived n) v gs)
  | enumSDyn (v ns ms fs gs) : ns.Perm ms →
      (∀ n x y, lookup n fs = some x → lookup n gs = some y → Agree E x y) →
      Agree E (.enumS (.dyn ns) v fs) (.enumS (.dyn ms) v gs)
  | enumT (t v fs gs) : fs.length = gs.length →
      (∀ (i : Nat) p q, fs[i]? = some p → gs[i]? = some q → Agree E p q) →
      Agree E (.enumT t v fs) (.enumT t v gs)
  | enumU (t v) : Agree E (.enumU t v) (.enumU t v)
  | vec (t fs gs) : fs.length = gs.length →
      (∀ (i : Nat) p q, fs[i]? = some p → gs[i]? = some q → Agree E p q) →
      Agree E (.vec t fs) (.vec t gs)
  | array (t fs gs) : fs.length = gs.length →
      (∀ (i : Nat) p q, fs[i]? = some p → gs[i]? = some q → Agree E p q) →
      Agree E (.array t fs) (.array t gs)
  | map (kt vt fs gs) : fs.length = gs.length →
      (∀ (i : Nat) p q, fs[i]? = some p → gs[i]? = some q → E.kcmp kt p.1 q.1 = .eq) →
      (∀ (i : Nat) p q, fs[i]? = some p → gs[i]? = some q → Agree E p.2 q.2) →
      Agree E (.map kt vt fs) (.map kt vt gs)

end Mirror
