import Verif.Model.Visit
import Verif.Spec.Typing
import Verif.Spec.TypeInfo

/-!
# Specification: the leaves of a value, and running a visitor over leaves
-/

namespace Mirror

/-- The reflected parts of a value of a type, with their types, in declaration order (map entries in
iteration order, the key before the value). -/
inductive Parts (E : Env) : Ty → Obj → List (Ty × Obj) → Prop
  | struct (n fds c fs) : E.decl n = some ⟨.struct fds, c⟩ →
      Parts E (.named n) (.struct (.derived n) fs)
        (((fds.zip fs).filter fun q => !q.1.skip).map fun q => (q.1.ty, q.2.2))
  | tupleStruct (n fds c fs) : E.decl n = some ⟨.tupleStruct fds, c⟩ →
      Parts E (.named n) (.tupleStruct (.derived n) fs)
        (((fds.zip fs).filter fun q => !q.1.skip).map fun q => (q.1.ty, q.2))
  | enumS (n vds c vn fds fs) : E.decl n = some ⟨.enum vds, c⟩ → VariantDef.struct vn fds ∈ vds →
      Parts E (.named n) (.enumS (.derived n) vn fs)
        (((fds.zip fs).filter fun q => !q.1.skip).map fun q => (q.1.ty, q.2.2))
  | enumT (n vds c vn fds fs) : E.decl n = some ⟨.enum vds, c⟩ → VariantDef.tuple vn fds ∈ vds →
      Parts E (.named n) (.enumT (.derived n) vn fs)
        (((fds.zip fs).filter fun q => !q.1.skip).map fun q => (q.1.ty, q.2))
  | enumU (n vds c vn) : E.decl n = some ⟨.enum vds, c⟩ → VariantDef.unit vn ∈ vds →
      Parts E (.named n) (.enumU (.derived n) vn) []
  | tuple (ts fs) : Parts E (.tuple ts) (.tuple (.typed ts) fs) (ts.zip fs)
  | vec (t xs) : Parts E (.vec t) (.vec t xs) (xs.map fun x => (t, x))
  | array (t xs) : Parts E (.array t xs.length) (.array t xs) (xs.map fun x => (t, x))
  | map (k v kvs) : Parts E (.map k v) (.map k v kvs) (kvs.flatMap fun p => [(k, p.1), (v, p.2)])

/-- Types whose type information is opaque: `NonZero` integers and the dynamic types. -/
def Ty.IsOpaque : Ty → Prop
  | .nonzero _ | .value | .structValue | .tupleStructValue | .tupleValue | .enumValue => True
  | _ => False

/-- The leaves of a value: its scalars and its opaque parts with their types, each once, in order. -/
inductive Leaves (E : Env) : Ty → Obj → List Leaf → Prop
  | scalar (s : Scalar) : Leaves E (.scalar s.kind) (.scalar s) [.scalar s]
  | opaque (t o) : t.IsOpaque → Leaves E t o [.opaque o t]
  | box (t o l) : Leaves E t o l → Leaves E (.box t) o l
  | parts (t o ps) (ls : List (List Leaf)) : Parts E t o ps → ls.length = ps.length →
      (∀ (i : Nat) p l, ps[i]? = some p → ls[i]? = some l → Leaves E p.1 p.2 l) →
      Leaves E t o ls.flatten

/-- Calling the visitor on each leaf in order, up to the first error. -/
def runVisit {σ ε : Type} (v : Visitor σ ε) : List Leaf → σ → Visited σ ε
  | [], s => .ok s
  | a :: r, s =>
    match v a s with
    | (none, s') => runVisit v r s'
    | (some e, s') => .err e s'

/-- The visitor accepts each of these leaves, one after the other, ending in state `s'`. -/
inductive Accepts {σ ε : Type} (v : Visitor σ ε) : List Leaf → σ → σ → Prop
  | nil (s) : Accepts v [] s s
  | cons (a r s s₁ s') : v a s = (none, s₁) → Accepts v r s₁ s' → Accepts v (a :: r) s s'

end Mirror
