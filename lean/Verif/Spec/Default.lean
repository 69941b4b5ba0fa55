import Verif.Model.Default
import Verif.Spec.TypeInfo
import Verif.Spec.Typing

/-!
# Specification: which types have a default, and what it takes to compute it

Nothing here mentions graphs or the functions of the model.
-/

namespace Mirror

/-- The types whose defaults make up the default of a type, in order: the reflected fields of a struct,
tuple struct or tuple, the fields of the first variant of an enum, the elements of an array. `none`: the
type has no default, like `NonZero` integers, dynamic types and enums without variants.

With `all = true` an array counts with its element type once, whatever its length (this is what
`has_default_value` looks at). -/
def Ty.needs (E : Env) (all : Bool) : Ty → Option (List Ty)
  | .scalar _ => some []
  | .vec _ => some []
  | .map _ _ => some []
  | .array t n => some (if all then [t] else List.replicate n t)
  | .tuple ts => some ts
  | .box t => some [t]
  | .named n =>
    match E.decl n with
    | some ⟨.struct fds, _⟩ => some ((fds.filter fun fd => !fd.skip).map (·.ty))
    | some ⟨.tupleStruct fds, _⟩ => some ((fds.filter fun fd => !fd.skip).map (·.ty))
    | some ⟨.enum (.struct _ fds :: _), _⟩ => some ((fds.filter fun fd => !fd.skip).map (·.ty))
    | some ⟨.enum (.tuple _ fds :: _), _⟩ => some ((fds.filter fun fd => !fd.skip).map (·.ty))
    | some ⟨.enum (.unit _ :: _), _⟩ => some []
    | some ⟨.enum [], _⟩ => none
    | none => none
  | _ => none

/-- Everything needed has a default. -/
inductive Defaultable (E : Env) (all : Bool) : Ty → Prop
  | mk (t us) : t.needs E all = some us → (∀ u ∈ us, Defaultable E all u) → Defaultable E all t

/-- Computing the default of `t` asks for the one of `u`: `u` is needed, and everything before it has a
default. -/
def Asks (E : Env) (all : Bool) (u t : Ty) : Prop :=
  ∃ pre post, t.needs E all = some (pre ++ u :: post) ∧ ∀ w ∈ pre, Defaultable E all w

/-- The types whose defaults make up the default of `t`, at any depth, `t` included. -/
inductive Ty.Needs (E : Env) (t : Ty) : Ty → Prop
  | refl : Ty.Needs E t t
  | step (a u us) : Ty.Needs E t a → a.needs E false = some us → u ∈ us → Ty.Needs E t u

/-- A skipped field comes before a reflected one. -/
def SkipGap (fds : List FieldDef) : Prop :=
  ∃ (i j : Nat) (fi fj : FieldDef), fds[i]? = some fi ∧ fds[j]? = some fj ∧ fi.skip = true ∧
    fj.skip = false ∧ i < j

/-- A tuple struct, or an enum whose first variant is a tuple variant, with a skipped field before a
reflected one. -/
def Ty.DefaultGap (E : Env) (t : Ty) : Prop :=
  ∃ n c, t = .named n ∧
    ((∃ fds, E.decl n = some ⟨.tupleStruct fds, c⟩ ∧ SkipGap fds) ∨
      ∃ vn fds vds, E.decl n = some ⟨.enum (.tuple vn fds :: vds), c⟩ ∧ SkipGap fds)

/-- No array of length zero among the component types. -/
def NoEmptyArrays (E : Env) (t : Ty) : Prop := ∀ u, t.Reach E (.array u 0) → False

end Mirror
