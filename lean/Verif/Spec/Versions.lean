import Verif.Spec.Convert
import Verif.Spec.StandIn
import Verif.Spec.TypeInfo

/-!
# Specification: which versions of a type can read which

A writer (declarations `E`) and a reader (declarations `E'`) exchange `to_value`s. `Readable E E' t t'` says, from the
two sets of declarations only and without mentioning any value or conversion, that the reader's type `t'` takes
everything the writer's type `t` produces.
-/

namespace Mirror

/-- The declared fields that are not skipped. -/
def declShown (fds : List FieldDef) : List FieldDef := fds.filter fun fd => !fd.skip

/-- Every field the reader shows is one the writer shows under the same name, with a type it can read (`R`). The
writer may have more fields, in any order. -/
def NamedReads (R : Ty → Ty → Prop) (fds fds' : List FieldDef) : Prop :=
  ∀ fd' ∈ declShown fds', ∃ fd ∈ declShown fds, fd.name = fd'.name ∧ R fd.ty fd'.ty

/-- For every field the reader shows, at declared position `i`, the `i`-th field that the writer shows has a type it
can read. Skipped fields count in the reader's positions and do not count in the writer's. -/
def PosReads (R : Ty → Ty → Prop) (fds fds' : List FieldDef) : Prop :=
  ∀ (i : Nat) fd', fds'[i]? = some fd' → fd'.skip = false →
    ∃ fd, (declShown fds)[i]? = some fd ∧ R fd.ty fd'.ty

/-- The fields of a variant that have names. -/
def VariantDef.named : VariantDef → List FieldDef
  | .struct _ fds => fds
  | _ => []

/-- The fields of a variant. -/
def VariantDef.fields : VariantDef → List FieldDef
  | .struct _ fds => fds
  | .tuple _ fds => fds
  | .unit _ => []

/-- The reader's variant takes the writer's. It has the same name; a reader's struct variant takes fields by name, a
tuple variant takes them by position, whatever kind of variant the writer has, and a unit variant takes nothing. -/
def VariantReads (R : Ty → Ty → Prop) (vd vd' : VariantDef) : Prop :=
  vd.name = vd'.name ∧
  match vd' with
  | .struct _ fds' => NamedReads R vd.named fds'
  | .tuple _ fds' => PosReads R vd.fields fds'
  | .unit _ => True

/-- A struct type, and the fields all its values have. -/
inductive StructTy (E : Env) : Ty → List FieldDef → Prop
  | derived (n fds c) : E.decl n = some ⟨.struct fds, c⟩ → StructTy E (.named n) fds
  | dyn : StructTy E .structValue []

/-- A tuple struct type, and the fields all its values have. -/
inductive TupleStructTy (E : Env) : Ty → List FieldDef → Prop
  | derived (n fds c) : E.decl n = some ⟨.tupleStruct fds, c⟩ → TupleStructTy E (.named n) fds
  | dyn : TupleStructTy E .tupleStructValue []

/-- A tuple type, and the fields all its values have. -/
inductive TupleTy : Ty → List Ty → Prop
  | typed (ts) : TupleTy (.tuple ts) ts
  | dyn : TupleTy .tupleValue []

/-- An enum type. -/
inductive EnumTy (E : Env) : Ty → Prop
  | derived (n vds c) : E.decl n = some ⟨.enum vds, c⟩ → EnumTy E (.named n)
  | dyn : EnumTy E .enumValue

/-- The reader's type `b` takes what the writer's type `a` produces, where `R` says this of their parts. -/
inductive ReadStep (E E' : Env) (R : Ty → Ty → Prop) : Ty → Ty → Prop
  | scalar (k) : ReadStep E E' R (.scalar k) (.scalar k)
  | nonzero (k) : ReadStep E E' R (.nonzero k) (.nonzero k)
  | nonzeroInt (k) : ReadStep E E' R (.nonzero k) (.scalar (.int k))
  | struct (a n fds fds' c) : StructTy E a fds → E'.decl n = some ⟨.struct fds', c⟩ → NamedReads R fds fds' →
      ReadStep E E' R a (.named n)
  | tupleStruct (a n fds fds' c) : TupleStructTy E a fds → E'.decl n = some ⟨.tupleStruct fds', c⟩ →
      PosReads R fds fds' → ReadStep E E' R a (.named n)
  | enum (m n vds vds' c c') : E.decl m = some ⟨.enum vds, c⟩ → E'.decl n = some ⟨.enum vds', c'⟩ →
      (∀ vd ∈ vds, ∃ vd' ∈ vds', VariantReads R vd vd') → ReadStep E E' R (.named m) (.named n)
  | tuple (a ts ts') : TupleTy a ts → (∀ (i : Nat) t', ts'[i]? = some t' → ∃ t, ts[i]? = some t ∧ R t t') →
      ReadStep E E' R a (.tuple ts')
  | vec (t t') : R t t' → ReadStep E E' R (.vec t) (.vec t')
  | arrayVec (t t' n) : n = 0 ∨ R t t' → ReadStep E E' R (.array t n) (.vec t')
  | array (t t' n) : n = 0 ∨ R t t' → ReadStep E E' R (.array t n) (.array t' n)
  | map (k v k' v') : R k k' → R v v' → ReadStep E E' R (.map k v) (.map k' v')
  | unbox (t b) : R t b → ReadStep E E' R (.box t) b
  | box (a t) : R a t → ReadStep E E' R a (.box t)
  | value (a) : ReadStep E E' R a .value
  | structValue (a fds) : StructTy E a fds → ReadStep E E' R a .structValue
  | tupleStructValue (a fds) : TupleStructTy E a fds → ReadStep E E' R a .tupleStructValue
  | tupleValue (a ts) : TupleTy a ts → ReadStep E E' R a .tupleValue
  | enumValue (a) : EnumTy E a → ReadStep E E' R a .enumValue

/-- The reader's type `t'` takes what the writer's type `t` produces: there is a relation between types that contains
the two and, whenever it contains two types, one of the rules applies to them. (Types may be recursive.) -/
def Readable (E E' : Env) (t t' : Ty) : Prop :=
  ∃ R : Ty → Ty → Prop, R t t' ∧ ∀ a b, R a b → ReadStep E E' R a b

/-- The reader's declaration takes what the writer's produces, the types of corresponding fields being called the
same on both sides. -/
inductive DeclReads : Shape → Shape → Prop
  | struct (fds fds') : NamedReads (· = ·) fds fds' → DeclReads (.struct fds) (.struct fds')
  | tupleStruct (fds fds') : PosReads (· = ·) fds fds' → DeclReads (.tupleStruct fds) (.tupleStruct fds')
  | enum (vds vds') : (∀ vd ∈ vds, ∃ vd' ∈ vds', VariantReads (· = ·) vd vd') → DeclReads (.enum vds) (.enum vds')

end Mirror
