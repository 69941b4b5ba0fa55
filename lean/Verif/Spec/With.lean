import Verif.Spec.Convert
import Verif.Model.With
import Verif.Spec.Parts

/-!
# Specification: what `from_reflect` should build when fields carry `from_reflect_with`

As `Spec/Convert.lean`, with one more rule: a field with a function is what the function makes of the
field that the source shows. That rule comes before the others, except that skipped fields are skipped.
-/

namespace Mirror

/-- How one declared field is made from the value `v` found in the source: by its function if it has
one, and otherwise as a field without a function is. -/
def FieldFromW (f : Option (Obj → Option Obj)) (c : Bool) (conv : Ty → Obj → Obj → Prop) (t : Ty)
    (v y : Obj) : Prop :=
  (∃ g, f = some g ∧ g v = some y) ∨ (f = none ∧ FieldFrom c conv t v y)

/-- The named fields `fs` are what the declaration `fds` with the functions `w` asks for. -/
structure NamedFromW (w : Nat → Option (Obj → Option Obj)) (c : Bool) (conv : Ty → Obj → Obj → Prop)
    (o : Obj) (fds : List FieldDef) (fs : List (String × Obj)) : Prop where
  names : fs.map (·.1) = fds.map (·.name)
  skipped : ∀ (i : Nat) fd p, fds[i]? = some fd → fs[i]? = some p → fd.skip = true → p.2 = .hidden 0
  shown : ∀ (i : Nat) fd p, fds[i]? = some fd → fs[i]? = some p → fd.skip = false →
    ∃ v, o.field fd.name = some v ∧ FieldFromW (w i) c conv fd.ty v p.2

/-- The positional fields `fs` are what the declaration `fds` with the functions `w` asks for. -/
structure PosFromW (w : Nat → Option (Obj → Option Obj)) (c : Bool) (conv : Ty → Obj → Obj → Prop)
    (o : Obj) (fds : List FieldDef) (fs : List Obj) : Prop where
  length : fs.length = fds.length
  skipped : ∀ (i : Nat) fd x, fds[i]? = some fd → fs[i]? = some x → fd.skip = true → x = .hidden 0
  shown : ∀ (i : Nat) fd x, fds[i]? = some fd → fs[i]? = some x → fd.skip = false →
    ∃ v, o.fieldAt i = some v ∧ FieldFromW (w i) c conv fd.ty v x

/-- `y` is what the type `t` should make of `o`, where `conv` is how its parts are converted: derived
types as declared, all other types as without functions. -/
inductive ConvStepW (E : Env) (W : WithFns) (conv : Ty → Obj → Obj → Prop) : Ty → Obj → Obj → Prop
  | struct (n fds c o fs) : E.decl n = some ⟨.struct fds, c⟩ → o.kind = .struct →
      NamedFromW (W n none) c conv o fds fs →
      ConvStepW E W conv (.named n) o (.struct (.derived n) fs)
  | tupleStruct (n fds c o fs) : E.decl n = some ⟨.tupleStruct fds, c⟩ → o.kind = .tupleStruct →
      PosFromW (W n none) c conv o fds fs →
      ConvStepW E W conv (.named n) o (.tupleStruct (.derived n) fs)
  | enumS (n vds c vn fds o fs) : E.decl n = some ⟨.enum vds, c⟩ → .struct vn fds ∈ vds →
      o.variantName = some vn → NamedFromW (W n (some vn)) c conv o fds fs →
      ConvStepW E W conv (.named n) o (.enumS (.derived n) vn fs)
  | enumT (n vds c vn fds o fs) : E.decl n = some ⟨.enum vds, c⟩ → .tuple vn fds ∈ vds →
      o.variantName = some vn → PosFromW (W n (some vn)) c conv o fds fs →
      ConvStepW E W conv (.named n) o (.enumT (.derived n) vn fs)
  | enumU (n vds c vn o) : E.decl n = some ⟨.enum vds, c⟩ → .unit vn ∈ vds →
      o.variantName = some vn → ConvStepW E W conv (.named n) o (.enumU (.derived n) vn)
  | other (t o y) : (∀ n, t ≠ .named n) → ConvStep E conv t o y → ConvStepW E W conv t o y

/-- `o` converts to `y` at type `t` under the functions `W`: the least relation closed under
`ConvStepW`. -/
def ConvertsToW (E : Env) (W : WithFns) (t : Ty) (o y : Obj) : Prop :=
  ∀ R : Ty → Obj → Obj → Prop, (∀ t o y, ConvStepW E W R t o y → R t o y) → R t o y

/-- Every function of `W` returns values of the type of its field. (In Rust the compiler sees to
that.) -/
structure WithFns.Typed (E : Env) (W : WithFns) : Prop where
  struct : ∀ n fds c (i : Nat) fd f v y, E.decl n = some ⟨.struct fds, c⟩ → fds[i]? = some fd →
    W n none i = some f → f v = some y → HasTy E fd.ty y
  tupleStruct : ∀ n fds c (i : Nat) fd f v y, E.decl n = some ⟨.tupleStruct fds, c⟩ →
    fds[i]? = some fd → W n none i = some f → f v = some y → HasTy E fd.ty y
  enumS : ∀ n vds c vn fds (i : Nat) fd f v y, E.decl n = some ⟨.enum vds, c⟩ →
    .struct vn fds ∈ vds → fds[i]? = some fd → W n (some vn) i = some f → f v = some y →
    HasTy E fd.ty y
  enumT : ∀ n vds c vn fds (i : Nat) fd f v y, E.decl n = some ⟨.enum vds, c⟩ →
    .tuple vn fds ∈ vds → fds[i]? = some fd → W n (some vn) i = some f → f v = some y →
    HasTy E fd.ty y

/-- Every reflected field of `x` that has a function holds something that this function returned. -/
inductive WithFns.Honoured (E : Env) (W : WithFns) : Obj → Prop
  | struct (n fds c fs) : E.decl n = some ⟨.struct fds, c⟩ →
      (∀ (i : Nat) fd p f, fds[i]? = some fd → fs[i]? = some p → fd.skip = false →
        W n none i = some f → ∃ v, f v = some p.2) →
      Honoured E W (.struct (.derived n) fs)
  | tupleStruct (n fds c fs) : E.decl n = some ⟨.tupleStruct fds, c⟩ →
      (∀ (i : Nat) fd x f, fds[i]? = some fd → fs[i]? = some x → fd.skip = false →
        W n none i = some f → ∃ v, f v = some x) →
      Honoured E W (.tupleStruct (.derived n) fs)
  | enumS (n vds c vn fds fs) : E.decl n = some ⟨.enum vds, c⟩ → .struct vn fds ∈ vds →
      (∀ (i : Nat) fd p f, fds[i]? = some fd → fs[i]? = some p → fd.skip = false →
        W n (some vn) i = some f → ∃ v, f v = some p.2) →
      Honoured E W (.enumS (.derived n) vn fs)
  | enumT (n vds c vn fds fs) : E.decl n = some ⟨.enum vds, c⟩ → .tuple vn fds ∈ vds →
      (∀ (i : Nat) fd x f, fds[i]? = some fd → fs[i]? = some x → fd.skip = false →
        W n (some vn) i = some f → ∃ v, f v = some x) →
      Honoured E W (.enumT (.derived n) vn fs)
  | enumU (n vn) : Honoured E W (.enumU (.derived n) vn)
  | other (x) : (∀ n, x.typeOf ≠ some (.named n)) → Honoured E W x

/-- Every function of `W` is what the field would get without it: a clone if the value has the field's
type and the type has not opted out of `Clone`, and otherwise the field type's `from_reflect`. -/
structure WithFns.Standard (E : Env) (W : WithFns) : Prop where
  struct : ∀ n fds c (i : Nat) fd f v, E.decl n = some ⟨.struct fds, c⟩ → fds[i]? = some fd →
    W n none i = some f →
    f v = if c = false ∧ v.typeOf = some fd.ty then some v else fromReflect E fd.ty v
  tupleStruct : ∀ n fds c (i : Nat) fd f v, E.decl n = some ⟨.tupleStruct fds, c⟩ →
    fds[i]? = some fd → W n none i = some f →
    f v = if c = false ∧ v.typeOf = some fd.ty then some v else fromReflect E fd.ty v
  enumS : ∀ n vds c vn fds (i : Nat) fd f v, E.decl n = some ⟨.enum vds, c⟩ →
    .struct vn fds ∈ vds → fds[i]? = some fd → W n (some vn) i = some f →
    f v = if c = false ∧ v.typeOf = some fd.ty then some v else fromReflect E fd.ty v
  enumT : ∀ n vds c vn fds (i : Nat) fd f v, E.decl n = some ⟨.enum vds, c⟩ →
    .tuple vn fds ∈ vds → fds[i]? = some fd → W n (some vn) i = some f →
    f v = if c = false ∧ v.typeOf = some fd.ty then some v else fromReflect E fd.ty v

end Mirror
