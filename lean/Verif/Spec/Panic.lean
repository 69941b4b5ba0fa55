import Verif.Model.Panic
import Verif.Spec.Parts
import Verif.Spec.TypeInfo

/-!
# Specification: values that hold a skipped variant
-/

namespace Mirror

/-- `x` is `o`, or can be reached from `o` through its accessors. -/
inductive Obj.Inside : Obj → Obj → Prop
  | self (o) : Inside o o
  | part (x y o) : y ∈ o.parts → Inside x y → Inside x o

/-- Somewhere inside `o` is an enum that holds a variant with `#[reflect(skip)]`. -/
def Obj.HoldsSkipped (E : Env) (o : Obj) : Prop := ∃ x : Obj, x.Inside o ∧ x.skippedVariant E = true

/-- A variant none of whose fields is reflected. -/
def VariantDef.hide : VariantDef → VariantDef
  | .struct n fds => .struct n (fds.map fun fd => { fd with skip := true })
  | .tuple n fds => .tuple n (fds.map fun fd => { fd with skip := true })
  | .unit n => .unit n

/-- The declarations with the skipped variants `S n` of every enum `n` added, their fields hidden. The
values of a Rust type are those of `HasTy (E.full S)`; `HasTy E` are the ones that hold no skipped
variant. -/
def Env.full (E : Env) (S : String → List VariantDef) : Env where
  decl n :=
    match E.decl n with
    | some ⟨.enum vds, c⟩ => some ⟨.enum (vds ++ (S n).map VariantDef.hide), c⟩
    | d => d
  kcmp := E.kcmp

/-- Whether a variant is written with braces, with parentheses or alone. -/
def VariantDef.kind : VariantDef → VKind
  | .struct .. => .struct
  | .tuple .. => .tuple
  | .unit _ => .unit

/-- The `EnumValue` with the name and kind of a variant, and no fields. -/
def VariantDef.bare : VariantDef → Value
  | .struct n _ => .enumS n [] []
  | .tuple n _ => .enumT n []
  | .unit n => .enumU n

/-- `Value` and the other dynamic types. -/
def Ty.Dynamic : Ty → Prop
  | .value | .structValue | .tupleStructValue | .tupleValue | .enumValue => True
  | _ => False

/-- `t` is, or is made of, some dynamic type. -/
def Ty.HasDynamic (E : Env) (t : Ty) : Prop := ∃ u, Ty.Reach E t u ∧ u.Dynamic

end Mirror
