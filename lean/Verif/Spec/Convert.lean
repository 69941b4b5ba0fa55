import Mathlib.Data.List.Forall2
import Verif.Spec.Typing
import Verif.Spec.Iter
import Verif.Model.Containers

/-!
# Specification: what `from_reflect` should build

`ConvertsTo E t o y`: the value `o` can be converted to type `t`, and the result is `y`. A relation in the
words of the documentation, without the control flow of the implementation.
-/

namespace Mirror

/-- How one declared field of a type (with or without `opt_out(Clone)`) is made from the value `v`
found in the source: a value of exactly the declared type is cloned, unless the type opted out of
`Clone`; anything else is converted (`conv`). -/
def FieldFrom (c : Bool) (conv : Ty → Obj → Obj → Prop) (t : Ty) (v y : Obj) : Prop :=
  (c = false ∧ v.typeOf = some t ∧ y = v) ∨ (¬ (c = false ∧ v.typeOf = some t) ∧ conv t v y)

/-- The named fields `fs` are what the declaration `fds` asks for, taken by name from `o`; skipped
fields hold their default. `conv` is the conversion of a single value. -/
structure NamedFrom (c : Bool) (conv : Ty → Obj → Obj → Prop) (o : Obj) (fds : List FieldDef)
    (fs : List (String × Obj)) : Prop where
  names : fs.map (·.1) = fds.map (·.name)
  skipped : ∀ (i : Nat) fd p, fds[i]? = some fd → fs[i]? = some p → fd.skip = true → p.2 = .hidden 0
  shown : ∀ (i : Nat) fd p, fds[i]? = some fd → fs[i]? = some p → fd.skip = false →
    ∃ v, o.field fd.name = some v ∧ FieldFrom c conv fd.ty v p.2

/-- The positional fields `fs` are what the declaration `fds` asks for, taken by position from `o`. -/
structure PosFrom (c : Bool) (conv : Ty → Obj → Obj → Prop) (o : Obj) (fds : List FieldDef)
    (fs : List Obj) : Prop where
  length : fs.length = fds.length
  skipped : ∀ (i : Nat) fd x, fds[i]? = some fd → fs[i]? = some x → fd.skip = true → x = .hidden 0
  shown : ∀ (i : Nat) fd x, fds[i]? = some fd → fs[i]? = some x → fd.skip = false →
    ∃ v, o.fieldAt i = some v ∧ FieldFrom c conv fd.ty v x

/-- `y` is what the type `t` should make of `o`, where `conv` is how its parts are converted.

Scalars must have exactly the type asked for, `NonZero` integers accept non-zero integers; derived
types take their declared fields from a value of the same kind (enums: of the same variant name,
whatever its kind); tuples take one field per position, and further fields are ignored; lists and
arrays are made from lists, arrays need the exact length; maps from maps, later equal keys winning;
`Value` accepts everything, the other dynamic types their own kind, with the fields that iteration
yields. -/
inductive ConvStep (E : Env) (conv : Ty → Obj → Obj → Prop) : Ty → Obj → Obj → Prop
  | scalar (s) : ConvStep E conv (.scalar s.kind) (.scalar s) (.scalar s)
  | nonzero (k n) : ConvStep E conv (.nonzero k) (.nonzero k n) (.nonzero k n)
  | nonzeroInt (k n) : n ≠ 0 → ConvStep E conv (.nonzero k) (.scalar (.int k n)) (.nonzero k n)
  | struct (n fds c o fs) : E.decl n = some ⟨.struct fds, c⟩ → o.kind = .struct →
      NamedFrom c conv o fds fs → ConvStep E conv (.named n) o (.struct (.derived n) fs)
  | tupleStruct (n fds c o fs) : E.decl n = some ⟨.tupleStruct fds, c⟩ → o.kind = .tupleStruct →
      PosFrom c conv o fds fs → ConvStep E conv (.named n) o (.tupleStruct (.derived n) fs)
  | enumS (n vds c vn fds o fs) : E.decl n = some ⟨.enum vds, c⟩ → .struct vn fds ∈ vds →
      o.variantName = some vn →
      NamedFrom c conv o fds fs → ConvStep E conv (.named n) o (.enumS (.derived n) vn fs)
  | enumT (n vds c vn fds o fs) : E.decl n = some ⟨.enum vds, c⟩ → .tuple vn fds ∈ vds →
      o.variantName = some vn →
      PosFrom c conv o fds fs → ConvStep E conv (.named n) o (.enumT (.derived n) vn fs)
  | enumU (n vds c vn o) : E.decl n = some ⟨.enum vds, c⟩ → .unit vn ∈ vds →
      o.variantName = some vn → ConvStep E conv (.named n) o (.enumU (.derived n) vn)
  | tuple (ts o fs) : o.kind = .tuple → fs.length = ts.length →
      (∀ (i : Nat) t x, ts[i]? = some t → fs[i]? = some x → ∃ v, o.fieldAt i = some v ∧ conv t v x) →
      ConvStep E conv (.tuple ts) o (.tuple (.typed ts) fs)
  | vec (t u xs ys) : List.Forall₂ (conv t) xs ys → ConvStep E conv (.vec t) (.vec u xs) (.vec t ys)
  | array (t u xs ys) : List.Forall₂ (conv t) xs ys →
      ConvStep E conv (.array t xs.length) (.vec u xs) (.array t ys)
  | map (kt vt u w kvs l) :
      List.Forall₂ (fun p q => conv kt p.1 q.1 ∧ conv vt p.2 q.2) kvs l →
      ConvStep E conv (.map kt vt) (.map u w kvs) (.map kt vt (bmOfList (E.kcmp kt) l))
  | box (t o y) : conv t o y → ConvStep E conv (.box t) o y
  | value (o) : ConvStep E conv .value o o.toValue.toObj
  | structValue (o l) : o.kind = .struct → Yields FieldIter.nextNamed o.iter l →
      ConvStep E conv .structValue o (svFinish (svOfList (l.map fun p => (p.1, p.2.toValue)))).toObj
  | tupleStructValue (o l) : o.kind = .tupleStruct → Yields FieldIter.nextPos o.iter l →
      ConvStep E conv .tupleStructValue o (Value.tupleStruct (l.map fun x => x.toValue)).toObj
  | tupleValue (o l) : o.kind = .tuple → Yields FieldIter.nextPos o.iter l →
      ConvStep E conv .tupleValue o (Value.tuple (l.map fun x => x.toValue)).toObj
  | enumValueS (o vn s l) : o.variantKind = some .struct → o.variantName = some vn →
      Yields FieldIter.nextNamed o.iter l → s = svOfList (l.map fun p => (p.1, p.2.toValue)) →
      ConvStep E conv .enumValue o (Value.enumS vn s.1 s.2).toObj
  | enumValueT (o vn) (l : List Obj) : o.variantKind = some .tuple → o.variantName = some vn →
      Yields FieldIter.nextVariant o.iter (l.map .tuple) →
      ConvStep E conv .enumValue o (Value.enumT vn (l.map fun x => x.toValue)).toObj
  | enumValueU (o vn) : o.variantKind = some .unit → o.variantName = some vn →
      ConvStep E conv .enumValue o (Value.enumU vn).toObj

/-- `o` converts to `y` at type `t`: the least relation closed under `ConvStep`. -/
def ConvertsTo (E : Env) (t : Ty) (o y : Obj) : Prop :=
  ∀ R : Ty → Obj → Obj → Prop, (∀ t o y, ConvStep E R t o y → R t o y) → R t o y

/-- The kind of the values of a declared type. -/
def Shape.kind : Shape → Kind
  | .struct _ => .struct
  | .tupleStruct _ => .tupleStruct
  | .enum _ => .enum

/-- The kinds of values a type can be made from. `Vec<T>` and `[T; N]` are made from lists only. -/
def Ty.Accepts (E : Env) : Ty → Kind → Prop
  | .scalar _, k => k = .scalar
  | .nonzero _, k => k = .scalar
  | .named n, k => ∃ d, E.decl n = some d ∧ k = d.shape.kind
  | .tuple _, k => k = .tuple
  | .vec _, k => k = .list
  | .array _ _, k => k = .list
  | .map _ _, k => k = .map
  | .box t, k => t.Accepts E k
  | .value, _ => True
  | .structValue, k => k = .struct
  | .tupleStructValue, k => k = .tupleStruct
  | .tupleValue, k => k = .tuple
  | .enumValue, k => k = .enum

/-- `o` and `o'` show the same value in every field this declaration asks for, by name. -/
def SameNamed (fds : List FieldDef) (o o' : Obj) : Prop :=
  ∀ fd ∈ fds, fd.skip = false → o.field fd.name = o'.field fd.name

/-- `o` and `o'` show the same value in every field this declaration asks for, by position. -/
def SamePos (fds : List FieldDef) (o o' : Obj) : Prop :=
  ∀ (i : Nat) fd, fds[i]? = some fd → fd.skip = false → o.fieldAt i = o'.fieldAt i

end Mirror
