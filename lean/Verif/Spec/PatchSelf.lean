import Verif.Spec.Parts

/-!
# Specification: what patching a value with itself does to it, and when patching makes values equal
-/

namespace Mirror

/-- `o` with every outermost enum outside of fixed-size arrays replaced by the same enum with default
values in its skipped fields, and with the skipped fields of those inside it reset too. Skipped fields
that are not inside an enum, and map keys, stay as they are. -/
def Obj.enumsReset : Obj → Obj
  | .scalar s => .scalar s
  | .nonzero k n => .nonzero k n
  | .struct tag fs => .struct tag (fs.map fun p => (p.1, p.2.enumsReset))
  | .tupleStruct tag fs => .tupleStruct tag (fs.map fun x => x.enumsReset)
  | .tuple tag fs => .tuple tag (fs.map fun x => x.enumsReset)
  | .enumS tag v fs => (Obj.enumS tag v fs).reset
  | .enumT tag v fs => (Obj.enumT tag v fs).reset
  | .enumU tag v => .enumU tag v
  | .vec t xs => .vec t (xs.map fun x => x.enumsReset)
  | .array t xs => .array t xs
  | .map kt vt kvs => .map kt vt (kvs.map fun p => (p.1, p.2.enumsReset))
  | .hidden d => .hidden d

/-- `x` is a derived enum type's value and the type has `#[reflect(opt_out(Clone))]`. -/
def Obj.optOutEnum (E : Env) (x : Obj) (n : String) : Prop :=
  x.kind = .enum ∧ x.typeOf = some (.named n) ∧ ∃ d, E.decl n = some d ∧ d.cloneOptOut = true

/-- What patching `x` with itself can reach: `x`; the fields and elements of what it reaches, except
those of enums that are replaced as a whole (enums that are cloned, and `opt_out(Clone)` enums that
convert); and the values of maps whose keys convert. -/
inductive SelfPatches (E : Env) : Obj → Obj → Prop
  | here (x) : SelfPatches E x x
  | struct (tag fs p z) : p ∈ fs → SelfPatches E p.2 z → SelfPatches E (.struct tag fs) z
  | tupleStruct (tag fs x z) : x ∈ fs → SelfPatches E x z → SelfPatches E (.tupleStruct tag fs) z
  | tuple (tag fs x z) : x ∈ fs → SelfPatches E x z → SelfPatches E (.tuple tag fs) z
  | enumS (n vn fs p z) : (Obj.enumS (.derived n) vn fs).optOutEnum E n →
      fromReflect E (.named n) (.enumS (.derived n) vn fs) = none → p ∈ fs → SelfPatches E p.2 z →
      SelfPatches E (.enumS (.derived n) vn fs) z
  | enumT (n vn fs x z) : (Obj.enumT (.derived n) vn fs).optOutEnum E n →
      fromReflect E (.named n) (.enumT (.derived n) vn fs) = none → x ∈ fs → SelfPatches E x z →
      SelfPatches E (.enumT (.derived n) vn fs) z
  | vec (t xs x z) : x ∈ xs → SelfPatches E x z → SelfPatches E (.vec t xs) z
  | array (t xs x z) : x ∈ xs → SelfPatches E x z → SelfPatches E (.array t xs) z
  | map (kt vt kvs p z) : p ∈ kvs → (fromReflect E kt p.1).isSome = true → SelfPatches E p.2 z →
      SelfPatches E (.map kt vt kvs) z

/-- Everything `y` shows replaces what `x` shows when `x` is patched with `y`, a value of the same
type.

* A derived enum is replaced as a whole if its type is cloned, or if `y` converts to it; otherwise `y`
  must be of the same variant and its fields must be taken over one by one.
* Fields and elements are taken over one by one, so lists must have the same length, and dynamic
  structs must list the same names.
* Maps must have the same keys. A value is taken over if its key converts; otherwise it must already
  be the same. -/
inductive PatchFills (E : Env) : Obj → Obj → Prop
  | scalar (s s') : s.kind = s'.kind → PatchFills E (.scalar s) (.scalar s')
  | nonzero (k m n) : PatchFills E (.nonzero k m) (.nonzero k n)
  | hidden (d d') : PatchFills E (.hidden d) (.hidden d')
  | struct (tag fs gs) : fs.map (·.1) = gs.map (·.1) →
      (∀ (i : Nat) p q, fs[i]? = some p → gs[i]? = some q → PatchFills E p.2 q.2) →
      PatchFills E (.struct tag fs) (.struct tag gs)
  | tupleStruct (tag fs gs) : fs.length = gs.length →
      (∀ (i : Nat) p q, fs[i]? = some p → gs[i]? = some q → PatchFills E p q) →
      PatchFills E (.tupleStruct tag fs) (.tupleStruct tag gs)
  | tuple (tag fs gs) : fs.length = gs.length →
      (∀ (i : Nat) p q, fs[i]? = some p → gs[i]? = some q → PatchFills E p q) →
      PatchFills E (.tuple tag fs) (.tuple tag gs)
  | cloned (n x y) : x.kind = .enum → y.kind = .enum → x.typeOf = some (.named n) →
      y.typeOf = some (.named n) → ¬ y.optOutEnum E n → PatchFills E x y
  | converted (n x y) : x.kind = .enum → x.typeOf = some (.named n) → y.optOutEnum E n →
      (fromReflect E (.named n) y).isSome = true → PatchFills E x y
  | otherVariant (x y) : x.kind = .enum → y.kind = .enum → x.typeOf = some .enumValue →
      y.typeOf = some .enumValue → x.variantName ≠ y.variantName → PatchFills E x y
  | enumS (tag vn fs gs) : fs.map (·.1) = gs.map (·.1) →
      (∀ (i : Nat) p q, fs[i]? = some p → gs[i]? = some q → PatchFills E p.2 q.2) →
      PatchFills E (.enumS tag vn fs) (.enumS tag vn gs)
  | enumT (tag vn fs gs) : fs.length = gs.length →
      (∀ (i : Nat) p q, fs[i]? = some p → gs[i]? = some q → PatchFills E p q) →
      PatchFills E (.enumT tag vn fs) (.enumT tag vn gs)
  | enumU (tag vn) : PatchFills E (.enumU tag vn) (.enumU tag vn)
  | vec (t fs gs) : fs.length = gs.length →
      (∀ (i : Nat) p q, fs[i]? = some p → gs[i]? = some q → PatchFills E p q) →
      PatchFills E (.vec t fs) (.vec t gs)
  | array (t fs gs) : fs.length = gs.length →
      (∀ (i : Nat) p q, fs[i]? = some p → gs[i]? = some q → PatchFills E p q) →
      PatchFills E (.array t fs) (.array t gs)
  | map (kt vt fs gs) : fs.length = gs.length →
      (∀ (i : Nat) p q, fs[i]? = some p → gs[i]? = some q → p.1.reset = q.1.reset) →
      (∀ (i : Nat) p q, fs[i]? = some p → gs[i]? = some q →
        (fromReflect E kt q.1).isSome = true → PatchFills E p.2 q.2) →
      (∀ (i : Nat) p q, fs[i]? = some p → gs[i]? = some q →
        (fromReflect E kt q.1).isSome = false → p.2.reset = q.2.reset) →
      PatchFills E (.map kt vt fs) (.map kt vt gs)

/-- Everything `y` shows replaces what `x` shows when `x` is patched with `y.to_value()`, for `y` of the
same type. A derived enum is always replaced as a whole; the value of an array is a list, which does
not patch an array. -/
inductive ValueFills : Obj → Obj → Prop
  | scalar (s s') : s.kind = s'.kind → ValueFills (.scalar s) (.scalar s')
  | nonzero (k m n) : ValueFills (.nonzero k m) (.nonzero k n)
  | hidden (d d') : ValueFills (.hidden d) (.hidden d')
  | struct (tag fs gs) : fs.map (·.1) = gs.map (·.1) →
      (∀ (i : Nat) p q, fs[i]? = some p → gs[i]? = some q → ValueFills p.2 q.2) →
      ValueFills (.struct tag fs) (.struct tag gs)
  | tupleStruct (tag fs gs) : fs.length = gs.length →
      (∀ (i : Nat) p q, fs[i]? = some p → gs[i]? = some q → ValueFills p q) →
      ValueFills (.tupleStruct tag fs) (.tupleStruct tag gs)
  | tuple (tag fs gs) : fs.length = gs.length →
      (∀ (i : Nat) p q, fs[i]? = some p → gs[i]? = some q → ValueFills p q) →
      ValueFills (.tuple tag fs) (.tuple tag gs)
  | replaced (n x y) : x.kind = .enum → y.kind = .enum → x.typeOf = some (.named n) →
      y.typeOf = some (.named n) → ValueFills x y
  | otherVariant (x y) : x.kind = .enum → y.kind = .enum → x.typeOf = some .enumValue →
      y.typeOf = some .enumValue → x.variantName ≠ y.variantName → ValueFills x y
  | enumS (tag vn fs gs) : fs.map (·.1) = gs.map (·.1) →
      (∀ (i : Nat) p q, fs[i]? = some p → gs[i]? = some q → ValueFills p.2 q.2) →
      ValueFills (.enumS tag vn fs) (.enumS tag vn gs)
  | enumT (tag vn fs gs) : fs.length = gs.length →
      (∀ (i : Nat) p q, fs[i]? = some p → gs[i]? = some q → ValueFills p q) →
      ValueFills (.enumT tag vn fs) (.enumT tag vn gs)
  | enumU (tag vn) : ValueFills (.enumU tag vn) (.enumU tag vn)
  | vec (t fs gs) : fs.length = gs.length →
      (∀ (i : Nat) p q, fs[i]? = some p → gs[i]? = some q → ValueFills p q) →
      ValueFills (.vec t fs) (.vec t gs)
  | array (t fs gs) : (fs.map fun p => p.reset) = (gs.map fun p => p.reset) →
      ValueFills (.array t fs) (.array t gs)
  | map (kt vt fs gs) : fs.length = gs.length →
      (∀ (i : Nat) p q, fs[i]? = some p → gs[i]? = some q → p.1.reset = q.1.reset) →
      (∀ (i : Nat) p q, fs[i]? = some p → gs[i]? = some q → ValueFills p.2 q.2) →
      ValueFills (.map kt vt fs) (.map kt vt gs)

end Mirror
