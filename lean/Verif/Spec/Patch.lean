import Verif.Spec.Convert

/-!
# Specification: what `patch` should do

`PatchesTo E x v z`: patching `x` with `v` makes it `z`. A relation in the words of the documentation
("update the value based on another value; whatever does not fit is ignored").
-/

namespace Mirror

/-- Field by field, by name: a reflected field that the patch also has is patched with it; every
other field (not in the patch, or skipped) keeps its content. -/
structure NamedPatched (pat : Obj → Obj → Obj → Prop) (v : Obj) (fs gs : List (String × Obj)) :
    Prop where
  names : gs.map (·.1) = fs.map (·.1)
  same : ∀ (i : Nat) n a b, fs[i]? = some (n, a) → gs[i]? = some (n, b) →
    (∃ w, a.isHidden = false ∧ v.field n = some w ∧ pat a w b) ∨
    ((a.isHidden = true ∨ v.field n = none) ∧ b = a)

/-- Position by position. -/
structure PosPatched (pat : Obj → Obj → Obj → Prop) (v : Obj) (fs gs : List Obj) : Prop where
  length : gs.length = fs.length
  same : ∀ (i : Nat) a b, fs[i]? = some a → gs[i]? = some b →
    (∃ w, a.isHidden = false ∧ v.fieldAt i = some w ∧ pat a w b) ∨
    ((a.isHidden = true ∨ v.fieldAt i = none) ∧ b = a)

/-- `ws` are the values, in order, of those entries of a map whose key converts to a key equal to
`k`. -/
inductive Hits (E : Env) (kt : Ty) (k : Obj) : List (Obj × Obj) → List Obj → Prop
  | nil : Hits E kt k [] []
  | take (q qs ws k') : ConvertsTo E kt q.1 k' → E.kcmp kt k' k = .eq → Hits E kt k qs ws →
      Hits E kt k (q :: qs) (q.2 :: ws)
  | drop (q qs ws) : (∀ k', ConvertsTo E kt q.1 k' → E.kcmp kt k' k ≠ .eq) → Hits E kt k qs ws →
      Hits E kt k (q :: qs) ws

/-- Patch with each of a list of values in turn. -/
inductive PatchSeq (pat : Obj → Obj → Obj → Prop) : Obj → List Obj → Obj → Prop
  | nil (a) : PatchSeq pat a [] a
  | cons (a w ws b c) : pat a w b → PatchSeq pat b ws c → PatchSeq pat a (w :: ws) c

/-- The enum `x` patched field by field, its variant unchanged. -/
inductive VariantPatched (pat : Obj → Obj → Obj → Prop) (v : Obj) : Obj → Obj → Prop
  | enumS (tag vn fs gs) : NamedPatched pat v fs gs →
      VariantPatched pat v (.enumS tag vn fs) (.enumS tag vn gs)
  | enumT (tag vn fs gs) : PosPatched pat v fs gs →
      VariantPatched pat v (.enumT tag vn fs) (.enumT tag vn gs)
  | enumU (tag vn) : VariantPatched pat v (.enumU tag vn) (.enumU tag vn)

/-- One level of patching; `pat` is how the parts are patched.

* `other`: a patch of another kind does nothing.
* Scalars take a patch of exactly their type, `NonZero` integers whatever converts to them.
* Structs, tuple structs, tuples, lists and arrays are patched field by field and keep their fields.
* Maps keep their keys; the value of each key is patched with the values the patch has for it.
* A derived enum takes over a patch of its own type (unless it opted out of `Clone`); otherwise it
  becomes what the patch converts to; otherwise, if the patch is in the same variant, it is patched
  field by field; otherwise it is unchanged.
* An `EnumValue` is patched field by field if the patch is in the same variant, and is replaced by
  the `EnumValue` the patch converts to otherwise. -/
inductive PatchStep (E : Env) (pat : Obj → Obj → Obj → Prop) : Obj → Obj → Obj → Prop
  | other (x v) : v.kind ≠ x.kind → PatchStep E pat x v x
  | scalar (s s') : s'.kind = s.kind → PatchStep E pat (.scalar s) (.scalar s') (.scalar s')
  | scalarOther (s v) : v.typeOf ≠ some (.scalar s.kind) → PatchStep E pat (.scalar s) v (.scalar s)
  | nonzero (k n v y) : ConvertsTo E (.nonzero k) v y → PatchStep E pat (.nonzero k n) v y
  | nonzeroOther (k n v) : (∀ y, ¬ ConvertsTo E (.nonzero k) v y) →
      PatchStep E pat (.nonzero k n) v (.nonzero k n)
  | struct (tag fs v gs) : v.kind = .struct → NamedPatched pat v fs gs →
      PatchStep E pat (.struct tag fs) v (.struct tag gs)
  | tupleStruct (tag fs v gs) : v.kind = .tupleStruct → PosPatched pat v fs gs →
      PatchStep E pat (.tupleStruct tag fs) v (.tupleStruct tag gs)
  | tuple (tag fs v gs) : v.kind = .tuple → PosPatched pat v fs gs →
      PatchStep E pat (.tuple tag fs) v (.tuple tag gs)
  | vec (t fs v gs) : v.kind = .list → PosPatched pat v fs gs →
      PatchStep E pat (.vec t fs) v (.vec t gs)
  | array (t fs v gs) : v.kind = .array → PosPatched pat v fs gs →
      PatchStep E pat (.array t fs) v (.array t gs)
  | map (kt vt u w kvs new r) : r.map (·.1) = kvs.map (·.1) →
      (∀ (i : Nat) k a b, kvs[i]? = some (k, a) → r[i]? = some (k, b) →
        ∃ ws, Hits E kt k new ws ∧ PatchSeq pat a ws b) →
      PatchStep E pat (.map kt vt kvs) (.map u w new) (.map kt vt r)
  | enumTake (n d x v) : x.kind = .enum → x.typeOf = some (.named n) → E.decl n = some d →
      d.cloneOptOut = false → v.typeOf = some (.named n) → PatchStep E pat x v v
  | enumConvert (n d x v y) : x.kind = .enum → x.typeOf = some (.named n) → E.decl n = some d →
      ¬ (d.cloneOptOut = false ∧ v.typeOf = some (.named n)) →
      ConvertsTo E (.named n) v y → PatchStep E pat x v y
  | enumFields (n d x v z) : x.kind = .enum → x.typeOf = some (.named n) → E.decl n = some d →
      ¬ (d.cloneOptOut = false ∧ v.typeOf = some (.named n)) →
      (∀ y, ¬ ConvertsTo E (.named n) v y) → v.variantName = x.variantName →
      VariantPatched pat v x z → PatchStep E pat x v z
  | enumKeep (n d x v) : x.kind = .enum → x.typeOf = some (.named n) → E.decl n = some d →
      ¬ (d.cloneOptOut = false ∧ v.typeOf = some (.named n)) →
      (∀ y, ¬ ConvertsTo E (.named n) v y) → v.variantName ≠ x.variantName → PatchStep E pat x v x
  | enumValueFields (x v z) : x.kind = .enum → x.typeOf = some .enumValue →
      v.variantName = x.variantName → VariantPatched pat v x z → PatchStep E pat x v z
  | enumValueReplace (x v y) : x.kind = .enum → x.typeOf = some .enumValue →
      v.variantName ≠ x.variantName → ConvertsTo E .enumValue v y → PatchStep E pat x v y

/-- Patching `x` with `v` makes it `z`: the least relation closed under `PatchStep`. -/
def PatchesTo (E : Env) (x v z : Obj) : Prop :=
  ∀ R : Obj → Obj → Obj → Prop, (∀ x v z, PatchStep E R x v z → R x v z) → R x v z

end Mirror
