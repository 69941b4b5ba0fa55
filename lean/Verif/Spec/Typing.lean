import Verif.Model.Obj

/-!
# Specification: what it means to be a proper value of a type

None of these definitions mention the algorithms of the model (`fromReflect`, `patch`, ...).
-/

namespace Mirror

/-- A `Value` that safe code can build: the fields of every `StructValue` are a map whose keys are
exactly the listed names, and every map has strictly increasing keys. (A name may be listed twice:
`set_field` allows it.) -/
inductive Value.WF : Value → Prop
  | scalar (s) : Value.WF (.scalar s)
  | struct (ns fs) : (∀ n, n ∈ ns ↔ n ∈ fs.map (·.1)) → BMSorted strCmp fs →
      (∀ p ∈ fs, Value.WF p.2) → Value.WF (.struct ns fs)
  | enumS (v ns fs) : (∀ n, n ∈ ns ↔ n ∈ fs.map (·.1)) → BMSorted strCmp fs →
      (∀ p ∈ fs, Value.WF p.2) → Value.WF (.enumS v ns fs)
  | enumT (v fs) : (∀ x ∈ fs, Value.WF x) → Value.WF (.enumT v fs)
  | enumU (v) : Value.WF (.enumU v)
  | tupleStruct (fs) : (∀ x ∈ fs, Value.WF x) → Value.WF (.tupleStruct fs)
  | tuple (fs) : (∀ x ∈ fs, Value.WF x) → Value.WF (.tuple fs)
  | list (xs) : (∀ x ∈ xs, Value.WF x) → Value.WF (.list xs)
  | map (kvs) : BMSorted Value.cmp kvs → (∀ p ∈ kvs, Value.WF p.1) → (∀ p ∈ kvs, Value.WF p.2) →
      Value.WF (.map kvs)

/-- `HasTy E t o`: the object `o` is a proper value of the Rust type `t`. Fields have their declared
names and types, skipped fields are opaque payloads, arrays have their length, maps are strictly
sorted by the key's own `Ord`, `NonZero` integers are not zero, and the dynamic types contain
well-formed `Value`s. -/
inductive HasTy (E : Env) : Ty → Obj → Prop
  | scalar (s) : HasTy E (.scalar s.kind) (.scalar s)
  | nonzero (k n) : n ≠ 0 → HasTy E (.nonzero k) (.nonzero k n)
  | struct (n fds c fs) : E.decl n = some ⟨.struct fds, c⟩ →
      fs.map (·.1) = fds.map (·.name) →
      (∀ (i : Nat) fd p, fds[i]? = some fd → fs[i]? = some p → fd.skip = true → p.2.isHidden = true) →
      (∀ (i : Nat) fd p, fds[i]? = some fd → fs[i]? = some p → fd.skip = false → HasTy E fd.ty p.2) →
      HasTy E (.named n) (.struct (.derived n) fs)
  | tupleStruct (n fds c fs) : E.decl n = some ⟨.tupleStruct fds, c⟩ →
      fs.length = fds.length →
      (∀ (i : Nat) fd x, fds[i]? = some fd → fs[i]? = some x → fd.skip = true → x.isHidden = true) →
      (∀ (i : Nat) fd x, fds[i]? = some fd → fs[i]? = some x → fd.skip = false → HasTy E fd.ty x) →
      HasTy E (.named n) (.tupleStruct (.derived n) fs)
  | enumS (n vds c vn fds fs) : E.decl n = some ⟨.enum vds, c⟩ →
      VariantDef.struct vn fds ∈ vds →
      fs.map (·.1) = fds.map (·.name) →
      (∀ (i : Nat) fd p, fds[i]? = some fd → fs[i]? = some p → fd.skip = true → p.2.isHidden = true) →
      (∀ (i : Nat) fd p, fds[i]? = some fd → fs[i]? = some p → fd.skip = false → HasTy E fd.ty p.2) →
      HasTy E (.named n) (.enumS (.derived n) vn fs)
  | enumT (n vds c vn fds fs) : E.decl n = some ⟨.enum vds, c⟩ →
      VariantDef.tuple vn fds ∈ vds →
      fs.length = fds.length →
      (∀ (i : Nat) fd x, fds[i]? = some fd → fs[i]? = some x → fd.skip = true → x.isHidden = true) →
      (∀ (i : Nat) fd x, fds[i]? = some fd → fs[i]? = some x → fd.skip = false → HasTy E fd.ty x) →
      HasTy E (.named n) (.enumT (.derived n) vn fs)
  | enumU (n vds c vn) : E.decl n = some ⟨.enum vds, c⟩ →
      VariantDef.unit vn ∈ vds →
      HasTy E (.named n) (.enumU (.derived n) vn)
  | tuple (ts fs) : fs.length = ts.length →
      (∀ (i : Nat) t x, ts[i]? = some t → fs[i]? = some x → HasTy E t x) →
      HasTy E (.tuple ts) (.tuple (.typed ts) fs)
  | vec (t xs) : (∀ x ∈ xs, HasTy E t x) → HasTy E (.vec t) (.vec t xs)
  | array (t xs) : (∀ x ∈ xs, HasTy E t x) → HasTy E (.array t xs.length) (.array t xs)
  | map (kt vt kvs) : BMSorted (E.kcmp kt) kvs → (∀ p ∈ kvs, HasTy E kt p.1) →
      (∀ p ∈ kvs, HasTy E vt p.2) → HasTy E (.map kt vt) (.map kt vt kvs)
  | box (t o) : HasTy E t o → HasTy E (.box t) o
  | value (v : Value) (o) : v.WF → o = v.toObj → HasTy E .value o
  | structValue (ns fs o) : (Value.struct ns fs).WF → o = (Value.struct ns fs).toObj →
      HasTy E .structValue o
  | tupleStructValue (fs o) : (Value.tupleStruct fs).WF → o = (Value.tupleStruct fs).toObj →
      HasTy E .tupleStructValue o
  | tupleValue (fs o) : (Value.tuple fs).WF → o = (Value.tuple fs).toObj → HasTy E .tupleValue o
  | enumValueS (v ns fs o) : (Value.enumS v ns fs).WF → o = (Value.enumS v ns fs).toObj →
      HasTy E .enumValue o
  | enumValueT (v fs o) : (Value.enumT v fs).WF → o = (Value.enumT v fs).toObj →
      HasTy E .enumValue o
  | enumValueU (v o) : o = (Value.enumU v).toObj → HasTy E .enumValue o

/-- What the Rust compiler guarantees about declarations: no two fields of a struct or variant share
a name, no two variants share a name. -/
structure DeclsOK (E : Env) : Prop where
  struct_names : ∀ n fds c, E.decl n = some ⟨.struct fds, c⟩ → (fds.map (·.name)).Nodup
  variant_names : ∀ n vds c, E.decl n = some ⟨.enum vds, c⟩ → (vds.map (·.name)).Nodup
  variant_fields : ∀ n vds c vn fds, E.decl n = some ⟨.enum vds, c⟩ →
    VariantDef.struct vn fds ∈ vds → (fds.map (·.name)).Nodup

/-- The `Ord` of every key type is a total order, and for `Value` keys it is `Value`'s own order. -/
structure OrdLaws (E : Env) : Prop where
  refl : ∀ t a, HasTy E t a → E.kcmp t a a = .eq
  swap : ∀ t a b, HasTy E t a → HasTy E t b → E.kcmp t b a = (E.kcmp t a b).swap
  lt_trans : ∀ t a b c, HasTy E t a → HasTy E t b → HasTy E t c →
    E.kcmp t a b = .lt → E.kcmp t b c = .lt → E.kcmp t a c = .lt
  eq_trans : ∀ t a b c, HasTy E t a → HasTy E t b → HasTy E t c →
    E.kcmp t a b = .eq → E.kcmp t a c = E.kcmp t b c
  value : ∀ a b : Value, a.WF → b.WF → E.kcmp .value a.toObj b.toObj = Value.cmp a b

/-- Keys that are equal as `Value`s are equal for their own `Ord`: it does not distinguish what the
reflected content does not show (skipped fields, sign of zero, NaN payloads). -/
def KeysShown (E : Env) : Prop :=
  ∀ t a b, HasTy E t a → HasTy E t b → Value.cmp a.toValue b.toValue = .eq → E.kcmp t a b = .eq

/-- `Obj.reset o`: every skipped field replaced by its default. -/
def Obj.reset : Obj → Obj
  | .scalar s => .scalar s
  | .nonzero k n => .nonzero k n
  | .struct tag fs => .struct tag (fs.map fun p => (p.1, p.2.reset))
  | .tupleStruct tag fs => .tupleStruct tag (fs.map fun x => x.reset)
  | .tuple tag fs => .tuple tag (fs.map fun x => x.reset)
  | .enumS tag v fs => .enumS tag v (fs.map fun p => (p.1, p.2.reset))
  | .enumT tag v fs => .enumT tag v (fs.map fun x => x.reset)
  | .enumU tag v => .enumU tag v
  | .vec t xs => .vec t (xs.map fun x => x.reset)
  | .array t xs => .array t (xs.map fun x => x.reset)
  | .map kt vt kvs => .map kt vt (kvs.map fun p => (p.1.reset, p.2.reset))
  | .hidden _ => .hidden 0

/-- `o` contains no fixed-size array (`[T; N]`). -/
inductive Obj.ArrayFree : Obj → Prop
  | scalar (s) : ArrayFree (.scalar s)
  | nonzero (k n) : ArrayFree (.nonzero k n)
  | struct (tag fs) : (∀ p ∈ fs, ArrayFree p.2) → ArrayFree (.struct tag fs)
  | tupleStruct (tag fs) : (∀ x ∈ fs, ArrayFree x) → ArrayFree (.tupleStruct tag fs)
  | tuple (tag fs) : (∀ x ∈ fs, ArrayFree x) → ArrayFree (.tuple tag fs)
  | enumS (tag v fs) : (∀ p ∈ fs, ArrayFree p.2) → ArrayFree (.enumS tag v fs)
  | enumT (tag v fs) : (∀ x ∈ fs, ArrayFree x) → ArrayFree (.enumT tag v fs)
  | enumU (tag v) : ArrayFree (.enumU tag v)
  | vec (t xs) : (∀ x ∈ xs, ArrayFree x) → ArrayFree (.vec t xs)
  | map (kt vt kvs) : (∀ p ∈ kvs, ArrayFree p.1) → (∀ p ∈ kvs, ArrayFree p.2) →
      ArrayFree (.map kt vt kvs)
  | hidden (d) : ArrayFree (.hidden d)

/-- The skipped fields of every tuple struct and tuple variant come after all reflected ones. -/
def SkipsLast (E : Env) : Prop :=
  (∀ n fds c, E.decl n = some ⟨.tupleStruct fds, c⟩ →
    ∀ (i j : Nat) fd fd', fds[i]? = some fd → fds[j]? = some fd' → fd.skip = true → fd'.skip = false →
      j < i) ∧
  (∀ n vds c vn fds, E.decl n = some ⟨.enum vds, c⟩ → VariantDef.tuple vn fds ∈ vds →
    ∀ (i j : Nat) fd fd', fds[i]? = some fd → fds[j]? = some fd' → fd.skip = true → fd'.skip = false →
      j < i)

/-- No declaration carries `#[reflect(skip)]`. -/
def NoSkips (E : Env) : Prop :=
  (∀ n fds c, E.decl n = some ⟨.struct fds, c⟩ → ∀ fd ∈ fds, fd.skip = false) ∧
  (∀ n fds c, E.decl n = some ⟨.tupleStruct fds, c⟩ → ∀ fd ∈ fds, fd.skip = false) ∧
  (∀ n vds c vn fds, E.decl n = some ⟨.enum vds, c⟩ →
    VariantDef.struct vn fds ∈ vds ∨ VariantDef.tuple vn fds ∈ vds → ∀ fd ∈ fds, fd.skip = false)

/-- No type uses `#[reflect(opt_out(Clone))]`. -/
def NoCloneOptOut (E : Env) : Prop := ∀ n d, E.decl n = some d → d.cloneOptOut = false

/-- Every enum inside `o` holds only default values in its skipped fields (all enums do if no enum
variant has a skipped field). -/
inductive Obj.EnumsDefault : Obj → Prop
  | scalar (s) : EnumsDefault (.scalar s)
  | nonzero (k n) : EnumsDefault (.nonzero k n)
  | struct (tag fs) : (∀ p ∈ fs, EnumsDefault p.2) → EnumsDefault (.struct tag fs)
  | tupleStruct (tag fs) : (∀ x ∈ fs, EnumsDefault x) → EnumsDefault (.tupleStruct tag fs)
  | tuple (tag fs) : (∀ x ∈ fs, EnumsDefault x) → EnumsDefault (.tuple tag fs)
  | enum (o : Obj) : o.reset = o → EnumsDefault o
  | vec (t xs) : (∀ x ∈ xs, EnumsDefault x) → EnumsDefault (.vec t xs)
  | array (t xs) : (∀ x ∈ xs, EnumsDefault x) → EnumsDefault (.array t xs)
  | map (kt vt kvs) : (∀ p ∈ kvs, EnumsDefault p.2) → EnumsDefault (.map kt vt kvs)
  | hidden (d) : EnumsDefault (.hidden d)

/-- Types whose values always have the same shape, apart from enums: no lists and no maps outside of
enums. (`arr = false` excludes fixed-size arrays outside of enums too.) -/
inductive Ty.Fixed (E : Env) (arr : Bool) : Ty → Prop
  | scalar (k) : Fixed E arr (.scalar k)
  | nonzero (k) : Fixed E arr (.nonzero k)
  | tuple (ts) : (∀ t ∈ ts, Fixed E arr t) → Fixed E arr (.tuple ts)
  | box (t) : Fixed E arr t → Fixed E arr (.box t)
  | array (t n) : arr = true → Fixed E arr t → Fixed E arr (.array t n)
  | struct (n fds c) : E.decl n = some ⟨.struct fds, c⟩ →
      (∀ fd ∈ fds, fd.skip = false → Fixed E arr fd.ty) → Fixed E arr (.named n)
  | tupleStruct (n fds c) : E.decl n = some ⟨.tupleStruct fds, c⟩ →
      (∀ fd ∈ fds, fd.skip = false → Fixed E arr fd.ty) → Fixed E arr (.named n)
  | enum (n vds c) : E.decl n = some ⟨.enum vds, c⟩ → Fixed E arr (.named n)

end Mirror
