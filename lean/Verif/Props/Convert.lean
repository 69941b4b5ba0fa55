import Verif.Lemmas.Convert
import Verif.Lemmas.Demo

set_option linter.unusedSimpArgs false

/-!
# C50: `from_reflect` succeeds exactly on values of the right shape, and builds what they show
-/

namespace Mirror

/-- C50: `T::from_reflect(&o)` is `Some(y)` exactly when `o` converts to `y` in the sense of the
specification `ConvertsTo`. -/
theorem C50_from_reflect_iff (E : Env) (hD : DeclsOK E) (T : Ty) (o y : Obj) :
    fromReflect E T o = some y ↔ ConvertsTo E T o y :=
  (convertsTo_iff hD).symm

/-- C50: ... and `None` exactly when there is no such `y`; a conversion has at most one result. -/
theorem C50_from_reflect_none_iff (E : Env) (hD : DeclsOK E) (T : Ty) (o : Obj) :
    (fromReflect E T o = none ↔ ∀ y, ¬ ConvertsTo E T o y) ∧
    (∀ y z, ConvertsTo E T o y → ConvertsTo E T o z → y = z) := by
  simp only [← C50_from_reflect_iff E hD]
  refine ⟨?_, fun y z h h' => by simpa [h] using h'⟩
  cases fromReflect E T o <;> simp

/-- C50: a value of a kind that the type is not made from is refused. -/
theorem C50_from_reflect_kind (E : Env) (T : Ty) (o : Obj) (h : ¬ T.Accepts E o.kind) :
    fromReflect E T o = none := by
  match T, h with
  | .scalar k, h =>
    cases o <;> simp [Ty.Accepts, Obj.kind] at h <;> rw [fromReflect_scalar] <;>
      simp [Obj.isTy] <;> unfold Obj.typeOf <;> split <;> simp_all
  | .nonzero k, h =>
    cases o <;> simp [Ty.Accepts, Obj.kind] at h <;> rw [fromReflect_nonzero] <;>
      simp [Obj.isTy] <;> unfold Obj.typeOf <;> split <;> simp_all
  | .named n, h =>
    cases hd : E.decl n with
    | none => exact fromReflect_nodecl hd o
    | some d =>
      obtain ⟨sh, c⟩ := d
      simp only [Ty.Accepts, hd, Option.some.injEq, exists_eq_left'] at h
      cases sh with
      | struct fds => rw [fromReflect_struct hd]; exact if_neg h
      | tupleStruct fds => rw [fromReflect_tupleStruct hd]; exact if_neg h
      | enum vds =>
        rw [fromReflect_enum hd]
        cases o <;> simp [Obj.kind, Shape.kind] at h <;> rfl
  | .tuple ts, h => rw [fromReflect_tuple]; exact if_neg h
  | .vec t, h => cases o <;> simp [Ty.Accepts, Obj.kind] at h <;> simp [fromReflect]
  | .array t n, h => cases o <;> simp [Ty.Accepts, Obj.kind] at h <;> simp [fromReflect]
  | .map kt vt, h => cases o <;> simp [Ty.Accepts, Obj.kind] at h <;> simp [fromReflect]
  | .box t, h => rw [fromReflect_box]; exact C50_from_reflect_kind E t o h
  | .value, h => exact absurd trivial h
  | .structValue, h => rw [fromReflect]; exact if_neg h
  | .tupleStructValue, h => rw [fromReflect]; exact if_neg h
  | .tupleValue, h => rw [fromReflect]; exact if_neg h
  | .enumValue, h =>
    rw [fromReflect]
    cases o <;> simp [Ty.Accepts, Obj.kind] at h <;> simp [Obj.variantKind]

/-- C50: only the declared, reflected fields of the source matter. Two sources of the same kind (for
enums: in the same variant) that agree on them convert alike, whatever the order of their fields,
their further fields and their own types. -/
theorem C50_from_reflect_reads_declared (E : Env) (n : String) (d : TyDef) (hd : E.decl n = some d)
    (o o' : Obj) (hk : o.kind = o'.kind) (hv : o.variantName = o'.variantName)
    (h : match d.shape with
      | .struct fds => SameNamed fds o o'
      | .tupleStruct fds => SamePos fds o o'
      | .enum vds => (∀ vn fds, .struct vn fds ∈ vds → o.variantName = some vn → SameNamed fds o o') ∧
          (∀ vn fds, .tuple vn fds ∈ vds → o.variantName = some vn → SamePos fds o o')) :
    fromReflect E (.named n) o = fromReflect E (.named n) o' := by
  obtain ⟨sh, c⟩ := d
  have named : ∀ fds, SameNamed fds o o' → fds.map (convNamed E c o) = fds.map (convNamed E c o') := by
    intro fds h
    refine List.map_congr_left fun fd hm => ?_
    simp only [convNamed]
    cases hs : fd.skip with
    | true => rfl
    | false => simp only [h fd hm hs]
  have pos : ∀ fds, SamePos fds o o' → fds.mapIdx (convPos E c o) = fds.mapIdx (convPos E c o') := by
    intro fds h
    refine List.ext_getElem? fun i => ?_
    simp only [List.getElem?_mapIdx]
    cases hfd : fds[i]? with
    | none => rfl
    | some fd =>
      simp only [Option.map_some, convPos]
      cases hs : fd.skip with
      | true => rfl
      | false => simp only [h i fd hfd hs]
  cases sh with
  | struct fds => rw [fromReflect_struct hd, fromReflect_struct hd, hk, named fds h]
  | tupleStruct fds => rw [fromReflect_tupleStruct hd, fromReflect_tupleStruct hd, hk, pos fds h]
  | enum vds =>
    rw [fromReflect_enum hd, fromReflect_enum hd, ← hv]
    cases ho : o.variantName with
    | none => rfl
    | some vn =>
      simp only [Option.bind_some]
      cases hf : vds.find? fun vd => decide (vd.name = vn) with
      | none => rfl
      | some vd =>
        have hm := List.mem_of_find?_eq_some hf
        have hname : vd.name = vn := by simpa using List.find?_some hf
        cases vd with
        | struct vn' fds =>
          simp only [VariantDef.name] at hname; subst hname
          simp only [Option.bind_some, named fds (h.1 _ _ hm ho)]
        | tuple vn' fds =>
          simp only [VariantDef.name] at hname; subst hname
          simp only [Option.bind_some, pos fds (h.2 _ _ hm ho)]
        | unit vn' => rfl

/-- C50: if a declared field is missing, or is there but neither of its type (for types that did not
opt out of `Clone`) nor convertible to it, the conversion fails as a whole. -/
theorem C50_from_reflect_bad_field (E : Env) (n : String) (fds : List FieldDef) (c : Bool)
    (hd : E.decl n = some ⟨.struct fds, c⟩) (o : Obj) (fd : FieldDef) (hm : fd ∈ fds)
    (hs : fd.skip = false)
    (h : ∀ v, o.field fd.name = some v →
      (c = true ∨ v.typeOf ≠ some fd.ty) ∧ fromReflect E fd.ty v = none) :
    fromReflect E (.named n) o = none := by
  rw [fromReflect_struct hd]
  split
  · cases hc : optAll (fds.map (convNamed E c o)) with
    | none => rfl
    | some fs =>
      have hf := namedFrom_iff.mp hc
      obtain ⟨i, hi⟩ := List.getElem?_of_mem hm
      have hl : fs.length = fds.length := by simpa using congrArg List.length hf.names
      obtain ⟨p, hp⟩ := align_pos hl.symm hi
      obtain ⟨v, hv, hfrom⟩ := hf.shown i fd p hi hp hs
      obtain ⟨h1, h2⟩ := h v hv
      rcases hfrom with ⟨a, b, _⟩ | ⟨_, hfr⟩
      · rcases h1 with rfl | h1
        · cases a
        · exact absurd b h1
      · simp [h2] at hfr
  · rfl

/-- Non-vacuity: a `StructValue` with the fields of `Point` in another order and one field more
converts; with a field missing or of another type, or from an enum with the same fields, it does
not. -/
example : DeclsOK demoEnv ∧
    fromReflect demoEnv (.named "Point")
      (.struct (.dyn ["z", "y", "x"]) [("x", .scalar (.int .i32 7)), ("y", .scalar (.f32 0)),
        ("z", .scalar (.bool true))]) =
      some (.struct (.derived "Point") [("x", .scalar (.int .i32 7)), ("y", .scalar (.f32 0))]) ∧
    fromReflect demoEnv (.named "Point")
      (.struct (.dyn ["y"]) [("y", .scalar (.f32 0))]) = none ∧
    fromReflect demoEnv (.named "Point")
      (.struct (.dyn ["x", "y"]) [("x", .scalar (.int .u8 7)), ("y", .scalar (.f32 0))]) = none ∧
    ¬ (Ty.named "Point").Accepts demoEnv
      (Obj.enumS (.dyn ["x", "y"]) "A" [("x", .scalar (.int .i32 7)), ("y", .scalar (.f32 0))]).kind := by
  refine ⟨demo_declsOK, ?_, ?_, ?_, ?_⟩
  · rw [fromReflect_struct (show demoEnv.decl "Point" = some ⟨.struct _, false⟩ from rfl)]; rfl
  · rw [fromReflect_struct (show demoEnv.decl "Point" = some ⟨.struct _, false⟩ from rfl)]; rfl
  · refine C50_from_reflect_bad_field demoEnv "Point" _ false rfl _
      ⟨"x", .scalar (.int .i32), false⟩ (by simp) rfl ?_
    intro v hv
    have : v = .scalar (.int .u8 7) := by simpa [Obj.field, visFields, lookup, Obj.isHidden] using hv.symm
    subst this
    exact ⟨.inr (by decide), by rw [fromReflect_scalar]; rfl⟩
  · rintro ⟨d, h, hk⟩
    cases h; cases hk

end Mirror
