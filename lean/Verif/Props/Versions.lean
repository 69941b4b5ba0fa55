import Verif.Lemmas.Versions
import Verif.Lemmas.Demo

set_option linter.unusedSimpArgs false

/-!
# C84: reading what another version of the types has written

The writer has one set of declarations, the reader another one; between them goes `x.to_value()`. `Readable` compares
the declarations. It is exactly what is needed: readable types are always read, and if the writer's types have values
at all, types that are always read are readable.
-/

namespace Mirror

/-- Whatever value the writer has, the reader gets a proper value of its type. -/
theorem C84_reads (E E' : Env) (hD : DeclsOK E) (hD' : DeclsOK E') (hO' : OrdLaws E') (t t' : Ty)
    (h : Readable E E' t t') (x : Obj) (hx : HasTy E t x) :
    ∃ y, ConvertsTo E' t' x.copied y ∧ HasTy E' t' y := by
  obtain ⟨R, h0, hR⟩ := h
  obtain ⟨y, hy⟩ := readable_reads hD hD' hR x t t' hx h0
  exact ⟨y, (convertsTo_iff hD').mpr hy, fromReflect_sound hO' t' _ ⟨_, value_any hx.copied⟩ hy⟩

/-- If all types the writer's type is made of have values: the reader can read all its values if and only if the types
are readable. -/
theorem C84_reads_iff (E E' : Env) (hD : DeclsOK E) (hD' : DeclsOK E') (t t' : Ty)
    (hi : ∀ a, Ty.Reach E t a → ∃ x, HasTy E a x) :
    (∀ x, HasTy E t x → ∃ y, ConvertsTo E' t' x.copied y) ↔ Readable E E' t t' := by
  constructor
  · intro H
    refine ⟨fun a b => Ty.Reach E t a ∧ TyReads E E' a b, ⟨.refl, fun x hx => ?_⟩, ?_⟩
    · obtain ⟨y, hy⟩ := H x hx
      exact ⟨y, (convertsTo_iff hD').mp hy⟩
    · rintro a b ⟨ha, hab⟩
      refine (reads_step hD hD' hab (hi a ha) fun c hc => hi c (.step a c ha hc)).mono ?_
      rintro c d ⟨rfl | hc, hd⟩
      · exact ⟨ha, hd⟩
      · exact ⟨.step a c ha hc, hd⟩
  · rintro ⟨R, h0, hR⟩ x hx
    obtain ⟨y, hy⟩ := readable_reads hD hD' hR x t t' hx h0
    exact ⟨y, (convertsTo_iff hD').mpr hy⟩

/-- If the declarations of the two sides correspond name by name, every type is read as the type of the same name. -/
theorem C84_same_names (E E' : Env) (t : Ty)
    (h : ∀ n, Ty.Reach E t (.named n) → ∃ d d', E.decl n = some d ∧ E'.decl n = some d' ∧ DeclReads d.shape d'.shape) :
    Readable E E' t t := by
  refine ⟨fun a b => (a = b ∨ b = .box a) ∧ Ty.Reach E t a, ⟨.inl rfl, .refl⟩, ?_⟩
  rintro a b ⟨rfl | rfl, ha⟩
  rotate_left
  · exact .box _ a ⟨.inl rfl, ha⟩
  have part : ∀ c, c ∈ a.comps E → (c = c ∨ c = .box c) ∧ Ty.Reach E t c := fun c hc => ⟨.inl rfl, .step a c ha hc⟩
  cases a with
  | scalar k => exact .scalar k
  | nonzero k => exact .nonzero k
  | tuple ts => exact .tuple _ ts ts (.typed ts) fun i t ht => ⟨t, ht, part t (List.mem_of_getElem? ht)⟩
  | vec u => exact .vec u u (part u (by simp [Ty.comps]))
  | array u n => exact .array u u n (.inr (part u (by simp [Ty.comps])))
  | map k v => exact .map k v k v (part k (by simp [Ty.comps])) (part v (by simp [Ty.comps]))
  | box u => exact .unbox u _ ⟨.inr rfl, (part u (by simp [Ty.comps])).2⟩
  | value => exact .value _
  | structValue => exact .structValue _ [] .dyn
  | tupleStructValue => exact .tupleStructValue _ [] .dyn
  | tupleValue => exact .tupleValue _ [] .dyn
  | enumValue => exact .enumValue _ .dyn
  | named n =>
    obtain ⟨⟨sh, c⟩, ⟨sh', c'⟩, hd, hd', hr⟩ := h n ha
    cases hr with
    | struct fds fds' hr =>
      refine .struct _ n fds fds' c' (.derived n fds c hd) hd' fun fd' hfd' => ?_
      obtain ⟨fd, hfd, hn, he⟩ := hr fd' hfd'
      exact ⟨fd, hfd, hn, .inl he, (part fd.ty (by rw [shownComps_struct hd]; exact List.mem_map.mpr ⟨fd, hfd, rfl⟩)).2⟩
    | tupleStruct fds fds' hr =>
      refine .tupleStruct _ n fds fds' c' (.derived n fds c hd) hd' fun i fd' hfd' hk => ?_
      obtain ⟨fd, hfd, he⟩ := hr i fd' hfd' hk
      exact ⟨fd, hfd, .inl he, (part fd.ty (by
        rw [shownComps_tupleStruct hd]; exact List.mem_map.mpr ⟨fd, List.mem_of_getElem? hfd, rfl⟩)).2⟩
    | enum vds vds' hr =>
      refine .enum n n vds vds' c c' hd hd' fun vd hv => ?_
      obtain ⟨vd', hv', he, hr⟩ := hr vd hv
      have pt : ∀ fd ∈ declShown vd.fields, Ty.Reach E t fd.ty := fun fd hfd =>
        (part _ (shownComps_enum hd hv (List.mem_map.mpr ⟨fd, hfd, rfl⟩))).2
      refine ⟨vd', hv', he, ?_⟩
      cases vd' with
      | struct _ fds' =>
        intro fd' hfd'
        obtain ⟨fd, hfd, hn, he⟩ := hr fd' hfd'
        refine ⟨fd, hfd, hn, .inl he, pt fd ?_⟩
        cases vd with
        | struct => exact hfd
        | tuple => simp [VariantDef.named, declShown] at hfd
        | unit => simp [VariantDef.named, declShown] at hfd
      | tuple _ fds' =>
        intro i fd' hfd' hk
        obtain ⟨fd, hfd, he⟩ := hr i fd' hfd' hk
        exact ⟨fd, hfd, .inl he, pt fd (List.mem_of_getElem? hfd)⟩
      | unit _ => trivial

/-- A field the reader's struct shows and the writer's does not: nothing is ever read. -/
theorem C84_missing_field (E E' : Env) (hD : DeclsOK E) (hD' : DeclsOK E') (n m : String) (fds fds' : List FieldDef)
    (c c' : Bool) (hd : E.decl n = some ⟨.struct fds, c⟩) (hd' : E'.decl m = some ⟨.struct fds', c'⟩)
    (f : String) (hf : ∃ fd' ∈ declShown fds', fd'.name = f) (hno : ∀ fd ∈ declShown fds, fd.name ≠ f)
    (x : Obj) (hx : HasTy E (.named n) x) : ¬ ∃ y, ConvertsTo E' (.named m) x.copied y := by
  rintro ⟨y, hy⟩
  obtain ⟨fd', hfd', rfl⟩ := hf
  have hr : Reads E' (.named m) x.copied := ⟨y, (convertsTo_iff hD').mp hy⟩
  obtain ⟨z, hz, -⟩ := ((reads_struct hd' (value_any hx.copied)).mp hr).2 fd' hfd'
  cases hx with
  | tupleStruct _ _ _ _ h => rw [hd] at h; cases h
  | enumS _ _ _ _ _ _ h => rw [hd] at h; cases h
  | enumT _ _ _ _ _ _ h => rw [hd] at h; cases h
  | enumU _ _ _ _ h => rw [hd] at h; cases h
  | struct _ _ _ fs hd2 h1 h2 h3 =>
    rw [hd] at hd2; cases hd2
    have hn : (fs.map (·.1)).Nodup := by rw [h1]; exact hD.struct_names _ _ _ hd
    rw [(copied_field hn _).1] at hz
    obtain ⟨w, hw, -⟩ := Option.map_eq_some_iff.mp hz
    obtain ⟨i, hi⟩ := List.getElem?_of_mem (lookup_mem hw)
    obtain ⟨hl, hs⟩ := index_of_forall2 (shown_named h1 h2 h3)
    obtain ⟨fd, hfd⟩ : ∃ fd, (declShown fds)[i]? = some fd := by
      have := (List.getElem?_eq_some_iff.mp hi).1
      exact ⟨_, List.getElem?_eq_getElem (by omega)⟩
    exact hno fd (List.mem_of_getElem? hfd) (hs i fd _ hfd hi).1.symm

/-- A tuple struct whose reader shows a declared position, counting skipped fields, beyond what the writer shows: nothing
is ever read. In particular a tuple struct with a skipped field before a shown one cannot read what it wrote itself. -/
theorem C84_too_few_positions (E E' : Env) (hD' : DeclsOK E') (n m : String) (fds fds' : List FieldDef)
    (c c' : Bool) (hd : E.decl n = some ⟨.tupleStruct fds, c⟩) (hd' : E'.decl m = some ⟨.tupleStruct fds', c'⟩)
    (i : Nat) (fd' : FieldDef) (hi : fds'[i]? = some fd') (hs : fd'.skip = false) (hno : (declShown fds).length ≤ i)
    (x : Obj) (hx : HasTy E (.named n) x) : ¬ ∃ y, ConvertsTo E' (.named m) x.copied y := by
  rintro ⟨y, hy⟩
  have hr : Reads E' (.named m) x.copied := ⟨y, (convertsTo_iff hD').mp hy⟩
  obtain ⟨z, hz, -⟩ := ((reads_tupleStruct hd' (value_any hx.copied)).mp hr).2 i fd' hi hs
  cases hx with
  | struct _ _ _ _ h => rw [hd] at h; cases h
  | enumS _ _ _ _ _ _ h => rw [hd] at h; cases h
  | enumT _ _ _ _ _ _ h => rw [hd] at h; cases h
  | enumU _ _ _ _ h => rw [hd] at h; cases h
  | tupleStruct _ _ _ fs hd2 h1 h2 h3 =>
    rw [hd] at hd2; cases hd2
    rw [copied_tupleStruct, Obj.fieldAt, visAt_copied] at hz
    obtain ⟨w, hw, -⟩ := Option.map_eq_some_iff.mp hz
    have hl := (index_of_forall2 (shown_pos h1 h2 h3)).1
    have := (List.getElem?_eq_some_iff.mp hw).1
    omega

/-- A variant the reader does not have: its values are never read. -/
theorem C84_unknown_variant (E E' : Env) (hD' : DeclsOK E') (n m : String) (vds' : List VariantDef) (c' : Bool)
    (hd' : E'.decl m = some ⟨.enum vds', c'⟩) (x : Obj) (hx : HasTy E (.named n) x)
    (hno : ∀ vd' ∈ vds', x.variantName ≠ some vd'.name) : ¬ ∃ y, ConvertsTo E' (.named m) x.copied y := by
  rintro ⟨y, hy⟩
  have hr : Reads E' (.named m) x.copied := ⟨y, (convertsTo_iff hD').mp hy⟩
  obtain ⟨vd', hv', hn, -⟩ := (reads_enum hD' hd' (value_any hx.copied)).mp hr
  rw [copied_variantName] at hn
  exact hno vd' hv' hn

/-! ## Not vacuous -/

/-- An older version of the demo types: `Point` had only `y`, `Tree` had no `names`, an ordinary `u8` and its fields in
another order, `Pair` no skipped field, and in `Shape` `Circle` was a tuple variant, `Rect` had one field only, and
there was one more variant. -/
def oldDecl : String → Option TyDef
  | "Point" => some ⟨.struct [⟨"y", .scalar .f32, false⟩], false⟩
  | "Tree" => some ⟨.struct [⟨"kids", .vec (.named "Tree"), false⟩, ⟨"val", .scalar (.int .u8), false⟩], false⟩
  | "Pair" => some ⟨.tupleStruct [⟨"", .box (.scalar (.int .i32)), false⟩], false⟩
  | "Shape" => some ⟨.enum [.tuple "Circle" [⟨"", .scalar .f32, false⟩],
      .tuple "Rect" [⟨"", .scalar (.int .i32), false⟩], .unit "Empty", .unit "Square"], true⟩
  | _ => none

/-- The environment of the older version. -/
def oldEnv : Env := valueOrdEnv oldDecl

theorem old_declsOK : DeclsOK oldEnv where
  struct_names n fds c h := by
    simp only [oldEnv, valueOrdEnv, oldDecl] at h
    split at h <;> simp at h <;> (obtain ⟨rfl, _⟩ := h; decide)
  variant_names n vds c h := by
    simp only [oldEnv, valueOrdEnv, oldDecl] at h
    split at h <;> simp at h <;> (obtain ⟨rfl, _⟩ := h; decide)
  variant_fields n vds c vn fds h hv := by
    simp only [oldEnv, valueOrdEnv, oldDecl] at h
    split at h <;> simp at h <;> (obtain ⟨rfl, _⟩ := h; simp at hv)

theorem old_ordLaws : OrdLaws oldEnv := valueOrdEnv_ordLaws _

/-- The recursive type: an older program reads every tree a newer one writes. -/
theorem tree_readable : Readable demoEnv oldEnv (.named "Tree") (.named "Tree") := by
  refine ⟨fun a b => (a = .named "Tree" ∧ b = .named "Tree") ∨ (a = .vec (.named "Tree") ∧ b = .vec (.named "Tree")) ∨
    (a = .nonzero .u8 ∧ b = .scalar (.int .u8)), .inl ⟨rfl, rfl⟩, ?_⟩
  rintro a b (⟨rfl, rfl⟩ | ⟨rfl, rfl⟩ | ⟨rfl, rfl⟩)
  · refine .struct _ "Tree" _ _ false (.derived "Tree" _ false rfl) rfl ?_
    simp [NamedReads, declShown]
  · exact .vec _ _ (.inl ⟨rfl, rfl⟩)
  · exact .nonzeroInt _

theorem shape_readable : Readable demoEnv oldEnv (.named "Shape") (.named "Shape") := by
  refine ⟨fun a b => (a = .named "Shape" ∧ b = .named "Shape") ∨ (a = .scalar .f32 ∧ b = .scalar .f32) ∨
    (a = .scalar (.int .i32) ∧ b = .scalar (.int .i32)), .inl ⟨rfl, rfl⟩, ?_⟩
  rintro a b (⟨rfl, rfl⟩ | ⟨rfl, rfl⟩ | ⟨rfl, rfl⟩)
  · refine .enum "Shape" "Shape" _ _ false true rfl rfl ?_
    simp only [List.mem_cons, List.not_mem_nil, or_false, forall_eq_or_imp, forall_eq]
    refine ⟨⟨_, .inl rfl, rfl, ?_⟩, ⟨_, .inr (.inl rfl), rfl, ?_⟩, ⟨_, .inr (.inr (.inl rfl)), rfl, trivial⟩⟩
    · intro i fd' h hs
      match i with
      | 0 => simp at h; subst h; exact ⟨_, rfl, by simp⟩
      | i + 1 => simp at h
    · intro i fd' h hs
      match i with
      | 0 => simp at h; subst h; exact ⟨_, rfl, by simp⟩
      | i + 1 => simp at h
  · exact .scalar _
  · exact .scalar _

-- C84_reads: a recursive type with dropped, reordered and retyped fields; a concrete tree is read
example : ∃ y, ConvertsTo oldEnv (.named "Tree") demoTree.copied y ∧ HasTy oldEnv (.named "Tree") y :=
  C84_reads demoEnv oldEnv demo_declsOK old_declsOK old_ordLaws _ _ tree_readable _ demoTree_hasTy

example : ∃ y, ConvertsTo oldEnv (.named "Shape") demoShape.copied y ∧ HasTy oldEnv (.named "Shape") y :=
  C84_reads demoEnv oldEnv demo_declsOK old_declsOK old_ordLaws _ _ shape_readable _ demoShape_hasTy

-- C84_reads_iff: all types `Tree` is made of have values
example : (∀ x, HasTy demoEnv (.named "Tree") x → ∃ y, ConvertsTo oldEnv (.named "Tree") x.copied y) ↔
    Readable demoEnv oldEnv (.named "Tree") (.named "Tree") := by
  refine C84_reads_iff demoEnv oldEnv demo_declsOK old_declsOK _ _ ?_
  intro a ha
  have : a ∈ [Ty.named "Tree", .nonzero .u8, .vec (.named "Tree"), .map (.scalar .string) (.scalar (.int .u8)),
      .scalar .string, .scalar (.int .u8)] := by
    induction ha with
    | refl => simp
    | step u v _ hv ih =>
      simp at ih
      rcases ih with rfl | rfl | rfl | rfl | rfl | rfl <;>
        simp [Ty.comps, demoEnv, valueOrdEnv, demoDecl] at hv ⊢ <;> grind
  simp at this
  rcases this with rfl | rfl | rfl | rfl | rfl | rfl
  · exact ⟨_, demoTree_hasTy⟩
  · exact ⟨_, .nonzero .u8 1 (by decide)⟩
  · exact ⟨_, .vec _ [] (by simp)⟩
  · exact ⟨_, .map _ _ [] (by simp [BMSorted]) (by simp) (by simp)⟩
  · exact ⟨_, .scalar (.string "a")⟩
  · exact ⟨_, .scalar (.int .u8 1)⟩

-- and the other direction is not readable: an old tree is never read by the newer program, which wants `names`
example : ∀ x, HasTy oldEnv (.named "Tree") x → ¬ ∃ y, ConvertsTo demoEnv (.named "Tree") x.copied y :=
  C84_missing_field oldEnv demoEnv old_declsOK demo_declsOK "Tree" "Tree" _ _ _ _ rfl rfl "names"
    ⟨⟨"names", .map (.scalar .string) (.scalar (.int .u8)), false⟩, by simp [declShown], rfl⟩ (by simp [declShown])

example : ∃ x, HasTy oldEnv (.named "Tree") x := by
  obtain ⟨y, -, hy⟩ := C84_reads demoEnv oldEnv demo_declsOK old_declsOK old_ordLaws _ _ tree_readable _ demoTree_hasTy
  exact ⟨y, hy⟩

-- C84_unknown_variant: an old `Square` means nothing to the newer program
example : ¬ ∃ y, ConvertsTo demoEnv (.named "Shape") (Obj.enumU (.derived "Shape") "Square").copied y :=
  C84_unknown_variant oldEnv demoEnv demo_declsOK "Shape" "Shape" _ _ rfl _
    (.enumU "Shape" _ true "Square" rfl (by simp)) (by simp [Obj.variantName, VariantDef.name])

-- C84_same_names
example : Readable demoEnv oldEnv (.named "Point") (.named "Point") := by
  refine C84_same_names demoEnv oldEnv _ fun n hn => ?_
  have : (Ty.named n) ∈ [Ty.named "Point", .scalar (.int .i32), .scalar .f32] := by
    generalize Ty.named n = a at hn
    induction hn with
    | refl => simp
    | step u v _ hv ih =>
      simp at ih
      rcases ih with rfl | rfl | rfl <;> simp [Ty.comps, demoEnv, valueOrdEnv, demoDecl] at hv ⊢ <;> grind
  simp at this
  subst this
  refine ⟨_, _, rfl, rfl, .struct _ _ ?_⟩
  simp [NamedReads, declShown]

/-- `struct Gap(#[reflect(skip)] bool, i32)`. -/
def gapDecl : String → Option TyDef
  | "Gap" => some ⟨.tupleStruct [⟨"", .scalar .bool, true⟩, ⟨"", .scalar (.int .i32), false⟩], false⟩
  | _ => none

-- C84_too_few_positions: `Gap` cannot read itself
example (x : Obj) (hx : HasTy (valueOrdEnv gapDecl) (.named "Gap") x) :
    ¬ ∃ y, ConvertsTo (valueOrdEnv gapDecl) (.named "Gap") x.copied y :=
  C84_too_few_positions _ _ ⟨fun n fds c h => by simp only [valueOrdEnv, gapDecl] at h; split at h <;> simp at h,
    fun n fds c h => by simp only [valueOrdEnv, gapDecl] at h; split at h <;> simp at h,
    fun n vds c vn fds h => by simp only [valueOrdEnv, gapDecl] at h; split at h <;> simp at h⟩
    "Gap" "Gap" _ _ _ _ rfl rfl 1 _ rfl rfl (by simp [declShown]) x hx

example : HasTy (valueOrdEnv gapDecl) (.named "Gap") (.tupleStruct (.derived "Gap") [.hidden 0, .scalar (.int .i32 3)]) := by
  refine .tupleStruct "Gap" _ false _ rfl rfl ?_ ?_
  · intro i fd x h hx hs
    match i with
    | 0 => simp at hx; subst hx; rfl
    | 1 => simp at h; subst h; simp at hs
    | i + 2 => simp at h
  · intro i fd x h hx hs
    match i with
    | 0 => simp at h; subst h; simp at hs
    | 1 => simp at h hx; subst h hx; exact .scalar (.int .i32 3)
    | i + 2 => simp at h

end Mirror
