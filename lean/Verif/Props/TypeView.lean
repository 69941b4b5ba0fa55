import Verif.Props.TypeInfo
import Verif.Spec.TypeView
import Verif.Props.Extract
import Verif.Lemmas.Align

set_option linter.unusedSimpArgs false

/-!
# The views of a type (C60, C61)
-/

namespace Mirror

variable {E : Env}

theorem TypeView.new_isSome {g : TypeGraph} {i : Ty} {n} (h : g.node i = some n) :
    ∃ v, TypeView.new g i = some v := by
  unfold TypeView.new
  rw [h]
  cases n <;> simp

/-- The named fields of a node that describes them. -/
theorem named_shown {R : Ty → TypeView → Prop} {g : TypeGraph} {fds : List FieldDef} {names fields}
    (hn : (fds.map (·.name)).Nodup)
    (hf : namedTypes names fields =
      ((fds.filter fun fd => !fd.skip).map fun fd => (fd.name, some fd.ty.unbox)))
    (hl : fields.length = (fds.filter fun fd => !fd.skip).length)
    (hs : BMSorted strCmp fields)
    (hR : ∀ fd ∈ viewedFields fds, ∃ v, TypeView.new g fd.ty.unbox = some v ∧ R fd.ty v) :
    NamedFieldsShown R fds
      (names.map fun n => (bmGet strCmp n fields).map fun id => (⟨n, id, g⟩ : NamedField)) fields.length
      (fun n => (bmGet strCmp n fields).map fun id => ⟨n, id, g⟩)
      (fun i => names[i]?.bind fun n => (bmGet strCmp n fields).map fun id => ⟨n, id, g⟩) := by
  have hmap : (names.map fun n => (bmGet strCmp n fields).map fun id => (⟨n, id, g⟩ : NamedField)) =
      ((viewedFields fds).map fun fd => (⟨fd.name, fd.ty.unbox, g⟩ : NamedField)).map some := by
    have : (names.map fun n => (bmGet strCmp n fields).map fun id => (⟨n, id, g⟩ : NamedField)) =
        (namedTypes names fields).map fun p => p.2.map fun id => (⟨p.1, id, g⟩ : NamedField) := by
      simp [namedTypes, List.map_map, Function.comp_def]
    rw [this, hf]
    simp [viewedFields, List.map_map, Function.comp_def]
  refine ⟨⟨_, hmap, ?_⟩, by rw [hl]; rfl, ?_, ?_⟩
  · rw [List.forall₂_map_right_iff]
    exact List.forall₂_same.mpr fun fd hfd => ⟨rfl, hR fd hfd⟩
  · intro i
    simp only [List.getElem?_map]
    cases names[i]? <;> simp
  · intro n f
    rw [hmap]
    have key := fun u => namedType_iff hn hf hl hs (n := n) (u := u)
    simp only [namedType] at key
    constructor
    · intro h
      obtain ⟨u, hu, rfl⟩ := Option.map_eq_some_iff.mp h
      obtain ⟨fd, hfd, rfl, rfl⟩ := (key u).mp hu
      exact ⟨List.mem_map_of_mem (List.mem_map.mpr ⟨fd, hfd, rfl⟩), rfl⟩
    · rintro ⟨h, rfl⟩
      simp only [List.mem_map, Option.some.injEq, exists_eq_right] at h
      obtain ⟨fd, hfd, rfl⟩ := h
      exact Option.map_eq_some_iff.mpr ⟨_, (key _).mpr ⟨fd, hfd, rfl, rfl⟩, rfl⟩

theorem pos_shown {R : Ty → TypeView → Prop} {g : TypeGraph} {us : List Ty}
    (hR : ∀ u ∈ us, ∃ v, TypeView.new g u.unbox = some v ∧ R u v) :
    PosFieldsShown R us ((us.map Ty.unbox).map fun id => (⟨id, g⟩ : UnnamedField)) (us.map Ty.unbox).length
      (fun i => (us.map Ty.unbox)[i]?.map fun id => ⟨id, g⟩) := by
  refine ⟨?_, by simp, fun i => by simp⟩
  rw [List.forall₂_map_right_iff, List.forall₂_map_right_iff]
  exact List.forall₂_same.mpr fun u hu => hR u hu

theorem pos_shown_fields {R : Ty → TypeView → Prop} {g : TypeGraph} {fds : List FieldDef}
    (hR : ∀ fd ∈ viewedFields fds, ∃ v, TypeView.new g fd.ty.unbox = some v ∧ R fd.ty v) :
    PosFieldsShown R ((viewedFields fds).map (·.ty))
      (((fds.filter fun fd => !fd.skip).map fun fd => fd.ty.unbox).map fun id => (⟨id, g⟩ : UnnamedField))
      ((fds.filter fun fd => !fd.skip).map fun fd => fd.ty.unbox).length
      (fun i => ((fds.filter fun fd => !fd.skip).map fun fd => fd.ty.unbox)[i]?.map fun id => ⟨id, g⟩) := by
  have := pos_shown (R := R) (g := g) (us := (viewedFields fds).map (·.ty)) (by
    intro u hu
    obtain ⟨fd, hfd, rfl⟩ := List.mem_map.mp hu
    exact hR fd hfd)
  have he : ((viewedFields fds).map (·.ty)).map Ty.unbox =
      (fds.filter fun fd => !fd.skip).map fun fd => fd.ty.unbox := by
    rw [List.map_map]; rfl
  rw [he] at this
  exact this

theorem variant_shown_struct {R : Ty → TypeView → Prop} {fds : List FieldDef} {s : StructVariant}
    (h : NamedFieldsShown R fds s.fieldTypes s.fieldsLen s.fieldType s.fieldTypeAt) :
    VariantFieldsShown R true fds (.struct s) := by
  obtain ⟨⟨fs, h1, h2⟩, h3, h4, h5⟩ := h
  refine ⟨⟨fs.map .named, ?_, ?_⟩, h3, ?_, ?_⟩
  · simp [VariantView.fieldTypes, h1]
  · rw [List.forall₂_map_right_iff]
    exact h2.imp fun fd f hf => ⟨by simp [VariantField.name, hf.1], hf.2⟩
  · intro i
    simp only [VariantView.fieldTypeAt, VariantView.fieldTypes, h4, List.getElem?_map]
    cases s.fieldTypes[i]? <;> simp
  · intro n f
    rw [VariantView.fieldType, h5, VariantView.fieldTypes]
    simp [List.mem_map]

theorem variant_shown_tuple {R : Ty → TypeView → Prop} {fds : List FieldDef} {s : TupleVariant}
    (h : PosFieldsShown R ((viewedFields fds).map (·.ty)) s.fieldTypes s.fieldsLen s.fieldTypeAt) :
    VariantFieldsShown R false fds (.tuple s) := by
  obtain ⟨h1, h3, h4⟩ := h
  refine ⟨⟨s.fieldTypes.map .unnamed, ?_, ?_⟩, by rw [List.length_map] at h3; exact h3, ?_, ?_⟩
  · simp [VariantView.fieldTypes]
  · rw [List.forall₂_map_right_iff]
    rw [List.forall₂_map_left_iff] at h1
    exact h1.imp fun fd f hf => ⟨rfl, hf⟩
  · intro i
    simp only [VariantView.fieldTypeAt, VariantView.fieldTypes, h4, List.getElem?_map]
    cases s.fieldTypes[i]? <;> simp
  · intro n f
    simp [VariantView.fieldType, VariantView.fieldTypes]

theorem variant_shown_unit {R : Ty → TypeView → Prop} {s : UnitVariant} :
    VariantFieldsShown R false [] (.unit s) :=
  ⟨⟨[], rfl, .nil⟩, rfl, fun i => by simp [VariantView.fieldTypeAt, VariantView.fieldTypes],
    fun n f => by simp [VariantView.fieldType, VariantView.fieldTypes]⟩

theorem find_iff_of_nodup {α} {l : List α} {f : α → String} (hn : (l.map f).Nodup) {n : String} {w : α} :
    l.find? (fun v => f v = n) = some w ↔ w ∈ l ∧ f w = n := by
  induction l with
  | nil => simp
  | cons a l ih =>
    simp only [List.map_cons, List.nodup_cons] at hn
    by_cases ha : f a = n
    · rw [List.find?_cons_of_pos (by simpa using ha)]
      constructor
      · rintro ⟨rfl⟩; exact ⟨by simp, ha⟩
      · rintro ⟨h, hw⟩
        rcases List.mem_cons.mp h with rfl | h
        · rfl
        · exact absurd (List.mem_map.mpr ⟨w, h, by rw [hw, ha]⟩) hn.1
    · rw [List.find?_cons_of_neg (by simpa using ha), ih hn.2]
      constructor
      · rintro ⟨h, hw⟩; exact ⟨by simp [h], hw⟩
      · rintro ⟨h, hw⟩
        rcases List.mem_cons.mp h with rfl | h
        · exact absurd hw ha
        · exact ⟨h, hw⟩

/-! ## C60: views show the declaration -/

/-- The views of the types found in a descriptor of `t`. -/
def ViewIn (E : Env) (t : Ty) (d : TypeDescriptor) (u : Ty) (v : TypeView) : Prop :=
  t.Reach E u ∧ TypeView.new d.graph u.unbox = some v

/-- C60. Starting with `T::type_descriptor().get_type()`, and going from view to view with any of the
accessors, every view shows the declaration of the type it is a view of, as specified by `Shows`: the kind,
the name, the fields and variants in order, by position and by name, the numbers of them. No accessor
panics. -/
theorem C60_views (hD : DeclsOK E) (N : Ty → String) {fuel t d} (h : describe E fuel t = some d) :
    ViewsCorrect E N (ViewIn E t d) ∧ ∃ v, d.getType = some v ∧ ViewIn E t d t v := by
  have hroot := descriptor_root hD h
  have hview : ∀ u, t.Reach E u → ∃ v, TypeView.new d.graph u.unbox = some v := fun u hu => by
    obtain ⟨n, hn⟩ := descriptor_closed hD h (descriptor_complete hD h hu)
    exact TypeView.new_isSome hn
  have hR : ∀ u w, t.Reach E u → w ∈ u.comps E → ∃ v, TypeView.new d.graph w.unbox = some v ∧
      ViewIn E t d w v := fun u w hu hw => by
    obtain ⟨v, hv⟩ := hview w (.step _ _ hu hw)
    exact ⟨v, hv, .step _ _ hu hw, hv⟩
  refine ⟨?_, ?_⟩
  · rintro u v ⟨hu, hv⟩
    have hu' : t.Reach E u.unbox := hu.trans (reach_unbox u)
    have hnav := descriptor_complete hD h hu
    obtain ⟨n, hn⟩ := descriptor_closed hD h hnav
    have hdesc := (descriptor_describes hD h hnav hn).1
    generalize u.unbox = i at hu' hv hnav hn hdesc
    have hR := fun w => hR i w hu'
    have hvar : ∀ n vds c vs, i = .named n → E.decl n = some ⟨.enum vds, c⟩ → vs.length = vds.length →
        (∀ (i : Nat) vd v, vds[i]? = some vd → vs[i]? = some v → DescribesVariant vd v) →
        List.Forall₂ (VariantShown (ViewIn E t d) N i ⟨i, vs, d.graph⟩) vds
          (EnumType.variantViews ⟨i, vs, d.graph⟩) := by
      intro n vds c vs hin hdecl hlen hvs
      rw [EnumType.variantViews, List.forall₂_map_right_iff, List.forall₂_iff_get]
      refine ⟨hlen.symm, fun j hj hj' => ?_⟩
      have hj'' : j < vs.length := hj'
      have hdv := hvs j _ _ (List.getElem?_eq_getElem hj) (List.getElem?_eq_getElem hj'')
      have hmem : vds[j] ∈ vds := List.getElem_mem hj
      simp only [List.get_eq_getElem]
      subst hin
      have hcomp : ∀ w ∈ variantComps vds[j], w ∈ (Ty.named n).comps E := by
        intro w hw
        simp only [Ty.comps, hdecl, List.mem_flatMap]
        exact ⟨_, hmem, hw⟩
      revert hdv hcomp hmem
      generalize vds[j] = vd
      generalize vs[j] = vn
      intro hdv hmem hcomp
      cases hdv with
      | struct n' fds names fields h1 h2 h3 =>
        have key := named_shown (R := ViewIn E t d) (g := d.graph)
          (hD.variant_fields _ _ _ _ _ hdecl hmem) h1 h2 h3
          fun fd hfd => hR _ (hcomp _ (List.mem_map.mpr ⟨fd, hfd, rfl⟩))
        exact ⟨rfl, rfl, rfl, variant_shown_struct key, _, rfl, key⟩
      | tuple n' fds =>
        have key := pos_shown_fields (R := ViewIn E t d) (g := d.graph) (fds := fds)
          fun fd hfd => hR _ (hcomp _ (List.mem_map.mpr ⟨fd, hfd, rfl⟩))
        exact ⟨rfl, rfl, rfl, variant_shown_tuple key, _, rfl, key⟩
      | unit n' => exact ⟨rfl, rfl, rfl, variant_shown_unit, _, rfl⟩
    cases hdesc with
    | struct n fds c names fields hd h1 h2 h3 =>
      simp only [TypeView.new, hn, Option.some.injEq] at hv; subst hv
      refine ⟨rfl, ?_⟩
      simp only [hd]
      refine ⟨_, rfl, named_shown (hD.struct_names _ _ _ hd) h1 h2 h3 fun fd hfd => hR _ ?_⟩
      simp only [Ty.comps, hd]
      exact List.mem_map.mpr ⟨fd, hfd, rfl⟩
    | tupleStruct n fds c hd =>
      simp only [TypeView.new, hn, Option.some.injEq] at hv; subst hv
      refine ⟨rfl, ?_⟩
      simp only [hd]
      exact ⟨_, rfl, pos_shown_fields fun fd hfd => hR _ (by
        simp only [Ty.comps, hd]; exact List.mem_map.mpr ⟨fd, hfd, rfl⟩)⟩
    | enum n vds c vs hd hlen hvs =>
      simp only [TypeView.new, hn, Option.some.injEq] at hv; subst hv
      refine ⟨rfl, ?_⟩
      simp only [hd]
      have hall := hvar _ _ _ _ rfl hd hlen hvs
      refine ⟨_, rfl, hlen, hall, fun m w => find_iff_of_nodup ?_⟩
      have hnames : ∀ (l : List VariantDef) (l' : List VariantView) e,
          List.Forall₂ (VariantShown (ViewIn E t d) N (.named n) e) l l' →
          l'.map VariantView.name = l.map VariantDef.name := by
        intro l l' e hl
        induction hl with
        | nil => rfl
        | cons h _ ih => simp [ih, h.2.2.1]
      rw [hnames _ _ _ hall]
      exact hD.variant_names _ _ _ hd
    | tuple us =>
      simp only [TypeView.new, hn, Option.some.injEq] at hv; subst hv
      refine ⟨rfl, _, rfl, ?_⟩
      exact pos_shown fun w hw => hR _ hw
    | vec w =>
      simp only [TypeView.new, hn, Option.some.injEq] at hv; subst hv
      exact ⟨rfl, _, rfl, hR _ (by simp [Ty.comps])⟩
    | array w k =>
      simp only [TypeView.new, hn, Option.some.injEq] at hv; subst hv
      exact ⟨rfl, _, rfl, rfl, by simp [ArrayType.isEmpty], hR _ (by simp [Ty.comps])⟩
    | map k w =>
      simp only [TypeView.new, hn, Option.some.injEq] at hv; subst hv
      exact ⟨rfl, _, rfl, hR _ (by simp [Ty.comps]), hR _ (by simp [Ty.comps])⟩
    | _ =>
      simp only [TypeView.new, hn, Option.some.injEq] at hv; subst hv
      exact ⟨rfl, rfl⟩
  · obtain ⟨v, hv⟩ := hview t .refl
    exact ⟨v, by rw [TypeDescriptor.getType, hroot]; exact hv, .refl, hv⟩

/-- C60. Exactly one of the nine `as_*` of a view is `Some`. -/
theorem C60_one_kind (v : TypeView) : v.kinds = 1 := by
  cases v <;> rfl

/-- C60. `into_type_descriptor` of a view is the descriptor of the part of C56. -/
theorem C60_into_descriptor {g : TypeGraph} {i : Ty} {v} (h : TypeView.new g i = some v) :
    v.intoTypeDescriptor E = intoDescriptor E g i := by
  unfold TypeView.new at h
  unfold intoDescriptor
  cases hn : g.node i with
  | none => simp [hn] at h
  | some n => cases n <;> simp only [hn, Option.some.injEq] at h <;> subst h <;> rfl

/-! ## C61: equality -/

theorem describe_unbox_same : ∀ (fuel : Nat) (t : Ty) (d), describe E fuel t = some d →
    describe E fuel t.unbox = some d := by
  intro fuel
  induction fuel with
  | zero => intro t d h; simp [describe, build] at h
  | succ fuel ih =>
    intro t d h
    by_cases hb : ∃ w, t = .box w
    · obtain ⟨w, rfl⟩ := hb
      have h' : describe E fuel w = some d := h
      exact describe_mono (Nat.le_succ _) (ih w d h')
    · have hub : t.unbox = t := by rw [Ty.unbox]; exact fun c hc => hb ⟨c, hc⟩
      rw [hub]; exact h

/-- C61. `==` between type descriptors decides equality of types, up to boxes. -/
theorem C61_descriptors_equal_iff (hD : DeclsOK E) {fuel fuel' t u d e} (h : describe E fuel t = some d)
    (h' : describe E fuel' u = some e) : d = e ↔ t.unbox = u.unbox := by
  constructor
  · intro he
    rw [← descriptor_root hD h, ← descriptor_root hD h', he]
  · intro he
    have a := describe_unbox_same _ _ _ h
    have b := describe_unbox_same _ _ _ h'
    rw [← he] at b
    exact descriptor_deterministic a b

/-- The graphs of two descriptors are equal exactly if the types contain each other. -/
theorem graph_equal_iff (hD : DeclsOK E) {fuel fuel' t u d e} (h : describe E fuel t = some d)
    (h' : describe E fuel' u = some e) : d.graph = e.graph ↔ t.Reach E u.unbox ∧ u.Reach E t.unbox := by
  have h1 := describe_unbox_same _ _ _ h
  have h1' := describe_unbox_same _ _ _ h'
  obtain ⟨hr, hp, _, hg⟩ := describe_good hD h1
  obtain ⟨hr', hp', _, hg'⟩ := describe_good hD h1'
  rw [unbox_unbox] at hr hr'
  constructor
  · intro he
    constructor
    · have : d.graph u.unbox ≠ none := by rw [he, ← hr']; exact hp'
      obtain ⟨⟨v, hv, hv'⟩, _⟩ := hg _ this
      rw [hv']
      exact ((reach_unbox t).trans hv).trans (reach_unbox v)
    · have : e.graph t.unbox ≠ none := by rw [← he, ← hr]; exact hp
      obtain ⟨⟨v, hv, hv'⟩, _⟩ := hg' _ this
      rw [hv']
      exact ((reach_unbox u).trans hv).trans (reach_unbox v)
  · rintro ⟨htu, hut⟩
    funext j
    have key : d.graph j ≠ none ↔ e.graph j ≠ none := by
      constructor
      · intro hj
        obtain ⟨⟨v, hv, rfl⟩, -⟩ := hg j hj
        exact describe_complete hD h' (hut.trans hv)
      · intro hj
        obtain ⟨⟨v, hv, rfl⟩, _⟩ := hg' j hj
        exact describe_complete hD h (htu.trans hv)
    by_cases hj : d.graph j = none
    · rw [hj]
      by_contra hc
      exact (key.mpr (Ne.symm hc)) hj
    · obtain ⟨_, _, m, hm, hdm, _⟩ := hg j hj
      obtain ⟨_, _, m', hm', hdm', _⟩ := hg' j (key.mp hj)
      exact hm.trans ((congrArg (some ∘ some) (hdm.unique hD hdm')).trans hm'.symm)

/-- C61. `==` between views of one type found in two descriptors, of `t` and `u`: they are equal exactly if
it is a scalar type, or if `t` and `u` contain each other. -/
theorem C61_views_equal_iff (hD : DeclsOK E) {fuel fuel' t u d e} (h : describe E fuel t = some d)
    (h' : describe E fuel' u = some e) {w v v'} (hv : ViewIn E t d w v) (hv' : ViewIn E u e w v') :
    v = v' ↔ (∃ k, w.unbox = .scalar k) ∨ t.Reach E u.unbox ∧ u.Reach E t.unbox := by
  rw [← graph_equal_iff hD h h']
  have hnav := descriptor_complete hD h hv.1
  have hnav' := descriptor_complete hD h' hv'.1
  obtain ⟨n, hn⟩ := descriptor_closed hD h hnav
  have hdesc := (descriptor_describes hD h hnav hn).1
  have hsame := descriptor_independent hD h h' hnav hnav'
  have hn' : e.graph.node w.unbox = some n := hsame.symm.trans hn
  have hv1 := hv.2
  have hv2 := hv'.2
  unfold TypeView.new at hv1 hv2
  rw [hn] at hv1
  rw [hn'] at hv2
  cases n with
  | scalar k =>
    have hw : w.unbox = .scalar k := by
      revert hdesc
      generalize w.unbox = i
      intro hdesc
      cases hdesc; rfl
    simp only [Option.some.injEq] at hv1 hv2
    subst hv1 hv2
    exact ⟨fun _ => .inl ⟨k, hw⟩, fun _ => rfl⟩
  | _ =>
    have hw : ¬ ∃ k, w.unbox = .scalar k := by
      rintro ⟨k, hk⟩; rw [hk] at hdesc; cases hdesc
    simp only [Option.some.injEq] at hv1 hv2
    subst hv1 hv2
    simp [hw]

/-- C61 fails for views: the field type `Point` of `(Point, u8)` is not `==` to `Point::type_descriptor()`'s
type. -/
theorem C61_views_differ : ∃ (E : Env), DeclsOK E ∧ ∃ t w d e v v', describe E 10 t = some d ∧
    describe E 10 w = some e ∧ ViewIn E t d w v ∧ e.getType = some v' ∧ v ≠ v' := by
  refine ⟨demoEnv, demo_declsOK, .tuple [.named "Point", .scalar (.int .u8)], .named "Point", ?_⟩
  have hd : ∃ d, describe demoEnv 10 (.tuple [.named "Point", .scalar (.int .u8)]) = some d := ⟨_, rfl⟩
  obtain ⟨d, hd⟩ := hd
  have he : ∃ e, describe demoEnv 10 (.named "Point") = some e := ⟨_, rfl⟩
  obtain ⟨e, he⟩ := he
  have hr : Ty.Reach demoEnv (.tuple [.named "Point", .scalar (.int .u8)]) (.named "Point") :=
    .step _ _ .refl (by decide)
  obtain ⟨n, hn⟩ := descriptor_closed demo_declsOK hd (descriptor_complete demo_declsOK hd hr)
  obtain ⟨v, hv⟩ := TypeView.new_isSome hn
  obtain ⟨-, v', hv', hv''⟩ := C60_views demo_declsOK (fun _ => "") he
  refine ⟨d, e, v, v', hd, he, ⟨hr, hv⟩, hv', ?_⟩
  intro heq
  rcases (C61_views_equal_iff demo_declsOK hd he ⟨hr, hv⟩ hv'').mp heq with ⟨k, hk⟩ | ⟨-, h⟩
  · cases hk
  · have key : ∀ u, (Ty.named "Point").Reach demoEnv u → u ∈
        [Ty.named "Point", .scalar (.int .i32), .scalar .f32] := by
      intro u hu
      induction hu with
      | refl => simp
      | step a b _ hb ih =>
        have : ∀ a ∈ [Ty.named "Point", .scalar (.int .i32), .scalar .f32],
            ∀ b ∈ a.comps demoEnv, b ∈ [Ty.named "Point", .scalar (.int .i32), .scalar .f32] := by decide
        exact this a ih b hb
    have := key _ h
    revert this
    decide

/-! ## C60: paths -/

/-- C60. `type_at` starting from any view of a type is `type_at` on the type's own descriptor. -/
theorem C60_type_at (hD : DeclsOK E) {fuel fuel' t u d e v} (h : describe E fuel t = some d)
    (h' : describe E fuel' u = some e) (hv : ViewIn E t d u v) (p : KeyPath) :
    v.atPath.typeAt d.graph p = e.typeAt p := by
  have hnav := descriptor_complete hD h hv.1
  obtain ⟨n, hn⟩ := descriptor_closed hD h hnav
  have hdesc := (descriptor_describes hD h hnav hn).1
  obtain ⟨hr, ha⟩ := part_agree hD h hnav (describe_unbox_same _ _ _ h')
  have hat : TypeAt.new d.graph u.unbox = some v.atPath := by
    have hv1 := hv.2
    revert hdesc hv1 hn
    generalize u.unbox = i
    intro hn hdesc hv1
    unfold TypeView.new at hv1
    unfold TypeAt.new
    rw [hn] at hv1 ⊢
    cases n with
    | scalar k => cases hdesc; simp only [Option.some.injEq] at hv1; subst hv1; rfl
    | _ => simp only [Option.some.injEq] at hv1; subst hv1; rfl
  have key := typeAt_agree ha .root p
  rw [← hr] at key
  obtain ⟨r, g⟩ := e
  simp only at hr
  subst hr
  rw [← key]
  simp only [TypeDescriptor.typeAt]
  rw [hat]

/-! ## C60: examples -/

/-- `Tree` and its views: `kids` comes second, is a list, and its elements are `Tree`s again. -/
example : ∃ d v s f l, describe demoEnv 10 (.named "Tree") = some d ∧ d.getType = some v ∧
    v.asStruct = some s ∧ s.fieldTypeAt 1 = some f ∧ f.name = "kids" ∧
    (f.getType.bind TypeView.asList) = some l ∧ (l.elementType.bind TypeView.asStruct).isSome := by
  refine ⟨_, _, _, _, _, rfl, rfl, rfl, rfl, rfl, rfl, rfl⟩

end Mirror
