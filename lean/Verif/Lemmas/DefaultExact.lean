import Verif.Lemmas.DefaultConv
import Verif.Lemmas.RoundTripExact

set_option linter.unusedSimpArgs false

/-!
# Only clean defaults convert
-/

namespace Mirror

variable {E : Env}

/-- A source with too few positional fields does not convert. -/
theorem conv_pos_short {c : Bool} {fds : List FieldDef} {src : Obj} {i j : Nat} {fi fj : FieldDef}
    (hi : fds[i]? = some fi) (hj : fds[j]? = some fj) (hsi : fi.skip = true) (hsj : fj.skip = false)
    (hij : i < j) (hsrc : ∀ k, (visDefs fds).length ≤ k → src.fieldAt k = none) :
    optAll (fds.mapIdx (convPos E c src)) = none := by
  cases hr : optAll (fds.mapIdx (convPos E c src)) with
  | none => rfl
  | some r =>
    exfalso
    obtain ⟨hl, hr⟩ := optAll_mapIdx_inv hr
    have key : ∀ (k : Nat) fd, fds[k]? = some fd → fd.skip = false → k < (visDefs fds).length := by
      intro k fd hk hs
      obtain ⟨y, hy⟩ := align_pos hl.symm hk
      have := hr k fd y hk hy
      simp only [convPos, hs, Bool.false_eq_true, if_false] at this
      by_contra hc
      rw [hsrc k (by omega)] at this
      cases this
    have hjl := key j fj hj hsj
    have := filter_length_le (q := fun fd : FieldDef => !fd.skip) (l := fds)
      (J := (visDefs fds).length - 1) (i := i) (y := fi) (by
        intro k z hz hq
        have := key k z hz (by simpa using hq)
        omega)
      hi (by simp [hsi]) (by omega)
    simp only [visDefs] at this hjl
    omega

theorem clean_of_isTy {t : Ty} {v : Value} (h : v.toObj.isTy t = true) : NeedsClean E t := by
  refine .mk' (fun hg => ?_) fun us hus u hu => ?_
  · obtain ⟨n, rfl⟩ := Ty.DefaultGap.named hg
    cases v <;> simp [Value.toObj, Obj.isTy, Obj.typeOf] at h
  · exfalso
    cases v <;> simp [Value.toObj, Obj.isTy, Obj.typeOf] at h <;> subst h <;> cases hus <;>
      simp at hu

theorem clean_of_convField {c : Bool} {t : Ty} {v : Value} {y : Obj}
    (h : convField E c t v.toObj = some y)
    (ih : ∀ y, fromReflect E t v.toObj = some y → NeedsClean E t) : NeedsClean E t := by
  rw [convField] at h
  split at h
  · next h' =>
    simp at h'
    exact clean_of_isTy h'.2
  · exact ih _ h

theorem optAll_mem {α : Type _} {l : List (Option α)} {r : List α} (h : optAll l = some r) :
    ∀ x ∈ l, ∃ y, x = some y := by
  rw [optAll_eq_some] at h
  subst h
  intro x hx
  obtain ⟨y, _, rfl⟩ := List.mem_map.mp hx
  exact ⟨y, rfl⟩

theorem zip_lookup {R : FieldDef → Value → Prop} {fds : List FieldDef} {vs : List Value}
    (hn : (fds.map (·.name)).Nodup) (h : List.Forall₂ R (visDefs fds) vs) {src : Obj}
    (hsrc : ∀ n, src.field n = lookup n (visFields ((bmOfList strCmp
      (((visDefs fds).map (·.name)).zip vs)).map fun p => (p.1, p.2.toObj)))) :
    List.Forall₂ (fun fd v => R fd v ∧ src.field fd.name = some v.toObj) (visDefs fds) vs := by
  have hlen := h.length_eq
  have e1 : (((visDefs fds).map (·.name)).zip vs).map (·.1) = (visDefs fds).map (·.name) :=
    List.map_fst_zip (by simp [hlen])
  have hnd : ((((visDefs fds).map (·.name)).zip vs).map (·.1)).Nodup := by
    rw [e1]; exact hn.sublist ((List.filter_sublist).map _)
  rw [List.forall₂_iff_get] at h ⊢
  refine ⟨h.1, fun i h1 h2 => ⟨h.2 i h1 h2, ?_⟩⟩
  rw [hsrc, toObj_visFields, lookup_map,
    lookup_of_mem_nodup (x := vs.get ⟨i, h2⟩)
      (((bmOfList_str_perm hnd).map _).nodup_iff.mpr hnd)
      ((bmOfList_str_perm hnd).mem_iff.mpr ?_)]
  · rfl
  · rw [List.mem_iff_getElem]
    exact ⟨i, by simp; omega, by simp⟩

/-- If the fields of a struct convert, each field's type is clean. -/
theorem clean_named {c : Bool} {src : Obj} {fds : List FieldDef} {vs : List Value} {fs}
    (h : List.Forall₂ (fun fd v => (∀ y, fromReflect E fd.ty v.toObj = some y → NeedsClean E fd.ty) ∧
      src.field fd.name = some v.toObj) (visDefs fds) vs)
    (hc : optAll (fds.map (convNamed E c src)) = some fs) :
    ∀ u ∈ (fds.filter fun fd => !fd.skip).map (·.ty), NeedsClean E u := by
  intro u hu
  obtain ⟨fd, hfd, rfl⟩ := List.mem_map.mp hu
  obtain ⟨i, hi⟩ := List.getElem?_of_mem (l := visDefs fds) hfd
  obtain ⟨v, _, h1, h2⟩ := forall2_left h hi
  obtain ⟨hm, hs⟩ := List.mem_filter.mp hfd
  obtain ⟨y, hy⟩ := optAll_mem hc _ (List.mem_map_of_mem hm)
  simp only [convNamed, show fd.skip = false by simpa using hs, Bool.false_eq_true, if_false, h2,
    Option.bind_some, Option.map_eq_some_iff] at hy
  obtain ⟨y, hy, _⟩ := hy
  exact clean_of_convField hy h1

/-- The same for positional fields, whose skipped ones then come last. -/
theorem clean_pos {c : Bool} {src : Obj} {fds : List FieldDef} {vs : List Value} {fs}
    (h : List.Forall₂ (fun fd v => (∀ y, fromReflect E fd.ty v.toObj = some y → NeedsClean E fd.ty))
      (visDefs fds) vs)
    (hsrc : ∀ i, src.fieldAt i = (vs[i]?).map fun v => v.toObj)
    (hc : optAll (fds.mapIdx (convPos E c src)) = some fs) :
    ¬ SkipGap fds ∧ ∀ u ∈ (fds.filter fun fd => !fd.skip).map (·.ty), NeedsClean E u := by
  have hg : ¬ SkipGap fds := by
    rintro ⟨i, j, fi, fj, h1, h2, h3, h4, h5⟩
    rw [conv_pos_short h1 h2 h3 h4 h5] at hc
    · cases hc
    · intro k hk
      rw [hsrc, List.getElem?_eq_none (by rw [← h.length_eq]; exact hk)]; rfl
  refine ⟨hg, fun u hu => ?_⟩
  obtain ⟨fd, hfd, rfl⟩ := List.mem_map.mp hu
  obtain ⟨i, hi⟩ := List.getElem?_of_mem (l := visDefs fds) hfd
  obtain ⟨v, hv, h1⟩ := forall2_left h hi
  have hs : fd.skip = false := by simpa using (List.mem_filter.mp hfd).2
  have hfi : fds[i]? = some fd := by
    rw [visDefs_append (SkipGap.last hg), List.getElem?_append_left]
    · exact hi
    · exact (List.getElem?_eq_some_iff.mp hi).1
  have hm : convPos E c src i fd ∈ fds.mapIdx (convPos E c src) := by
    refine List.mem_of_getElem? (i := i) ?_
    rw [List.getElem?_mapIdx, hfi]; rfl
  obtain ⟨y, hy⟩ := optAll_mem hc _ hm
  simp only [convPos, hs, Bool.false_eq_true, if_false, hsrc, hv, Option.map_some,
    Option.bind_some] at hy
  exact clean_of_convField hy h1

theorem fromReflect_unbox (t : Ty) (o : Obj) : fromReflect E t.unbox o = fromReflect E t o := by
  induction t using Ty.unbox.induct with
  | case1 t ih => rw [Ty.unbox, ih, fromReflect_box]
  | case2 t ht => rw [Ty.unbox]; exact ht

theorem default_clean {g : TypeGraph} (hD : DeclsOK E) (hG : GraphOK E g) :
    ∀ fuel id v y, defaultValue g fuel id = some (some v) → fromReflect E id v.toObj = some y →
      NeedsClean E id
  | 0, _, _, _, h, _ => by cases h
  | fuel + 1, id, v, y, h, hy => by
    have IH := default_clean hD hG fuel
    cases hn : g.node id with
    | none => simp [defaultValue, hn] at h
    | some node =>
    obtain ⟨hd, hc⟩ := hG id node hn
    have ih' : ∀ {t : Ty} {v}, defaultValue g fuel t.unbox = some (some v) →
        ∀ y, fromReflect E t v.toObj = some y → NeedsClean E t := by
      intro t v hv y hy
      exact NeedsClean.unbox_iff.mp (IH _ _ y hv (by rw [fromReflect_unbox]; exact hy))
    have pos : ∀ {ts : List Ty} {vs},
        defaultPos (defaultValue g fuel) (ts.map Ty.unbox) = some (some vs) →
        List.Forall₂ (fun t v => ∀ y, fromReflect E t v.toObj = some y → NeedsClean E t) ts vs := by
      intro ts vs h
      rw [defaultPos_some, List.forall₂_map_left_iff] at h
      exact h.imp fun t v hv => ih' hv
    have posF : ∀ {fds : List FieldDef} {vs},
        defaultPos (defaultValue g fuel) ((fds.filter fun fd => !fd.skip).map fun fd => fd.ty.unbox) =
          some (some vs) →
        List.Forall₂ (fun fd v => ∀ y, fromReflect E fd.ty v.toObj = some y → NeedsClean E fd.ty)
          (visDefs fds) vs := by
      intro fds vs h
      rw [defaultPos_some, List.forall₂_map_left_iff] at h
      exact h.imp fun t v hv => ih' hv
    have nam : ∀ {fds : List FieldDef} {names fields l},
        namedTypes names fields = (fds.filter fun fd => !fd.skip).map (fun fd => (fd.name, some fd.ty.unbox)) →
        defaultNamed (defaultValue g fuel) (namedTypes names fields) = some (some l) →
        ∃ vs, l = ((visDefs fds).map (·.name)).zip vs ∧
          List.Forall₂ (fun fd v => ∀ y, fromReflect E fd.ty v.toObj = some y → NeedsClean E fd.ty)
            (visDefs fds) vs := by
      intro fds names fields l hf h
      rw [hf, defaultNamed_eq] at h
      obtain ⟨r, hr, h2⟩ := Option.map_eq_some_iff.mp h
      obtain ⟨vs, rfl, h3⟩ := Option.map_eq_some_iff.mp h2
      exact ⟨vs, h3.symm, posF hr⟩
    have opt : ∀ {α β : Type} {x : Option (Option α)} {f : α → β} {b},
        x.map (Option.map f) = some (some b) → ∃ a, x = some (some a) ∧ f a = b := by
      intro α β x f b h
      obtain ⟨r, rfl, h2⟩ := Option.map_eq_some_iff.mp h
      obtain ⟨a, rfl, h3⟩ := Option.map_eq_some_iff.mp h2
      exact ⟨a, rfl, h3⟩
    have nog : ∀ {t : Ty}, (∀ n, t ≠ .named n) → ¬ t.DefaultGap E := by
      intro t ht h
      obtain ⟨n, rfl⟩ := Ty.DefaultGap.named h
      exact ht n rfl
    cases hd with
    | scalar k => exact .mk (us := []) (nog (by simp)) rfl (by simp)
    | nonzero k => simp [defaultValue, hn] at h
    | value => simp [defaultValue, hn] at h
    | structValue => simp [defaultValue, hn] at h
    | tupleStructValue => simp [defaultValue, hn] at h
    | tupleValue => simp [defaultValue, hn] at h
    | enumValue => simp [defaultValue, hn] at h
    | vec t => exact .mk (us := []) (nog (by simp)) rfl (by simp)
    | map k w => exact .mk (us := []) (nog (by simp)) rfl (by simp)
    | array t n =>
      simp only [defaultValue, hn, replicate_unbox] at h
      obtain ⟨vs, hx, rfl⟩ := opt h; clear h
      have := pos hx
      refine .mk (us := List.replicate n t) (nog (by simp)) rfl fun u hu => ?_
      obtain ⟨i, hi⟩ := List.getElem?_of_mem hu
      obtain ⟨v, hv, h⟩ := forall2_left this hi
      rw [List.eq_of_mem_replicate hu] at h ⊢
      rw [Value.toObj, fromReflect_array] at hy
      cases ho : optAll ((vs.map fun v => v.toObj).map fun x => fromReflect E t x) with
      | none => rw [ho] at hy; simp at hy
      | some ys =>
        obtain ⟨z, hz⟩ := optAll_mem ho (fromReflect E t v.toObj)
          (List.mem_map_of_mem (List.mem_map_of_mem (List.mem_of_getElem? hv)))
        exact h z hz
    | tuple ts =>
      simp only [defaultValue, hn] at h
      obtain ⟨vs, hx, rfl⟩ := opt h; clear h
      have h := pos hx
      refine .mk (us := ts) (nog (by simp)) rfl fun u hu => ?_
      obtain ⟨i, hi⟩ := List.getElem?_of_mem hu
      obtain ⟨v, hv, h⟩ := forall2_left h hi
      rw [fromReflect_tuple] at hy
      split at hy
      · cases ho : optAll (ts.mapIdx fun i t => ((Value.tuple vs).toObj.fieldAt i).bind fun v =>
            fromReflect E t v) with
        | none => simp [ho] at hy
        | some ys =>
          have hm : ((Value.tuple vs).toObj.fieldAt i).bind (fun v => fromReflect E u v) ∈
              ts.mapIdx fun i t => ((Value.tuple vs).toObj.fieldAt i).bind fun v =>
            fromReflect E t v := by
            refine List.mem_of_getElem? (i := i) ?_
            rw [List.getElem?_mapIdx, hi]; rfl
          obtain ⟨z, hz⟩ := optAll_mem ho _ hm
          simp only [Value.toObj, Obj.fieldAt, toObj_visAt, hv, Option.map_some,
            Option.bind_some] at hz
          exact h z hz
      · cases hy
    | struct n fds c names fields hdecl hf hlen hso =>
      simp only [defaultValue, hn] at h
      obtain ⟨l, hx, rfl⟩ := opt h; clear h
      obtain ⟨vs, rfl, h⟩ := nam hf hx
      have h1 := zip_lookup (hD.struct_names _ _ _ hdecl) h
        (src := (Value.struct (svOfList (((visDefs fds).map (·.name)).zip vs)).1
          (svOfList (((visDefs fds).map (·.name)).zip vs)).2).toObj)
        (fun n => by simp only [svOfList_eq, Value.toObj, Obj.field])
      rw [fromReflect_struct hdecl] at hy
      split at hy
      · obtain ⟨fs, hfs, _⟩ := Option.map_eq_some_iff.mp hy
        refine .mk ?_ (by simp only [Ty.needs, hdecl]) (clean_named h1 hfs)
        rintro ⟨_, _, e, ⟨_, h, _⟩ | ⟨_, _, _, h, _⟩⟩ <;> cases e <;> rw [hdecl] at h <;> cases h
      · cases hy
    | tupleStruct n fds c hdecl =>
      simp only [defaultValue, hn] at h
      obtain ⟨vs, hx, rfl⟩ := opt h; clear h
      have h := posF hx
      rw [fromReflect_tupleStruct hdecl] at hy
      split at hy
      · obtain ⟨fs, hfs, _⟩ := Option.map_eq_some_iff.mp hy
        obtain ⟨hg, hcl⟩ := clean_pos h
          (fun i => by simp only [Value.toObj, Obj.fieldAt, toObj_visAt]) hfs
        refine .mk ?_ (by simp only [Ty.needs, hdecl]) hcl
        rintro ⟨_, _, e, ⟨_, h, h'⟩ | ⟨_, _, _, h, _⟩⟩ <;> cases e <;> rw [hdecl] at h <;> cases h
        exact hg h'
      · cases hy
    | enum n vds c vs hdecl hl hvs =>
      cases vs with
      | nil => simp [defaultValue, hn] at h
      | cons v vs =>
      cases vds with
      | nil => simp at hl
      | cons vd vds =>
        have hv := hvs 0 vd v rfl rfl
        simp only [defaultValue, hn] at h
        rw [fromReflect_enum hdecl] at hy
        cases hv with
        | struct vn fds names fields hf hlen hso =>
          simp only [defaultVariant] at h
          obtain ⟨l, hx, rfl⟩ := opt h; clear h
          obtain ⟨vs, rfl, h⟩ := nam hf hx
          have h1 := zip_lookup
            (hD.variant_fields _ _ _ _ _ hdecl List.mem_cons_self) h
            (src := (Value.enumS vn (svOfList (((visDefs fds).map (·.name)).zip vs)).1
              (svOfList (((visDefs fds).map (·.name)).zip vs)).2).toObj)
            (fun n => by simp only [svOfList_eq, Value.toObj, Obj.field])
          have : (Value.enumS vn (svOfList (((visDefs fds).map (·.name)).zip vs)).1
            (svOfList (((visDefs fds).map (·.name)).zip vs)).2).toObj.variantName = some vn := by
            rw [Value.toObj]; rfl
          simp only [this, Option.bind_some, List.find?_cons, VariantDef.name, decide_true] at hy
          obtain ⟨fs, hfs, _⟩ := Option.map_eq_some_iff.mp hy
          refine .mk ?_ (by simp only [Ty.needs, hdecl]) (clean_named h1 hfs)
          rintro ⟨_, _, e, ⟨_, h, _⟩ | ⟨_, _, _, h, _⟩⟩ <;> cases e <;> rw [hdecl] at h <;> cases h
        | tuple vn fds =>
          simp only [defaultVariant] at h
          obtain ⟨vs, hx, rfl⟩ := opt h; clear h
          have h := posF hx
          have : (Value.enumT vn vs).toObj.variantName = some vn := by rw [Value.toObj]; rfl
          simp only [this, Option.bind_some, List.find?_cons, VariantDef.name, decide_true] at hy
          obtain ⟨fs, hfs, _⟩ := Option.map_eq_some_iff.mp hy
          obtain ⟨hg, hcl⟩ := clean_pos h
            (fun i => by simp only [Value.toObj, Obj.fieldAt, toObj_visAt]) hfs
          refine .mk ?_ (by simp only [Ty.needs, hdecl]) hcl
          rintro ⟨_, _, e, ⟨_, h, _⟩ | ⟨_, _, _, h, h'⟩⟩ <;> cases e <;> rw [hdecl] at h <;> cases h
          exact hg h'
        | unit vn =>
          refine .mk (us := []) ?_ (by simp only [Ty.needs, hdecl]) (by simp)
          rintro ⟨_, _, e, ⟨_, h, _⟩ | ⟨_, _, _, h, h'⟩⟩ <;> cases e <;> rw [hdecl] at h <;> cases h

end Mirror
