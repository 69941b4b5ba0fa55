import Verif.Lemmas.PatchIdem

set_option linter.unusedSimpArgs false

/-!
# Patching a value with itself
-/

namespace Mirror

theorem ext_idx {α β γ} {r : List α} {fs : List β} {f : α → γ} {g : β → γ}
    (hl : r.length = fs.length)
    (h : ∀ (i : Nat) y p, r[i]? = some y → fs[i]? = some p → f y = g p) : r.map f = fs.map g := by
  apply List.ext_getElem (by simp [hl])
  intro i h1 h2
  simp only [List.getElem_map]
  simp only [List.length_map] at h1 h2
  exact h i _ _ (List.getElem?_eq_getElem h1) (List.getElem?_eq_getElem h2)

/-- If a proper value converts to its own type, the result is the same up to skipped fields. -/
theorem selfconv_sound {E : Env} (hD : DeclsOK E) (hO : OrdLaws E) (hK : KeysShown E) {t : Ty}
    {o : Obj} (h : HasTy E t o) : ∀ {y : Obj}, fromReflect E t o = some y → y.reset = o.reset := by
  have conv : ∀ {c : Bool} {t : Ty} {x y : Obj},
      (∀ {y}, fromReflect E t x = some y → y.reset = x.reset) → convField E c t x = some y →
      y.reset = x.reset := by
    intro c t x y h hy
    simp only [convField] at hy
    split at hy
    · cases hy; rfl
    · exact h hy
  have named : ∀ {c : Bool} {fds : List FieldDef} {fs r : List (String × Obj)} {src : Obj},
      (fds.map (·.name)).Nodup → fs.map (·.1) = fds.map (·.name) →
      (∀ (i : Nat) fd p, fds[i]? = some fd → fs[i]? = some p → fd.skip = true →
        p.2.isHidden = true) →
      (∀ (i : Nat) fd p, fds[i]? = some fd → fs[i]? = some p → fd.skip = false →
        HasTy E fd.ty p.2) →
      (∀ (i : Nat) fd p, fds[i]? = some fd → fs[i]? = some p → fd.skip = false →
        ∀ {y}, fromReflect E fd.ty p.2 = some y → y.reset = p.2.reset) →
      (∀ n, src.field n = lookup n (visFields fs)) →
      optAll (fds.map (convNamed E c src)) = some r →
        r.map (fun p => (p.1, p.2.reset)) = fs.map (fun p => (p.1, p.2.reset)) := by
    intro c fds fs r src hn h2 h3 h4 ih hsrc hr
    have hl : fs.length = fds.length := by simpa using congrArg List.length h2
    obtain ⟨hlr, hi⟩ := optAll_map_inv hr
    apply ext_idx (by omega)
    intro i y p hy hp
    obtain ⟨fd, hfd, he⟩ := align_named h2 hp
    have := hi i fd y hfd hy
    simp only [convNamed] at this
    cases hs : fd.skip with
    | true =>
      have hh := h3 i fd p hfd hp hs
      obtain ⟨a, b⟩ := p
      cases b <;> simp [Obj.isHidden] at hh
      simp [hs] at this; subst this
      simp [Obj.reset, he]
    | false =>
      have hlk := lookup_vis_of_idx (h2 ▸ hn) hp (h4 i fd p hfd hp hs).not_hidden
      rw [← he] at hlk
      simp [hs, hsrc, hlk] at this
      obtain ⟨z, hz, rfl⟩ := this
      simp [he, conv (ih i fd p hfd hp hs) hz]
  have pos : ∀ {c : Bool} {fds : List FieldDef} {fs r : List Obj} {src : Obj},
      fs.length = fds.length →
      (∀ (i : Nat) fd p, fds[i]? = some fd → fs[i]? = some p → fd.skip = true →
        p.isHidden = true) →
      (∀ (i : Nat) fd p, fds[i]? = some fd → fs[i]? = some p → fd.skip = false →
        HasTy E fd.ty p) →
      (∀ (i : Nat) fd p, fds[i]? = some fd → fs[i]? = some p → fd.skip = false →
        ∀ {y}, fromReflect E fd.ty p = some y → y.reset = p.reset) →
      (∀ i, src.fieldAt i = visAt fs i) →
      optAll (fds.mapIdx (convPos E c src)) = some r →
        r.map (fun p => p.reset) = fs.map (fun p => p.reset) := by
    intro c fds fs r src hl h3 h4 ih hsrc hr
    obtain ⟨hlr, hi⟩ := optAll_mapIdx_inv hr
    apply ext_idx (by omega)
    intro i y p hy hp
    obtain ⟨fd, hfd⟩ := align_pos hl hp
    have := hi i fd y hfd hy
    simp only [convPos] at this
    cases hs : fd.skip with
    | true =>
      have hh := h3 i fd p hfd hp hs
      cases p <;> simp [Obj.isHidden] at hh
      simp [hs] at this; subst this
      simp [Obj.reset]
    | false =>
      simp [hs, hsrc, visAt, hp, (h4 i fd p hfd hp hs).not_hidden] at this
      exact conv (ih i fd p hfd hp hs) this
  induction h with
  | scalar s => intro y hy; simp [fromReflect_scalar, Obj.isTy, Obj.typeOf] at hy; rw [← hy]
  | nonzero k n h => intro y hy; simp [fromReflect_nonzero, Obj.isTy, Obj.typeOf] at hy; rw [← hy]
  | struct n fds c fs hd h2 h3 h4 ih =>
    intro y hy
    rw [fromReflect_struct hd, if_pos (by rfl)] at hy
    obtain ⟨r, hr, rfl⟩ := Option.map_eq_some_iff.mp hy
    simp only [Obj.reset, named (hD.struct_names n fds c hd) h2 h3 h4 ih (fun _ => rfl) hr]
  | enumS n vds c vn fds fs hd hv h2 h3 h4 ih =>
    intro y hy
    have hf : vds.find? (fun d => d.name = vn) = some _ :=
      find_variant (hD.variant_names n vds c hd) hv
    rw [fromReflect_enum hd] at hy
    simp only [Obj.variantName, Option.bind_some, hf] at hy
    obtain ⟨r, hr, rfl⟩ := Option.map_eq_some_iff.mp hy
    simp only [Obj.reset,
      named (hD.variant_fields n vds c vn fds hd hv) h2 h3 h4 ih (fun _ => rfl) hr]
  | tupleStruct n fds c fs hd h2 h3 h4 ih =>
    intro y hy
    rw [fromReflect_tupleStruct hd, if_pos (by rfl)] at hy
    obtain ⟨r, hr, rfl⟩ := Option.map_eq_some_iff.mp hy
    simp only [Obj.reset, pos h2 h3 h4 ih (fun _ => rfl) hr]
  | enumT n vds c vn fds fs hd hv h2 h3 h4 ih =>
    intro y hy
    have hf : vds.find? (fun d => d.name = vn) = some _ :=
      find_variant (hD.variant_names n vds c hd) hv
    rw [fromReflect_enum hd] at hy
    simp only [Obj.variantName, Option.bind_some, hf] at hy
    obtain ⟨r, hr, rfl⟩ := Option.map_eq_some_iff.mp hy
    simp only [Obj.reset, pos h2 h3 h4 ih (fun _ => rfl) hr]
  | enumU n vds c vn hd hv =>
    intro y hy
    have hf : vds.find? (fun d => d.name = vn) = some _ :=
      find_variant (hD.variant_names n vds c hd) hv
    rw [fromReflect_enum hd] at hy
    simp only [Obj.variantName, Option.bind_some, hf] at hy
    cases hy; rfl
  | tuple ts fs hl h ih =>
    intro y hy
    rw [fromReflect_tuple, if_pos (by rfl)] at hy
    obtain ⟨r, hr, rfl⟩ := Option.map_eq_some_iff.mp hy
    obtain ⟨hlr, hi⟩ := optAll_mapIdx_inv hr
    simp only [Obj.reset]
    rw [ext_idx (r := r) (fs := fs) (f := fun x => x.reset) (g := fun x => x.reset) (by omega)]
    intro i y p hy hp
    obtain ⟨t, ht⟩ := align_pos hl hp
    have := hi i t y ht hy
    simp [Obj.fieldAt, visAt, hp, (h i t p ht hp).not_hidden] at this
    exact ih i t p ht hp this
  | vec t xs h ih =>
    intro y hy
    rw [fromReflect_vec] at hy
    obtain ⟨r, hr, rfl⟩ := Option.map_eq_some_iff.mp hy
    obtain ⟨hlr, hi⟩ := optAll_map_inv hr
    simp only [Obj.reset]
    rw [ext_idx (r := r) (fs := xs) (f := fun x => x.reset) (g := fun x => x.reset) (by omega)]
    intro i y p hy hp
    exact ih p (List.mem_of_getElem? hp) (hi i p y hp hy)
  | array t xs h ih => intro y hy; simp [fromReflect] at hy
  | map kt vt kvs hs hk hv ihk ihv =>
    intro y hy
    rw [fromReflect_map] at hy
    obtain ⟨r, hr, rfl⟩ := Option.map_eq_some_iff.mp hy
    obtain ⟨hlr, hi⟩ := optAll_map_inv hr
    have hel : ∀ (i : Nat) x p, kvs[i]? = some x → r[i]? = some p →
        fromReflect E kt x.1 = some p.1 ∧ fromReflect E vt x.2 = some p.2 := by
      intro i x p hx hp
      obtain ⟨k, hk', hh⟩ := Option.bind_eq_some_iff.mp (hi i x p hx hp)
      obtain ⟨v, hv', rfl⟩ := Option.map_eq_some_iff.mp hh
      exact ⟨hk', hv'⟩
    have hall : ∀ p ∈ r, HasTy E kt p.1 := by
      intro p hp
      obtain ⟨i, hpi⟩ := List.getElem?_of_mem hp
      obtain ⟨x, hx⟩ := align_pos hlr hpi
      exact fromReflect_sound hO kt x.1 ⟨_, hk x (List.mem_of_getElem? hx)⟩ (hel i x p hx hpi).1
    have he : r.map (fun p => (p.1.reset, p.2.reset)) = kvs.map fun p => (p.1.reset, p.2.reset) := by
      apply ext_idx (by omega)
      intro i y p hy hp
      have hm := List.mem_of_getElem? hp
      rw [ihk p hm (hel i p y hp hy).1, ihv p hm (hel i p y hp hy).2]
    have hsorted : BMSorted (E.kcmp kt) r := by
      have h1 := reset_sorted hO hK hs hk fun p hp => (hk p hp).reset hO hK
      rw [← he] at h1
      simp only [BMSorted, List.pairwise_map] at h1
      refine List.Pairwise.imp_of_mem ?_ h1
      intro p q hp hq hh
      rw [← kcmp_reset hO hK (hall p hp) (hall q hq) ((hall p hp).reset hO hK)
        ((hall q hq).reset hO hK)]
      exact hh
    rw [bmOfList_self (hO.cmpOn kt) hall hsorted]
    simp only [Obj.reset, he]
  | box t o _ ih => intro y hy; rw [fromReflect_box] at hy; exact ih hy
  | value v o h ho =>
    intro y hy; subst ho
    rw [fromReflect_value, Value.toObj_toValue h] at hy; cases hy; rfl
  | structValue ns fs o h ho => intro y hy; subst ho; rw [fromReflect_structValue h] at hy; cases hy; rfl
  | tupleStructValue fs o h ho =>
    intro y hy; subst ho; rw [fromReflect_tupleStructValue h] at hy; cases hy; rfl
  | tupleValue fs o h ho => intro y hy; subst ho; rw [fromReflect_tupleValue h] at hy; cases hy; rfl
  | enumValueS v ns fs o h ho =>
    intro y hy; subst ho; rw [fromReflect_enumValueS h] at hy; cases hy; rfl
  | enumValueT v fs o h ho => intro y hy; subst ho; rw [fromReflect_enumValueT h] at hy; cases hy; rfl
  | enumValueU v o ho => intro y hy; subst ho; rw [fromReflect_enumValueU] at hy; cases hy; rfl

/-- Dynamic objects are their own `to_value`. -/
theorem HasTy.dyn_self {E : Env} {v : Value} (h : v.WF) : v.toObj.toValue.toObj = v.toObj := by
  rw [Value.toObj_toValue h]

theorem map_reset_self {α} {fs : List α} {f : α → α} (h : fs.map f = fs) : ∀ p ∈ fs, f p = p := by
  induction fs with
  | nil => simp
  | cons a r ih =>
    simp only [List.map_cons, List.cons.injEq] at h
    intro p hp
    rcases List.mem_cons.mp hp with rfl | hp
    · exact h.1
    · exact ih h.2 p hp

/-- The parts of an object whose skipped fields are default have default skipped fields. -/
theorem Obj.EnumsDefault.parts {o : Obj} (h : o.EnumsDefault) :
    (∀ tag fs, o = .struct tag fs → ∀ p ∈ fs, p.2.EnumsDefault) ∧
    (∀ tag vn fs, o = .enumS tag vn fs → ∀ p ∈ fs, p.2.EnumsDefault) ∧
    (∀ tag fs, o = .tupleStruct tag fs → ∀ p ∈ fs, p.EnumsDefault) ∧
    (∀ tag fs, o = .tuple tag fs → ∀ p ∈ fs, p.EnumsDefault) ∧
    (∀ tag vn fs, o = .enumT tag vn fs → ∀ p ∈ fs, p.EnumsDefault) ∧
    (∀ t xs, o = .vec t xs → ∀ p ∈ xs, p.EnumsDefault) ∧
    (∀ t xs, o = .array t xs → ∀ p ∈ xs, p.EnumsDefault) ∧
    (∀ kt vt kvs, o = .map kt vt kvs → ∀ p ∈ kvs, p.2.EnumsDefault) ∧
    (o.kind = .enum → o.reset = o) := by
  have a : ∀ {fs : List (String × Obj)}, (fs.map fun p => (p.1, p.2.reset)) = fs →
      ∀ p ∈ fs, p.2.EnumsDefault := by
    intro fs h p hp
    have := map_reset_self h p hp
    exact .enum _ (congrArg (·.2) this)
  have b : ∀ {fs : List Obj}, (fs.map fun p => p.reset) = fs → ∀ p ∈ fs, p.EnumsDefault := by
    intro fs h p hp
    exact .enum _ (map_reset_self h p hp)
  refine ⟨?_, ?_, ?_, ?_, ?_, ?_, ?_, ?_, ?_⟩
  · rintro tag fs rfl
    cases h with
    | struct _ _ h => exact h
    | enum _ h => simp only [Obj.reset, Obj.struct.injEq] at h; exact a h.2
  · rintro tag vn fs rfl
    cases h with
    | enum _ h => simp only [Obj.reset, Obj.enumS.injEq] at h; exact a h.2.2
  · rintro tag fs rfl
    cases h with
    | tupleStruct _ _ h => exact h
    | enum _ h => simp only [Obj.reset, Obj.tupleStruct.injEq] at h; exact b h.2
  · rintro tag fs rfl
    cases h with
    | tuple _ _ h => exact h
    | enum _ h => simp only [Obj.reset, Obj.tuple.injEq] at h; exact b h.2
  · rintro tag vn fs rfl
    cases h with
    | enum _ h => simp only [Obj.reset, Obj.enumT.injEq] at h; exact b h.2.2
  · rintro tag fs rfl
    cases h with
    | vec _ _ h => exact h
    | enum _ h => simp only [Obj.reset, Obj.vec.injEq] at h; exact b h.2
  · rintro tag fs rfl
    cases h with
    | array _ _ h => exact h
    | enum _ h => simp only [Obj.reset, Obj.array.injEq] at h; exact b h.2
  · rintro kt vt kvs rfl
    cases h with
    | map _ _ _ h => exact h
    | enum _ h =>
      simp only [Obj.reset, Obj.map.injEq] at h
      intro p hp
      exact .enum _ (congrArg (·.2) (map_reset_self h.2.2 p hp))
  · intro hk
    cases h with
    | enum _ h => exact h
    | _ => simp [Obj.kind] at hk

theorem Obj.OK.dynVis {E : Env} {o : Obj} (h : o.OK E) : o.DynVis := by
  obtain ⟨t, h⟩ := h; exact h.dynVis

theorem reset_parts {o : Obj} (h : o.reset = o) : ∀ x ∈ o.parts, x.reset = x := by
  intro x hx
  cases o <;> simp only [Obj.parts, List.not_mem_nil] at hx
  case struct tag fs =>
    simp only [Obj.reset, Obj.struct.injEq] at h
    obtain ⟨p, hp, rfl⟩ := List.mem_map.mp hx
    exact congrArg (·.2) (map_reset_self h.2 p (visFields_sub hp))
  case enumS tag vn fs =>
    simp only [Obj.reset, Obj.enumS.injEq] at h
    obtain ⟨p, hp, rfl⟩ := List.mem_map.mp hx
    exact congrArg (·.2) (map_reset_self h.2.2 p (visFields_sub hp))
  case tupleStruct tag fs =>
    simp only [Obj.reset, Obj.tupleStruct.injEq] at h
    exact map_reset_self h.2 x (visPos_sub hx)
  case tuple tag fs =>
    simp only [Obj.reset, Obj.tuple.injEq] at h
    exact map_reset_self h.2 x (visPos_sub hx)
  case enumT tag vn fs =>
    simp only [Obj.reset, Obj.enumT.injEq] at h
    exact map_reset_self h.2.2 x (visPos_sub hx)
  case vec t xs =>
    simp only [Obj.reset, Obj.vec.injEq] at h
    exact map_reset_self h.2 x hx
  case array t xs =>
    simp only [Obj.reset, Obj.array.injEq] at h
    exact map_reset_self h.2 x hx
  case map kt vt kvs =>
    simp only [Obj.reset, Obj.map.injEq] at h
    rcases List.mem_append.mp hx with hx | hx
    · obtain ⟨p, hp, rfl⟩ := List.mem_map.mp hx
      exact congrArg (·.1) (map_reset_self h.2.2 p hp)
    · obtain ⟨p, hp, rfl⟩ := List.mem_map.mp hx
      exact congrArg (·.2) (map_reset_self h.2.2 p hp)

theorem foldl_bmInsert_keys' {κ α : Type} {cmp : κ → κ → Ordering} {P : κ → Prop}
    (l : List (κ × α)) : ∀ m : List (κ × α), (∀ p ∈ l, P p.1) → (∀ p ∈ m, P p.1) →
    ∀ p ∈ l.foldl (fun m p => bmInsert cmp p.1 p.2 m) m, P p.1 := by
  induction l with
  | nil => intro m _ hm; exact hm
  | cons q r ih =>
    intro m hl hm
    exact ih _ (fun p hp => hl p (by simp [hp])) (bmInsert_keys (hl q (by simp)) hm)

theorem vec_parts {x : Obj} {xs : List Obj} (h : x ∈ xs) (t : Ty) : x ∈ (Obj.vec t xs).parts := h

theorem map_fst_parts {p : Obj × Obj} {kvs : List (Obj × Obj)} (h : p ∈ kvs) (k v : Ty) :
    p.1 ∈ (Obj.map k v kvs).parts := by
  simp only [Obj.parts, List.mem_append]; exact .inl (List.mem_map_of_mem h)

theorem map_snd_parts {p : Obj × Obj} {kvs : List (Obj × Obj)} (h : p ∈ kvs) (k v : Ty) :
    p.2 ∈ (Obj.map k v kvs).parts := by
  simp only [Obj.parts, List.mem_append]; exact .inr (List.mem_map_of_mem h)

/-- Conversion of a value whose skipped fields are default yields such a value. -/
theorem fromReflect_reset {E : Env} (t : Ty) (o : Obj) {y : Obj} (hv : o.OK E)
    (ho : o.reset = o) (h : fromReflect E t o = some y) : y.reset = y := by
  have hparts := reset_parts ho
  have conv : ∀ {c : Bool} {t : Ty} {v y : Obj}, v.OK E → v ∈ o.parts → sizeOf v < sizeOf o →
      convField E c t v = some y → y.reset = y := by
    intro c t v y hok hp hsz hy
    simp only [convField] at hy
    split at hy
    · cases hy; exact hparts v hp
    · exact fromReflect_reset t v hok (hparts v hp) hy
  have named : ∀ (c : Bool) (fds : List FieldDef) (fs : List (String × Obj)),
      optAll (fds.map (convNamed E c o)) = some fs →
      (fs.map fun p => (p.1, p.2.reset)) = fs := by
    intro c fds fs h
    obtain ⟨hl, h⟩ := optAll_map_inv h
    apply map_id_of_mem
    intro p hp
    obtain ⟨i, hi⟩ := List.getElem?_of_mem hp
    obtain ⟨fd, hfd⟩ := align_pos hl hi
    have := h i fd p hfd hi
    simp only [convNamed] at this
    split at this
    · cases this; simp [Obj.reset]
    · obtain ⟨v, hv', this⟩ := Option.bind_eq_some_iff.mp this
      obtain ⟨y, hy, rfl⟩ := Option.map_eq_some_iff.mp this
      simp [conv (OK_field hv hv') (Obj.field_parts hv') (Obj.field_size hv') hy]
  have pos : ∀ (c : Bool) (fds : List FieldDef) (fs : List Obj),
      optAll (fds.mapIdx (convPos E c o)) = some fs → (fs.map fun p => p.reset) = fs := by
    intro c fds fs h
    obtain ⟨hl, h⟩ := optAll_mapIdx_inv h
    apply map_id_of_mem
    intro p hp
    obtain ⟨i, hi⟩ := List.getElem?_of_mem hp
    obtain ⟨fd, hfd⟩ := align_pos hl hi
    have := h i fd p hfd hi
    simp only [convPos] at this
    split at this
    · cases this; simp [Obj.reset]
    · obtain ⟨v, hv', hy⟩ := Option.bind_eq_some_iff.mp this
      exact conv (OK_fieldAt hv hv') (Obj.fieldAt_parts hv.dynVis hv') (Obj.fieldAt_size hv') hy
  match t, h with
  | .scalar k, h =>
    rw [fromReflect_scalar] at h
    split at h
    · cases h; exact ho
    · cases h
  | .nonzero k, h =>
    rw [fromReflect_nonzero] at h
    split at h
    · cases h; exact ho
    · split at h
      · split at h
        · cases h; simp [Obj.reset]
        · cases h
      · cases h
  | .named n, h =>
    cases hd : E.decl n with
    | none => rw [fromReflect_nodecl hd] at h; cases h
    | some d =>
      obtain ⟨sh, c⟩ := d
      cases sh with
      | struct fds =>
        rw [fromReflect_struct hd] at h
        split at h
        · obtain ⟨fs, hfs, rfl⟩ := Option.map_eq_some_iff.mp h
          simp only [Obj.reset, named c fds fs hfs]
        · cases h
      | tupleStruct fds =>
        rw [fromReflect_tupleStruct hd] at h
        split at h
        · obtain ⟨fs, hfs, rfl⟩ := Option.map_eq_some_iff.mp h
          simp only [Obj.reset, pos c fds fs hfs]
        · cases h
      | enum vds =>
        rw [fromReflect_enum hd] at h
        obtain ⟨vn, _, h⟩ := Option.bind_eq_some_iff.mp h
        obtain ⟨vd, hvd, h⟩ := Option.bind_eq_some_iff.mp h
        cases vd with
        | struct vn fds =>
          obtain ⟨fs, hfs, rfl⟩ := Option.map_eq_some_iff.mp h
          simp only [Obj.reset, named c fds fs hfs]
        | tuple vn fds =>
          obtain ⟨fs, hfs, rfl⟩ := Option.map_eq_some_iff.mp h
          simp only [Obj.reset, pos c fds fs hfs]
        | unit vn => cases h; simp [Obj.reset]
  | .tuple ts, h =>
    rw [fromReflect_tuple] at h
    split at h
    · obtain ⟨fs, hfs, rfl⟩ := Option.map_eq_some_iff.mp h
      obtain ⟨hl, hi⟩ := optAll_mapIdx_inv hfs
      simp only [Obj.reset]
      rw [map_id_of_mem]
      intro x hx
      obtain ⟨i, hxi⟩ := List.getElem?_of_mem hx
      obtain ⟨t, ht⟩ := align_pos hl hxi
      obtain ⟨v, hv', hy⟩ := Option.bind_eq_some_iff.mp (hi i t x ht hxi)
      have hsize := Obj.fieldAt_size hv'
      exact fromReflect_reset t v (OK_fieldAt hv hv')
        (hparts v (Obj.fieldAt_parts hv.dynVis hv')) hy
    · cases h
  | .vec t, h =>
    cases o <;> simp [fromReflect] at h
    obtain ⟨ys, hys, rfl⟩ := h
    obtain ⟨hl, hi⟩ := optAll_map_inv hys
    simp only [Obj.reset]
    rw [map_id_of_mem]
    intro y hy
    obtain ⟨i, hyi⟩ := List.getElem?_of_mem hy
    obtain ⟨x, hx⟩ := align_pos hl hyi
    have hsize := sizeOf_lt_of_getElem? hx
    have hm := vec_parts (List.mem_of_getElem? hx)
    exact fromReflect_reset t x (hv.parts (hm _)) (hparts x (hm _)) (hi i x y hx hyi)
  | .array t n, h =>
    cases o <;> (first | (simp [fromReflect] at h; done) | skip)
    rw [fromReflect_array] at h
    obtain ⟨ys, hys, h⟩ := Option.bind_eq_some_iff.mp h
    split at h
    · cases h
      obtain ⟨hl, hi⟩ := optAll_map_inv hys
      simp only [Obj.reset]
      rw [map_id_of_mem]
      intro y hy
      obtain ⟨i, hyi⟩ := List.getElem?_of_mem hy
      obtain ⟨x, hx⟩ := align_pos hl hyi
      have hsize := sizeOf_lt_of_getElem? hx
      have hm := vec_parts (List.mem_of_getElem? hx)
      exact fromReflect_reset t x (hv.parts (hm _)) (hparts x (hm _)) (hi i x y hx hyi)
    · cases h
  | .map kt vt, h =>
    cases o <;> (first | (simp [fromReflect] at h; done) | skip)
    rw [fromReflect_map] at h
    obtain ⟨ys, hys, rfl⟩ := Option.map_eq_some_iff.mp h
    obtain ⟨hl, hi⟩ := optAll_map_inv hys
    have hall : ∀ p ∈ ys, p.1.reset = p.1 ∧ p.2.reset = p.2 := by
      intro y hy
      obtain ⟨i, hyi⟩ := List.getElem?_of_mem hy
      obtain ⟨x, hx⟩ := align_pos hl hyi
      have hm := List.mem_of_getElem? hx
      have h1 := sizeOf_fst_lt_of_mem hm
      have h2 := sizeOf_snd_lt_of_mem hm
      obtain ⟨k, hk, hh⟩ := Option.bind_eq_some_iff.mp (hi i x y hx hyi)
      obtain ⟨v, hv', rfl⟩ := Option.map_eq_some_iff.mp hh
      have m1 := map_fst_parts hm
      have m2 := map_snd_parts hm
      exact ⟨fromReflect_reset kt x.1 (hv.parts (m1 _ _)) (hparts _ (m1 _ _)) hk,
        fromReflect_reset vt x.2 (hv.parts (m2 _ _)) (hparts _ (m2 _ _)) hv'⟩
    simp only [Obj.reset]
    rw [map_id_of_mem]
    intro p hp
    rw [foldl_bmInsert_keys' (P := fun k : Obj => k.reset = k) ys [] (fun p hp => (hall p hp).1)
      (by simp) p hp, bmOfList_vals (Q := fun k : Obj => k.reset = k) (fun p hp => (hall p hp).2) p hp]
  | .box t, h =>
    rw [fromReflect_box] at h
    exact fromReflect_reset t o hv ho h
  | .value, h => rw [fromReflect_value] at h; cases h; exact toObj_reset _
  | .structValue, h =>
    rw [fromReflect] at h
    split at h
    · cases h; exact toObj_reset _
    · cases h
  | .tupleStructValue, h =>
    rw [fromReflect] at h
    split at h
    · cases h; exact toObj_reset _
    · cases h
  | .tupleValue, h =>
    rw [fromReflect] at h
    split at h
    · cases h; exact toObj_reset _
    · cases h
  | .enumValue, h =>
    rw [fromReflect] at h
    split at h
    · cases h; exact toObj_reset _
    · cases h; exact toObj_reset _
    · cases h; exact toObj_reset _
    · cases h
termination_by (sizeOf o, sizeOf t)
decreasing_by
  all_goals first
    | (apply Prod.Lex.left; first | assumption | (simp_all; omega) | omega)
    | (apply Prod.Lex.right; simp_all; try omega)

theorem patchNamed_self {E : Env} {src : Obj} {L : List (String × Obj)}
    (h : ∀ p ∈ L, p.2.isHidden = false → ∀ w, src.field p.1 = some w → patch E p.2 w = p.2) :
    patchNamed E src L = L := by
  apply map_id_of_mem
  intro p hp
  cases hh : p.2.isHidden with
  | true => rw [patchO_of_hidden E hh]
  | false =>
    cases hf : src.field p.1 with
    | none => rfl
    | some w => simp [patchO, h p hp hh w hf]

theorem patchPos_self {E : Env} {src : Obj} {L : List Obj}
    (h : ∀ (i : Nat) y w, L[i]? = some y → y.isHidden = false → src.fieldAt i = some w →
      patch E y w = y) : patchPos E src L = L := by
  apply List.ext_getElem?
  intro i
  simp only [patchPos, List.getElem?_mapIdx]
  cases hy : L[i]? with
  | none => rfl
  | some y =>
    cases hh : y.isHidden with
    | true => simp [patchO_of_hidden E hh]
    | false =>
      cases hf : src.fieldAt i with
      | none => simp [patchO]
      | some w => simp [patchO, h i y w hy hh hf]

/-- Values typed by a dynamic type are patched by themselves without effect. -/
theorem dyn_patch_self {E : Env} (hD : DeclsOK E) (hO : OrdLaws E) (hK : KeysShown E)
    {x : Obj} {v : Value} (h : v.WF) (hx : x = v.toObj) :
    patch E x x = x ∧ patch E x x.toValue.toObj = x := by
  subst hx
  have := toValue_absorbs hD hO hK v.toObj h.ok h.noGaps
  rw [Value.toObj_toValue h] at this ⊢
  exact ⟨this, this⟩

/-- Patching a value with itself changes nothing, provided enums rebuilt by conversion carry no
skipped content. -/
theorem patch_self {E : Env} (hD : DeclsOK E) (hO : OrdLaws E) (hK : KeysShown E) {x : Obj}
    (hx : x.OK E) (he : NoCloneOptOut E ∨ x.EnumsDefault) : patch E x x = x := by
  induction x using Obj.ind with
  | h x ih =>
    have named : ∀ {fs : List (String × Obj)}, (fs.map (·.1)).Nodup →
        (∀ p ∈ visFields fs, p.2 ∈ x.parts) → (∀ p ∈ fs, sizeOf p.2 < sizeOf x) →
        (NoCloneOptOut E ∨ ∀ p ∈ fs, p.2.EnumsDefault) →
        (∀ n, x.field n = lookup n (visFields fs)) → patchNamed E x fs = fs := by
      intro fs hn hp hsz hed hf
      apply patchNamed_self
      intro p hpm hh w hw
      have hm : p ∈ visFields fs := List.mem_filter.mpr ⟨hpm, by simp [hh]⟩
      have hnv : ((visFields fs).map (·.1)).Nodup := hn.sublist (List.filter_sublist.map _)
      rw [hf, lookup_of_mem_nodup hnv (n := p.1) (x := p.2) hm] at hw
      cases hw
      exact ih p.2 (hsz p hpm) (hx.parts (hp p hm)) (hed.imp id fun h => h p hpm)
    have posn : ∀ {fs : List Obj},
        (∀ p ∈ visPos fs, p ∈ x.parts) → (∀ p ∈ fs, sizeOf p < sizeOf x) →
        (NoCloneOptOut E ∨ ∀ p ∈ fs, p.EnumsDefault) →
        (∀ i, x.fieldAt i = visAt fs i) → patchPos E x fs = fs := by
      intro fs hp hsz hed hf
      apply patchPos_self
      intro i p w hpi hh hw
      have hpm := List.mem_of_getElem? hpi
      have hm : p ∈ visPos fs := List.mem_filter.mpr ⟨hpm, by simp [hh]⟩
      rw [hf] at hw
      simp [visAt, hpi, hh] at hw
      subst hw
      exact ih p (hsz p hpm) (hx.parts (hp p hm)) (hed.imp id fun h => h p hpm)
    have hnd := OK.named_nodup hD hO hx
    have hsN : ∀ {fs : List (String × Obj)} {p}, p ∈ fs → sizeOf p.2 < sizeOf fs :=
      sizeOf_snd_lt_of_mem
    have derived : ∀ {n : String}, x.kind = .enum → x.typeOf = some (.named n) →
        patchFields E x x = x → patch E x x = x := by
      intro n hk ht hp
      rw [patch_enum_derived E hk ht]
      split
      · rfl
      · next hcl =>
        split
        · next y hy =>
          have hT := OK.typed hO hx ht
          have h1 := selfconv_sound hD hO hK hT hy
          rcases he with hno | he
          · exfalso
            apply hcl
            have : x.isTy (.named n) = true := by simp [Obj.isTy, ht]
            rw [this]
            cases hd : E.decl n with
            | none => rfl
            | some d => simp [hno n d hd]
          · -- the converted value has only default skipped fields
            have h2 : x.reset = x := he.parts.2.2.2.2.2.2.2.2 hk
            have h3 : y.reset = y := by
              exact fromReflect_reset _ x hx h2 hy
            rw [← h3, h1, h2]
        · rw [if_pos rfl]; exact hp
    cases x with
    | hidden d => rw [patch_hidden]
    | scalar s => rw [patch_scalar]; simp
    | nonzero k n => rw [patch_nonzero]; simp [fromReflect_nonzero, Obj.isTy, Obj.typeOf]
    | struct tag fs =>
      rw [patch_struct, if_pos (by rfl), named (hnd.1 _ _ rfl) (fun p hp => List.mem_map_of_mem hp)
        (fun p hp => by have := hsN hp; simp; omega) (he.imp id fun h => h.parts.1 _ _ rfl)
        (fun _ => rfl)]
    | tupleStruct tag fs =>
      rw [patch_tupleStruct, if_pos (by rfl), posn (fun p hp => hp)
        (fun p hp => by have := List.sizeOf_lt_of_mem hp; simp; omega)
        (he.imp id fun h => h.parts.2.2.1 _ _ rfl) (fun _ => rfl)]
    | tuple tag fs =>
      rw [patch_tuple, if_pos (by rfl), posn (fun p hp => hp)
        (fun p hp => by have := List.sizeOf_lt_of_mem hp; simp; omega)
        (he.imp id fun h => h.parts.2.2.2.1 _ _ rfl) (fun _ => rfl)]
    | enumS tag vn fs =>
      have hf : patchFields E (.enumS tag vn fs) (.enumS tag vn fs) = .enumS tag vn fs := by
        rw [patchFields, named (hnd.2 _ _ _ rfl) (fun p hp => List.mem_map_of_mem hp)
          (fun p hp => by have := hsN hp; simp; omega) (he.imp id fun h => h.parts.2.1 _ _ _ rfl)
          (fun _ => rfl)]
      cases tag with
      | derived n => exact derived rfl rfl hf
      | dyn ns => rw [patch_enum_dyn E rfl rfl, if_pos (by rfl), if_pos rfl, hf]
    | enumT tag vn fs =>
      have hf : patchFields E (.enumT tag vn fs) (.enumT tag vn fs) = .enumT tag vn fs := by
        rw [patchFields, posn (fun p hp => hp)
          (fun p hp => by have := List.sizeOf_lt_of_mem hp; simp; omega)
          (he.imp id fun h => h.parts.2.2.2.2.1 _ _ _ rfl) (fun _ => rfl)]
      cases tag with
      | derived n => exact derived rfl rfl hf
      | dyn => rw [patch_enum_dyn E rfl rfl, if_pos (by rfl), if_pos rfl, hf]
    | enumU tag vn =>
      cases tag with
      | derived n => exact derived rfl rfl rfl
      | dyn => rw [patch_enum_dyn E rfl rfl, if_pos (by rfl), if_pos rfl]; rfl
    | vec t xs =>
      rw [patch_vec, if_pos (by rfl), patchPos_self]
      intro i y w hy _ hw
      simp only [Obj.fieldAt] at hw
      rw [hw] at hy; cases hy
      have hm := List.mem_of_getElem? hw
      exact ih _ (by have := List.sizeOf_lt_of_mem hm; simp; omega) (hx.parts hm)
        (he.imp id fun h => h.parts.2.2.2.2.2.1 _ _ rfl _ hm)
    | array t xs =>
      rw [patch_array, if_pos (by rfl), patchPos_self]
      intro i y w hy _ hw
      simp only [Obj.fieldAt] at hw
      rw [hw] at hy; cases hy
      have hm := List.mem_of_getElem? hw
      exact ih _ (by have := List.sizeOf_lt_of_mem hm; simp; omega) (hx.parts hm)
        (he.imp id fun h => h.parts.2.2.2.2.2.2.1 _ _ rfl _ hm)
    | map kt vt kvs =>
      cases OK.typed hO hx rfl with
      | map _ _ _ hs hk hv =>
        rw [patch_map, patchEntries_eq hO kvs (fun p hp => ⟨_, hk p hp⟩) _ hs hk]
        congr 1
        apply map_id_of_mem
        intro p hp
        rw [patchSeq_id]
        intro w hw
        obtain ⟨q, hq, hw⟩ := List.mem_filterMap.mp hw
        obtain ⟨k', hk', hw⟩ := Option.bind_eq_some_iff.mp hw
        split at hw
        · next hc =>
          cases hw
          have h1 := selfconv_sound hD hO hK (hk q hq) hk'
          have hty := fromReflect_sound hO kt q.1 ⟨_, hk q hq⟩ hk'
          have h2 : E.kcmp kt q.1 k' = .eq := hK kt _ _ (hk q hq) hty (by
            rw [← toValue_reset q.1, ← toValue_reset k', h1, Value.cmp_self])
          rw [← (hO.cmpOn kt).eq_trans _ _ _ (hk q hq) hty (hk p hp) h2] at hc
          have := sorted_key_unique (hO.cmpOn kt) hk hs hq hp hc
          subst this
          exact ih q.2 (by have := sizeOf_snd_lt_of_mem hq; simp; omega) ⟨_, hv q hq⟩
            (he.imp id fun h => h.parts.2.2.2.2.2.2.2.1 _ _ _ rfl _ hq)
        · cases hw

/-- Patching a value with its own `to_value` changes nothing, provided its enums carry no skipped
content. -/
theorem patch_toValue {E : Env} (hD : DeclsOK E) (hO : OrdLaws E) (hK : KeysShown E)
    {x : Obj} (hx : x.OK E) (hg : x.NoGaps) (he : x.EnumsDefault) :
    patch E x x.toValue.toObj = x := by
  induction x using Obj.ind with
  | h x ih =>
    have hnd := OK.named_nodup hD hO hx
    have hl := hg.last hO hx
    have dynCase : ∀ {v : Value}, v.WF → x = v.toObj → patch E x x.toValue.toObj = x :=
      fun h e => (dyn_patch_self hD hO hK h e).2
    have named : ∀ {fs : List (String × Obj)} {src : Obj},
        (∀ p ∈ visFields fs, p.2 ∈ x.parts) → (∀ p ∈ fs, sizeOf p.2 < sizeOf x) →
        (∀ p ∈ fs, p.2.EnumsDefault) → (fs.map (·.1)).Nodup →
        (∀ n, src.field n = (lookup n (visFields fs)).map fun w => w.toValue.toObj) →
        patchNamed E src fs = fs := by
      intro fs src hp hsz hed hn hf
      apply patchNamed_self
      intro p hpm hh w hw
      have hm : p ∈ visFields fs := List.mem_filter.mpr ⟨hpm, by simp [hh]⟩
      have hnv : ((visFields fs).map (·.1)).Nodup := hn.sublist (List.filter_sublist.map _)
      rw [hf, lookup_of_mem_nodup hnv (n := p.1) (x := p.2) hm] at hw
      cases hw
      exact ih p.2 (hsz p hpm) (hx.parts (hp p hm)) (hg.parts (hp p hm)) (hed p hpm)
    have posn : ∀ {fs : List Obj} {src : Obj},
        (∀ p ∈ visPos fs, p ∈ x.parts) → (∀ p ∈ fs, sizeOf p < sizeOf x) →
        (∀ p ∈ fs, p.EnumsDefault) → HiddenLast fs →
        (∀ i, src.fieldAt i = (visPos fs)[i]?.map fun w => w.toValue.toObj) →
        patchPos E src fs = fs := by
      intro fs src hp hsz hed hlast hf
      apply patchPos_self
      intro i p w hpi hh hw
      have hpm := List.mem_of_getElem? hpi
      have hm : p ∈ visPos fs := List.mem_filter.mpr ⟨hpm, by simp [hh]⟩
      rw [hf, visAt_eq_visPos hlast (i := i) (x := p) (by simp [visAt, hpi, hh])] at hw
      cases hw
      exact ih p (hsz p hpm) (hx.parts (hp p hm)) (hg.parts (hp p hm)) (hed p hpm)
    have derived : ∀ {n : String}, x.kind = .enum → x.typeOf = some (.named n) →
        x.toValue.toObj.kind = .enum → x.toValue.toObj.isTy (.named n) = false →
        patch E x x.toValue.toObj = x := by
      intro n hk ht hk' ht'
      rw [patch_enum_derived E hk ht, ht', Bool.false_and, if_neg (by simp), if_pos hk',
        roundtrip_noGaps hD hO hK (OK.typed hO hx ht) hg]
      exact he.parts.2.2.2.2.2.2.2.2 hk
    cases x with
    | hidden d => rw [patch_hidden]
    | scalar s => rw [Obj.toValue, Value.toObj, patch_scalar]; simp
    | nonzero k n =>
      rw [patch_nonzero, roundtrip_noGaps hD hO hK (OK.typed hO hx rfl) hg]; simp [Obj.reset]
    | struct tag fs =>
      cases tag with
      | derived n =>
        rw [toValue_struct, Value.toObj, patch_struct, if_pos (by rfl),
          named (fun p hp => List.mem_map_of_mem hp)
            (fun p hp => by have := sizeOf_snd_lt_of_mem hp; simp; omega)
            (he.parts.1 _ _ rfl) (hnd.1 _ _ rfl)]
        intro m
        simp only [Obj.field, toObj_visFields]
        exact lookup_toValue (hnd.1 _ _ rfl) m
      | dyn ns =>
        cases OK.typed hO hx rfl with
        | structValue ns' fs' _ hw ho => exact dynCase hw ho
    | tupleStruct tag fs =>
      cases tag with
      | derived n =>
        rw [toValue_tupleStruct, Value.toObj, patch_tupleStruct, if_pos (by rfl),
          posn (fun p hp => hp)
            (fun p hp => by have := List.sizeOf_lt_of_mem hp; simp; omega)
            (he.parts.2.2.1 _ _ rfl) (hl.1 _ _ rfl)]
        intro i
        simp only [Obj.fieldAt, toObj_visAt]
        simp [Function.comp_def]
      | dyn =>
        cases OK.typed hO hx rfl with
        | tupleStructValue fs' _ hw ho => exact dynCase hw ho
    | tuple tag fs =>
      cases tag with
      | typed ts =>
        have hall : visPos fs = fs := by
          rw [visPos, List.filter_eq_self]
          intro x hx'
          cases OK.typed hO hx rfl with
          | tuple _ _ hl h =>
            obtain ⟨i, hi⟩ := List.getElem?_of_mem hx'
            obtain ⟨t, ht⟩ := align_pos hl hi
            simp [(h i t x ht hi).not_hidden]
        rw [Obj.toValue, Value.toObj, patch_tuple, if_pos (by rfl),
          posn (fun p hp => hp)
            (fun p hp => by have := List.sizeOf_lt_of_mem hp; simp; omega)
            (he.parts.2.2.2.1 _ _ rfl) (hl.2.1 _ _ rfl)]
        intro i
        simp only [Obj.fieldAt, toObj_visAt, hall]
        simp [Function.comp_def]
      | dyn =>
        cases OK.typed hO hx rfl with
        | tupleValue fs' _ hw ho => exact dynCase hw ho
    | enumS tag vn fs =>
      cases tag with
      | derived n =>
        exact derived rfl rfl (by rw [toValue_enumS, Value.toObj]; rfl)
          (by rw [toValue_enumS, Value.toObj]; rfl)
      | dyn ns =>
        cases OK.typed hO hx rfl with
        | enumValueS v ns' fs' _ hw ho => exact dynCase hw ho
        | enumValueT v fs' _ hw ho => exact dynCase hw ho
        | enumValueU v _ ho => exact dynCase (.enumU v) ho
    | enumT tag vn fs =>
      cases tag with
      | derived n =>
        exact derived rfl rfl (by rw [toValue_enumT, Value.toObj]; rfl)
          (by rw [toValue_enumT, Value.toObj]; rfl)
      | dyn =>
        cases OK.typed hO hx rfl with
        | enumValueS v ns' fs' _ hw ho => exact dynCase hw ho
        | enumValueT v fs' _ hw ho => exact dynCase hw ho
        | enumValueU v _ ho => exact dynCase (.enumU v) ho
    | enumU tag vn =>
      cases tag with
      | derived n =>
        exact derived rfl rfl (by rw [Obj.toValue, Value.toObj]; rfl)
          (by rw [Obj.toValue, Value.toObj]; rfl)
      | dyn => exact dynCase (.enumU vn) (by rw [Value.toObj])
    | array t xs => rw [Obj.toValue, Value.toObj, patch_array]; simp [Obj.kind]
    | vec t xs =>
      rw [Obj.toValue, Value.toObj, patch_vec, if_pos (by rfl), patchPos_self]
      intro i y w hy _ hw
      simp only [Obj.fieldAt, List.getElem?_map, hy, Option.map_some, Option.some.injEq] at hw
      subst hw
      have hm := List.mem_of_getElem? hy
      exact ih y (by have := List.sizeOf_lt_of_mem hm; simp; omega) (hx.parts hm) (hg.parts hm)
        (he.parts.2.2.2.2.2.1 _ _ rfl _ hm)
    | map kt vt kvs =>
      cases OK.typed hO hx rfl with
      | map _ _ _ hs hk hv =>
        have hgk : ∀ p ∈ kvs, p.1.NoGaps := fun p hp => hg.parts (by
          simp only [Obj.parts, List.mem_append]; exact .inl (List.mem_map_of_mem hp))
        have hgv : ∀ p ∈ kvs, p.2.NoGaps := fun p hp => hg.parts (by
          simp only [Obj.parts, List.mem_append]; exact .inr (List.mem_map_of_mem hp))
        have hvk := map_value_keys hO hK hs hk
        have hperm := bmCollect_perm hvk
        rw [Obj.toValue, Value.toObj, patch_map, patchEntries_eq hO _ _ _ hs hk]
        · congr 1
          apply map_id_of_mem
          intro p hp
          rw [patchSeq_id]
          intro w hw
          obtain ⟨r, hr, hw⟩ := List.mem_filterMap.mp hw
          obtain ⟨r, hr', rfl⟩ := List.mem_map.mp hr
          obtain ⟨q, hq, rfl⟩ := List.mem_map.mp (hperm.mem_iff.mp hr')
          simp only [roundtrip_noGaps hD hO hK (hk q hq) (hgk q hq), Option.bind_some] at hw
          split at hw
          · next hc =>
            cases hw
            have hty := (hk q hq).reset hO hK
            have h2 : E.kcmp kt q.1 q.1.reset = .eq := hK kt _ _ (hk q hq) hty (by
              rw [toValue_reset, Value.cmp_self])
            rw [← (hO.cmpOn kt).eq_trans _ _ _ (hk q hq) hty (hk p hp) h2] at hc
            have := sorted_key_unique (hO.cmpOn kt) hk hs hq hp hc
            subst this
            exact ih q.2 (by have := sizeOf_snd_lt_of_mem hq; simp; omega) ⟨_, hv q hq⟩ (hgv q hq)
              (he.parts.2.2.2.2.2.2.2.1 _ _ _ rfl _ hq)
          · cases hw
        · intro p hp
          obtain ⟨r, hr', rfl⟩ := List.mem_map.mp hp
          obtain ⟨q, hq, rfl⟩ := List.mem_map.mp (hperm.mem_iff.mp hr')
          exact (hk q hq).toValue_wf.ok

end Mirror
