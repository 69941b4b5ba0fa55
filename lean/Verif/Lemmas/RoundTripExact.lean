import Verif.Lemmas.SelfConvExact
import Verif.Lemmas.ReflectEqExtra

set_option linter.unusedSimpArgs false

/-!
# The values that survive the round trip through `Value`
-/

namespace Mirror

theorem filter_length_le {α} {q : α → Bool} {l : List α} {J i : Nat} {y : α}
    (h : ∀ (k : Nat) x, l[k]? = some x → q x = true → k ≤ J) (hi : l[i]? = some y)
    (hy : q y = false) (hij : i ≤ J) : (l.filter q).length ≤ J := by
  have e : l.filter q = (l.take (J + 1)).filter q := by
    conv => lhs; rw [← List.take_append_drop (J + 1) l]
    rw [List.filter_append]
    have : (l.drop (J + 1)).filter q = [] := by
      rw [List.filter_eq_nil_iff]
      intro a ha hqa
      obtain ⟨k, hk⟩ := List.getElem?_of_mem ha
      rw [List.getElem?_drop] at hk
      have := h _ _ hk hqa
      omega
    simp [this]
  rw [e]
  have : ((l.take (J + 1)).filter q).length < (l.take (J + 1)).length := by
    rw [List.length_filter_lt_length_iff_exists]
    refine ⟨y, ?_, by simp [hy]⟩
    exact List.mem_of_getElem? (i := i) (by rw [List.getElem?_take_of_lt (by omega)]; exact hi)
  have := List.length_take_le (J + 1) l
  omega

theorem conv_pos_none {E : Env} {c : Bool} {fds : List FieldDef} {fs : List Obj} {src : Obj}
    {i j : Nat} {fi fj : FieldDef}
    (hi : fds[i]? = some fi) (hj : fds[j]? = some fj) (hsi : fi.skip = true) (hsj : fj.skip = false)
    (hij : i < j) (h2 : fs.length = fds.length)
    (h3 : ∀ (i : Nat) fd p, fds[i]? = some fd → fs[i]? = some p → fd.skip = true →
      p.isHidden = true)
    (hsrc : ∀ i, src.fieldAt i = ((visPos fs)[i]?).map fun x => x.toValue.toObj) :
    optAll (fds.mapIdx (convPos E c src)) = none := by
  cases hr : optAll (fds.mapIdx (convPos E c src)) with
  | none => rfl
  | some r =>
    exfalso
    obtain ⟨hl, hr⟩ := optAll_mapIdx_inv hr
    have key : ∀ (k : Nat) fd, fds[k]? = some fd → fd.skip = false → k < (visPos fs).length := by
      intro k fd hk hs
      obtain ⟨y, hy⟩ := align_pos hl.symm hk
      have := hr k fd y hk hy
      simp only [convPos, hs, Bool.false_eq_true, if_false, hsrc] at this
      obtain ⟨v, hv, _⟩ := Option.bind_eq_some_iff.mp this
      obtain ⟨w, hw, _⟩ := Option.map_eq_some_iff.mp hv
      exact (List.getElem?_eq_some_iff.mp hw).1
    obtain ⟨x, hx⟩ := align_pos h2.symm hi
    have hjl := key j fj hj hsj
    have := filter_length_le (q := fun x : Obj => !x.isHidden) (l := fs)
      (J := (visPos fs).length - 1) (i := i) (y := x) (by
        intro k z hz hq
        obtain ⟨fd, hfd⟩ := align_pos h2 hz
        cases hs : fd.skip with
        | true => simp [h3 k fd z hfd hz hs] at hq
        | false => have := key k fd hfd hs; omega)
      hx (by simp [h3 i fi x hi hx hsi]) (by omega)
    simp only [visPos] at this hjl
    omega

/-- Only values without gaps come back. -/
theorem noGaps_of_roundtrip {E : Env} (hD : DeclsOK E) (hO : OrdLaws E) (hK : KeysShown E) {t : Ty}
    {o : Obj} (h : HasTy E t o) (hr : (fromReflect E t o.toValue.toObj).isSome) : o.NoGaps := by
  have field : ∀ {c t x}, HasTy E t x →
      ((fromReflect E t x.toValue.toObj).isSome → x.NoGaps) → ∀ y,
      convField E c t x.toValue.toObj = some y → x.NoGaps := by
    intro c t x hx ih y hy
    apply ih
    simp only [convField] at hy
    split at hy
    · next h =>
      simp only [Obj.isTy, Bool.and_eq_true, beq_iff_eq] at h
      have ht : HasTy E t x.toValue.toObj := by
        rw [same_type_reset hO hx h.2]; exact hx.reset hO hK
      obtain ⟨z, hz, _⟩ := selfconv hD hO hK ht hx.toValue_wf.arrayFree
      rw [hz]; rfl
    · rw [hy]; rfl
  have pos : ∀ {c : Bool} {fds : List FieldDef} {fs : List Obj} {src : Obj} {r : List Obj},
      fs.length = fds.length →
      (∀ (i : Nat) fd p, fds[i]? = some fd → fs[i]? = some p → fd.skip = true → p.isHidden = true) →
      (∀ (i : Nat) fd p, fds[i]? = some fd → fs[i]? = some p → fd.skip = false → HasTy E fd.ty p) →
      (∀ (i : Nat) fd p, fds[i]? = some fd → fs[i]? = some p → fd.skip = false →
        (fromReflect E fd.ty p.toValue.toObj).isSome → p.NoGaps) →
      (∀ i, src.fieldAt i = ((visPos fs)[i]?).map fun x => x.toValue.toObj) →
      optAll (fds.mapIdx (convPos E c src)) = some r →
      HiddenLast fs ∧ ∀ x ∈ visPos fs, x.NoGaps := by
    intro c fds fs src r h2 h3 h4 ih hsrc hr
    have hl : HiddenLast fs := by
      apply hiddenLast_of_skipsLast h2 ?_ h3 h4
      intro i j fd fd' hi hj hs hs'
      apply Classical.byContradiction
      intro hij
      have : i ≠ j := by rintro rfl; rw [hi] at hj; cases hj; simp [hs] at hs'
      rw [conv_pos_none hi hj hs hs' (by omega) h2 h3 hsrc] at hr
      cases hr
    refine ⟨hl, ?_⟩
    intro x hx
    obtain ⟨hx, hv⟩ := List.mem_filter.mp hx
    obtain ⟨i, hi⟩ := List.getElem?_of_mem hx
    obtain ⟨fd, hfd⟩ := align_pos h2 hi
    cases hs : fd.skip with
    | true => simp [h3 i fd x hfd hi hs] at hv
    | false =>
      obtain ⟨hlr, hr⟩ := optAll_mapIdx_inv hr
      obtain ⟨y, hy⟩ := align_pos hlr.symm hfd
      have := hr i fd y hfd hy
      have hvi : (visPos fs)[i]? = some x := by
        rw [visPos, filter_getElem?_of_prefix, hi]
        intro j z hj hz
        cases hzh : z.isHidden with
        | false => rfl
        | true => have := hl j i z x hz hi hzh (by simpa using hv); omega
      simp only [convPos, hs, Bool.false_eq_true, if_false, hsrc, hvi, Option.map_some,
        Option.bind_some] at this
      exact field (h4 i fd x hfd hi hs) (ih i fd x hfd hi hs) y this
  have named : ∀ {c : Bool} {fds : List FieldDef} {fs : List (String × Obj)} {src : Obj}
      {r : List (String × Obj)}, (fds.map (·.name)).Nodup → fs.map (·.1) = fds.map (·.name) →
      (∀ (i : Nat) fd p, fds[i]? = some fd → fs[i]? = some p → fd.skip = true → p.2.isHidden = true) →
      (∀ (i : Nat) fd p, fds[i]? = some fd → fs[i]? = some p → fd.skip = false → HasTy E fd.ty p.2) →
      (∀ (i : Nat) fd p, fds[i]? = some fd → fs[i]? = some p → fd.skip = false →
        (fromReflect E fd.ty p.2.toValue.toObj).isSome → p.2.NoGaps) →
      (∀ n, src.field n = (lookup n (visFields fs)).map fun x => x.toValue.toObj) →
      optAll (fds.map (convNamed E c src)) = some r →
      ∀ x ∈ (visFields fs).map (·.2), x.NoGaps := by
    intro c fds fs src r hn h2 h3 h4 ih hsrc hr x hx
    obtain ⟨p, hp, rfl⟩ := List.mem_map.mp hx
    obtain ⟨hp, hv⟩ := List.mem_filter.mp hp
    obtain ⟨i, hi⟩ := List.getElem?_of_mem hp
    have hll := congrArg List.length h2
    simp only [List.length_map] at hll
    obtain ⟨fd, hfd⟩ := align_pos hll hi
    cases hs : fd.skip with
    | true => simp [h3 i fd p hfd hi hs] at hv
    | false =>
      obtain ⟨hlr, hr⟩ := optAll_map_inv hr
      obtain ⟨y, hy⟩ := align_pos hlr.symm hfd
      have := hr i fd y hfd hy
      obtain ⟨p', hp', he⟩ := align_named' h2 hfd
      rw [hi] at hp'; cases hp'
      have ht := h4 i fd p hfd hi hs
      have hl := lookup_vis_of_idx (h2 ▸ hn) hi ht.not_hidden
      rw [← he] at hl
      simp only [convNamed, hs, Bool.false_eq_true, if_false, hsrc, hl, Option.map_some,
        Option.bind_some, Option.map_eq_some_iff] at this
      obtain ⟨z, hz, _⟩ := this
      exact field ht (ih i fd p hfd hi hs) z hz
  induction h with
  | scalar s => exact .mk _ ⟨nofun, nofun⟩ nofun
  | nonzero k n h => exact .mk _ ⟨nofun, nofun⟩ nofun
  | struct n fds c fs hd h2 h3 h4 ih =>
    have hn := hD.struct_names n fds c hd
    rw [fromReflect_struct hd, toValue_struct, Value.toObj] at hr
    simp only [Obj.kind, if_true, Option.isSome_map] at hr
    obtain ⟨r, hr⟩ := Option.isSome_iff_exists.mp hr
    refine .mk _ ⟨nofun, nofun⟩ (named hn h2 h3 h4 ih ?_ hr)
    intro m
    simp only [Obj.field, toObj_visFields]
    exact lookup_toValue (h2 ▸ hn) m
  | enumS n vds c vn fds fs hd hv h2 h3 h4 ih =>
    have hn := hD.variant_fields n vds c vn fds hd hv
    rw [fromReflect_enum hd, toValue_enumS, Value.toObj] at hr
    have hf : vds.find? (fun d => d.name = vn) = some _ :=
      find_variant (hD.variant_names n vds c hd) hv
    simp only [Obj.variantName, Option.bind_some, hf, Option.isSome_map] at hr
    obtain ⟨r, hr⟩ := Option.isSome_iff_exists.mp hr
    refine .mk _ ⟨nofun, nofun⟩ (named hn h2 h3 h4 ih ?_ hr)
    intro m
    simp only [Obj.field, toObj_visFields]
    exact lookup_toValue (h2 ▸ hn) m
  | tupleStruct n fds c fs hd h2 h3 h4 ih =>
    rw [fromReflect_tupleStruct hd, toValue_tupleStruct, Value.toObj] at hr
    simp only [Obj.kind, if_true, Option.isSome_map] at hr
    obtain ⟨r, hr⟩ := Option.isSome_iff_exists.mp hr
    have := pos h2 h3 h4 ih (by
      intro i
      simp only [Obj.fieldAt, toObj_visAt, List.getElem?_map, Option.map_map]; rfl) hr
    exact .mk _ ⟨by rintro _ _ ⟨⟩; exact this.1, nofun⟩ this.2
  | enumT n vds c vn fds fs hd hv h2 h3 h4 ih =>
    rw [fromReflect_enum hd, toValue_enumT, Value.toObj] at hr
    have hf : vds.find? (fun d => d.name = vn) = some _ :=
      find_variant (hD.variant_names n vds c hd) hv
    simp only [Obj.variantName, Option.bind_some, hf, Option.isSome_map] at hr
    obtain ⟨r, hr⟩ := Option.isSome_iff_exists.mp hr
    have := pos h2 h3 h4 ih (by
      intro i
      simp only [Obj.fieldAt, toObj_visAt, List.getElem?_map, Option.map_map]; rfl) hr
    exact .mk _ ⟨nofun, by rintro _ _ _ ⟨⟩; exact this.1⟩ this.2
  | enumU n vds c vn hd hv => exact .mk _ ⟨nofun, nofun⟩ nofun
  | tuple ts fs hl h ih =>
    rw [fromReflect_tuple, Obj.toValue, Value.toObj] at hr
    simp only [Obj.kind, if_true, Option.isSome_map] at hr
    obtain ⟨r, hr⟩ := Option.isSome_iff_exists.mp hr
    obtain ⟨hlr, hr⟩ := optAll_mapIdx_inv hr
    refine .mk _ ⟨nofun, nofun⟩ fun x hx => ?_
    obtain ⟨i, hi⟩ := List.getElem?_of_mem (List.mem_filter.mp hx).1
    obtain ⟨t, ht⟩ := align_pos hl hi
    obtain ⟨y, hy⟩ := align_pos hlr.symm ht
    have := hr i t y ht hy
    simp only [Obj.fieldAt, toObj_visAt, List.getElem?_map, hi, Option.map_some, Option.bind_some] at this
    exact ih i t x ht hi (by rw [this]; rfl)
  | vec t xs _ ih =>
    rw [Obj.toValue, Value.toObj, fromReflect_vec, List.map_map, List.map_map] at hr
    simp only [Option.isSome_map, optAll_isSome_iff, List.mem_map, forall_exists_index, and_imp,
      forall_apply_eq_imp_iff₂] at hr
    exact .mk _ ⟨nofun, nofun⟩ fun x hx => ih x hx (hr x hx)
  | array t xs _ ih =>
    rw [Obj.toValue, Value.toObj, fromReflect_array, List.map_map, List.map_map] at hr
    have hr : (optAll (xs.map fun x => fromReflect E t x.toValue.toObj)).isSome := by
      obtain ⟨y, hy⟩ := Option.isSome_iff_exists.mp hr
      obtain ⟨z, hz, _⟩ := Option.bind_eq_some_iff.mp hy
      exact Option.isSome_iff_exists.mpr ⟨z, hz⟩
    simp only [Option.isSome_map, optAll_isSome_iff, List.mem_map, forall_exists_index, and_imp,
      forall_apply_eq_imp_iff₂] at hr
    exact .mk _ ⟨nofun, nofun⟩ fun x hx => ih x hx (hr x hx)
  | map kt vt kvs hs hk hv ihk ihv =>
    rw [Obj.toValue, Value.toObj, fromReflect_map, List.map_map] at hr
    have hne : (kvs.map fun p => (p.1.toValue, p.2.toValue)).Pairwise
        fun p q => Value.cmp q.1 p.1 ≠ .eq := by
      rw [List.pairwise_map]
      refine List.Pairwise.imp_of_mem ?_ hs
      intro p q hp hq hlt he
      have := hK kt q.1 p.1 (hk q hq) (hk p hp) he
      rw [hO.swap kt p.1 q.1 (hk p hp) (hk q hq), hlt] at this
      simp at this
    obtain ⟨K, hperm, hKe⟩ := perm_map_inv (bmCollect_perm hne) kvs rfl
    rw [hKe, List.map_map] at hr
    simp only [Option.isSome_map, optAll_isSome_iff, List.mem_map, forall_exists_index, and_imp,
      forall_apply_eq_imp_iff₂] at hr
    have key : ∀ p ∈ kvs, p.1.NoGaps ∧ p.2.NoGaps := by
      intro p hp
      have := hr p (hperm.symm.subset hp)
      simp only [Function.comp_def] at this
      cases h1 : fromReflect E kt p.1.toValue.toObj with
      | none => simp [h1] at this
      | some a =>
        cases h2 : fromReflect E vt p.2.toValue.toObj with
        | none => simp [h1, h2] at this
        | some b => exact ⟨ihk p hp (by simp [h1]), ihv p hp (by simp [h2])⟩
    refine .mk _ ⟨nofun, nofun⟩ fun x hx => ?_
    rcases List.mem_append.mp hx with hx | hx
    · obtain ⟨p, hp, rfl⟩ := List.mem_map.mp hx
      exact (key p hp).1
    · obtain ⟨p, hp, rfl⟩ := List.mem_map.mp hx
      exact (key p hp).2
  | box t o _ ih => rw [fromReflect_box] at hr; exact ih hr
  | value v o h ho => subst ho; exact h.noGaps
  | structValue ns fs o h ho => subst ho; exact h.noGaps
  | tupleStructValue fs o h ho => subst ho; exact h.noGaps
  | tupleValue fs o h ho => subst ho; exact h.noGaps
  | enumValueS v ns fs o h ho => subst ho; exact h.noGaps
  | enumValueT v fs o h ho => subst ho; exact h.noGaps
  | enumValueU v o ho => subst ho; exact (Value.WF.enumU v).noGaps

end Mirror
