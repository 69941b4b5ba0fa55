import Verif.Lemmas.PatchSelf

set_option linter.unusedSimpArgs false

/-!
# Patching with a value of another kind, and with a full value of the same type
-/

namespace Mirror

theorem patch_other_kind {E : Env} (hO : OrdLaws E) {x v : Obj} (hx : x.OK E) (hv : v.OK E)
    (hk : v.kind ≠ x.kind) : patch E x v = x := by
  have derived : ∀ {n : String}, x.kind = .enum → x.typeOf = some (.named n) → patch E x v = x := by
    intro n h ht
    rw [patch_enum_derived E h ht, if_neg, if_neg (h ▸ hk)]
    intro hc
    simp only [Bool.and_eq_true] at hc
    have h1 := hv.isTy hO hc.1
    have h2 := OK.typed hO hx ht
    apply hk
    rw [h]
    cases h2 <;> simp only [Obj.kind, reduceCtorEq] at h
    all_goals
      rename_i hd _ _ _ _
      first
      | skip
    all_goals
      cases h1 <;> first | rfl | (rename_i hd' _ _ _; simp_all)
  cases x with
  | hidden d => exact patch_hidden ..
  | scalar s =>
    rw [patch_scalar, if_neg]
    intro h
    obtain ⟨s', rfl, _⟩ := isTy_scalar_inv h
    exact hk rfl
  | nonzero k n =>
    rw [patch_nonzero]
    cases h : fromReflect E (.nonzero k) v with
    | none => rfl
    | some y =>
      exfalso
      rw [fromReflect_nonzero] at h
      split at h
      · next hi => cases hv.isTy hO hi; exact hk rfl
      · split at h
        · exact hk rfl
        · cases h
  | struct tag fs => rw [patch_struct, if_neg (by exact hk)]
  | tupleStruct tag fs => rw [patch_tupleStruct, if_neg (by exact hk)]
  | tuple tag fs => rw [patch_tuple, if_neg (by exact hk)]
  | vec t fs => rw [patch_vec, if_neg (by exact hk)]
  | array t fs => rw [patch_array, if_neg (by exact hk)]
  | map kt vt kvs => exact patch_map_other E kt vt kvs hk
  | enumS tag vn fs =>
    cases tag with
    | derived n => exact derived rfl rfl
    | dyn ns => rw [patch_enum_dyn E rfl rfl, if_neg (by exact hk)]
  | enumT tag vn fs =>
    cases tag with
    | derived n => exact derived rfl rfl
    | dyn => rw [patch_enum_dyn E rfl rfl, if_neg (by exact hk)]
  | enumU tag vn =>
    cases tag with
    | derived n => exact derived rfl rfl
    | dyn => rw [patch_enum_dyn E rfl rfl, if_neg (by exact hk)]

/-! ## Full values -/

theorem enum_typeOf {E : Env} {n : String} {vds : List VariantDef} {c : Bool} {x : Obj}
    (hd : E.decl n = some ⟨.enum vds, c⟩) (h : HasTy E (.named n) x) :
    x.kind = .enum ∧ x.typeOf = some (.named n) := by
  cases h <;> first
    | exact ⟨rfl, rfl⟩
    | (rename_i hd' _ _ _; simp_all; done)

theorem struct_inv {E : Env} {n : String} {fds : List FieldDef} {c : Bool} {x : Obj}
    (hd : E.decl n = some ⟨.struct fds, c⟩) (h : HasTy E (.named n) x) :
    ∃ fs, x = .struct (.derived n) fs ∧ fs.map (·.1) = fds.map (·.name) ∧
      (∀ (i : Nat) fd p, fds[i]? = some fd → fs[i]? = some p → fd.skip = true →
        p.2.isHidden = true) ∧
      (∀ (i : Nat) fd p, fds[i]? = some fd → fs[i]? = some p → fd.skip = false →
        HasTy E fd.ty p.2) := by
  cases h with
  | struct _ fds' c' fs hd' h2 h3 h4 => rw [hd] at hd'; cases hd'; exact ⟨fs, rfl, h2, h3, h4⟩
  | tupleStruct _ _ _ _ hd' => rw [hd] at hd'; cases hd'
  | enumS _ _ _ _ _ _ hd' => rw [hd] at hd'; cases hd'
  | enumT _ _ _ _ _ _ hd' => rw [hd] at hd'; cases hd'
  | enumU _ _ _ _ hd' => rw [hd] at hd'; cases hd'

theorem tupleStruct_inv {E : Env} {n : String} {fds : List FieldDef} {c : Bool} {x : Obj}
    (hd : E.decl n = some ⟨.tupleStruct fds, c⟩) (h : HasTy E (.named n) x) :
    ∃ fs, x = .tupleStruct (.derived n) fs ∧ fs.length = fds.length ∧
      (∀ (i : Nat) fd x, fds[i]? = some fd → fs[i]? = some x → fd.skip = true →
        x.isHidden = true) ∧
      (∀ (i : Nat) fd x, fds[i]? = some fd → fs[i]? = some x → fd.skip = false →
        HasTy E fd.ty x) := by
  cases h with
  | tupleStruct _ fds' c' fs hd' h2 h3 h4 => rw [hd] at hd'; cases hd'; exact ⟨fs, rfl, h2, h3, h4⟩
  | struct _ _ _ _ hd' => rw [hd] at hd'; cases hd'
  | enumS _ _ _ _ _ _ hd' => rw [hd] at hd'; cases hd'
  | enumT _ _ _ _ _ _ hd' => rw [hd] at hd'; cases hd'
  | enumU _ _ _ _ hd' => rw [hd] at hd'; cases hd'

theorem reset_hidden {x y : Obj} (hx : x.isHidden = true) (hy : y.isHidden = true) :
    x.reset = y.reset := by
  cases x <;> simp [Obj.isHidden] at hx
  cases y <;> simp [Obj.isHidden] at hy
  simp [Obj.reset]

/-- Aligned named fields. -/
theorem patchNamed_full {E : Env} {fds : List FieldDef} {fx fy : List (String × Obj)} {v : Obj}
    (hn : (fds.map (·.name)).Nodup) (hx : fx.map (·.1) = fds.map (·.name))
    (hy : fy.map (·.1) = fds.map (·.name))
    (sx : ∀ (i : Nat) fd p, fds[i]? = some fd → fx[i]? = some p → fd.skip = true →
      p.2.isHidden = true)
    (sy : ∀ (i : Nat) fd p, fds[i]? = some fd → fy[i]? = some p → fd.skip = true →
      p.2.isHidden = true)
    (h : ∀ (i : Nat) fd p q, fds[i]? = some fd → fx[i]? = some p → fy[i]? = some q →
      fd.skip = false → (patchO E p.2 (v.field p.1)).reset = q.2.reset) :
    ((patchNamed E v fx).map fun p => (p.1, p.2.reset)) = fy.map fun p => (p.1, p.2.reset) := by
  have lx : fx.length = fds.length := by simpa using congrArg List.length hx
  have ly : fy.length = fds.length := by simpa using congrArg List.length hy
  simp only [patchNamed, List.map_map, Function.comp_def]
  apply ext_idx (by omega)
  intro i p q hp hq
  obtain ⟨fd, hfd⟩ := align_pos lx hp
  have e1 : p.1 = q.1 := by
    have h1 : (fx.map (·.1))[i]? = (fy.map (·.1))[i]? := by rw [hx, hy]
    simpa [hp, hq] using h1
  cases hs : fd.skip with
  | true =>
    have h1 := sx i fd p hfd hp hs
    rw [patchO_of_hidden E h1, e1, reset_hidden h1 (sy i fd q hfd hq hs)]
  | false => rw [h i fd p q hfd hp hq hs, e1]

theorem patchPos_full {E : Env} {fds : List FieldDef} {fx fy : List Obj} {v : Obj}
    (lx : fx.length = fds.length) (ly : fy.length = fds.length)
    (sx : ∀ (i : Nat) fd p, fds[i]? = some fd → fx[i]? = some p → fd.skip = true →
      p.isHidden = true)
    (sy : ∀ (i : Nat) fd p, fds[i]? = some fd → fy[i]? = some p → fd.skip = true →
      p.isHidden = true)
    (h : ∀ (i : Nat) fd p q, fds[i]? = some fd → fx[i]? = some p → fy[i]? = some q →
      fd.skip = false → (patchO E p (v.fieldAt i)).reset = q.reset) :
    ((patchPos E v fx).map fun p => p.reset) = fy.map fun p => p.reset := by
  apply ext_idx (by simp [patchPos]; omega)
  intro i p q hp hq
  simp only [patchPos, List.getElem?_mapIdx] at hp
  obtain ⟨a, ha, rfl⟩ := Option.map_eq_some_iff.mp hp
  obtain ⟨fd, hfd⟩ := align_pos ly hq
  cases hs : fd.skip with
  | true =>
    have h1 := sx i fd a hfd ha hs
    rw [patchO_of_hidden E h1]
    exact reset_hidden h1 (sy i fd q hfd hq hs)
  | false => exact h i fd a q hfd ha hq hs

theorem lookup_at {fds : List FieldDef} {fs : List (String × Obj)} (hn : (fds.map (·.name)).Nodup)
    (hx : fs.map (·.1) = fds.map (·.name)) {i : Nat} {q : String × Obj} (hq : fs[i]? = some q)
    (hh : q.2.isHidden = false) : lookup q.1 (visFields fs) = some q.2 := by
  have hnv : ((visFields fs).map (·.1)).Nodup := by
    rw [← hx] at hn; exact hn.sublist (List.filter_sublist.map _)
  exact lookup_of_mem_nodup hnv (List.mem_filter.mpr ⟨List.mem_of_getElem? hq, by simp [hh]⟩)

theorem name_at {fds : List FieldDef} {fx fy : List (String × Obj)}
    (hx : fx.map (·.1) = fds.map (·.name)) (hy : fy.map (·.1) = fds.map (·.name)) {i : Nat}
    {p q : String × Obj} (hp : fx[i]? = some p) (hq : fy[i]? = some q) : p.1 = q.1 := by
  have h1 : (fx.map (·.1))[i]? = (fy.map (·.1))[i]? := by rw [hx, hy]
  simpa [hp, hq] using h1

theorem patchTuple_full {E : Env} {ts : List Ty} {fx fy : List Obj} {v : Obj}
    (lx : fx.length = ts.length) (ly : fy.length = ts.length)
    (h : ∀ (i : Nat) t p q, ts[i]? = some t → fx[i]? = some p → fy[i]? = some q →
      (patchO E p (v.fieldAt i)).reset = q.reset) :
    ((patchPos E v fx).map fun p => p.reset) = fy.map fun p => p.reset := by
  apply ext_idx (by simp [patchPos]; omega)
  intro i p q hp hq
  simp only [patchPos, List.getElem?_mapIdx] at hp
  obtain ⟨a, ha, rfl⟩ := Option.map_eq_some_iff.mp hp
  obtain ⟨t, ht⟩ := align_pos ly hq
  exact h i t a q ht ha hq

theorem visAt_some {fs : List Obj} {i : Nat} {q : Obj} (h : fs[i]? = some q)
    (hh : q.isHidden = false) : visAt fs i = some q := by
  simp [visAt, h, hh]

theorem arrayFree_fields {x : Obj} (h : x.ArrayFree) :
    (∀ tag fs, x = .struct tag fs → ∀ p ∈ fs, p.2.ArrayFree) ∧
    (∀ tag fs, x = .tupleStruct tag fs → ∀ p ∈ fs, p.ArrayFree) ∧
    (∀ tag fs, x = .tuple tag fs → ∀ p ∈ fs, p.ArrayFree) ∧
    (∀ t xs, x ≠ .array t xs) := by
  refine ⟨?_, ?_, ?_, ?_⟩
  · rintro _ _ rfl; cases h; assumption
  · rintro _ _ rfl; cases h; assumption
  · rintro _ _ rfl; cases h; assumption
  · rintro _ _ rfl; cases h

/-- Patching with a full value makes the reflected contents equal. -/
theorem patch_full {E : Env} (hD : DeclsOK E) (hO : OrdLaws E) (hK : KeysShown E) {t : Ty}
    (ht : t.Fixed E true) : ∀ {x y : Obj}, HasTy E t x → HasTy E t y →
    (NoCloneOptOut E ∨ y.ArrayFree) → (patch E x y).reset = y.reset := by
  induction ht with
  | scalar k =>
    intro x y hx hy _
    cases hy with | scalar s => ?_
    generalize hk : s.kind = k at hx
    cases hx with | scalar s' => ?_
    rw [patch_scalar, if_pos]
    simp [Obj.isTy, Obj.typeOf, hk]
  | nonzero k =>
    intro x y hx hy _
    cases hx; cases hy
    rw [patch_nonzero, fromReflect_nonzero]
    simp [Obj.isTy, Obj.typeOf]
  | box t _ ih =>
    intro x y hx hy ha
    cases hx; cases hy
    exact ih ‹_› ‹_› ha
  | tuple ts _ ih =>
    intro x y hx hy ha
    cases hx with
    | tuple _ fx lx h1 =>
    cases hy with
    | tuple _ fy ly h2 =>
    rw [patch_tuple, if_pos (by rfl)]
    simp only [Obj.reset]
    rw [patchTuple_full lx ly]
    intro i t p q hti hp hq
    have hq' := h2 i t q hti hq
    rw [Obj.fieldAt, visAt_some hq hq'.not_hidden]
    refine ih t (List.mem_of_getElem? hti) (h1 i t p hti hp) hq' ?_
    exact ha.imp id fun ha => (arrayFree_fields ha).2.2.1 _ _ rfl _ (List.mem_of_getElem? hq)
  | array t n _ _ ih =>
    intro x y hx hy ha
    cases hx with
    | array _ fx h1 =>
    generalize hn : fx.length = n at hy
    cases hy with
    | array _ fy h2 =>
    have ha : NoCloneOptOut E := ha.resolve_right fun h => (arrayFree_fields h).2.2.2 _ _ rfl
    rw [patch_array, if_pos (by rfl)]
    simp only [Obj.reset]
    congr 1
    apply ext_idx (by simp [patchPos, hn])
    intro i p q hp hq
    simp only [patchPos, List.getElem?_mapIdx] at hp
    obtain ⟨a, ha', rfl⟩ := Option.map_eq_some_iff.mp hp
    simp only [Obj.fieldAt, hq, patchO]
    exact ih (h1 a (List.mem_of_getElem? ha')) (h2 q (List.mem_of_getElem? hq)) (.inl ha)
  | struct n fds c hd _ ih =>
    intro x y hx hy ha
    obtain ⟨fx, rfl, nx, sx, tx⟩ := struct_inv hd hx
    obtain ⟨fy, rfl, ny, sy, ty⟩ := struct_inv hd hy
    have hn := hD.struct_names n fds c hd
    rw [patch_struct, if_pos (by rfl)]
    simp only [Obj.reset]
    rw [patchNamed_full hn nx ny sx sy]
    intro i fd p q hfd hp hq hs
    have hq' := ty i fd q hfd hq hs
    rw [name_at nx ny hp hq, Obj.field, lookup_at hn ny hq hq'.not_hidden]
    refine ih fd (List.mem_of_getElem? hfd) hs (tx i fd p hfd hp hs) hq' ?_
    exact ha.imp id fun ha => (arrayFree_fields ha).1 _ _ rfl _ (List.mem_of_getElem? hq)
  | tupleStruct n fds c hd _ ih =>
    intro x y hx hy ha
    obtain ⟨fx, rfl, nx, sx, tx⟩ := tupleStruct_inv hd hx
    obtain ⟨fy, rfl, ny, sy, ty⟩ := tupleStruct_inv hd hy
    rw [patch_tupleStruct, if_pos (by rfl)]
    simp only [Obj.reset]
    rw [patchPos_full nx ny sx sy]
    intro i fd p q hfd hp hq hs
    have hq' := ty i fd q hfd hq hs
    rw [Obj.fieldAt, visAt_some hq hq'.not_hidden]
    refine ih fd (List.mem_of_getElem? hfd) hs (tx i fd p hfd hp hs) hq' ?_
    exact ha.imp id fun ha => (arrayFree_fields ha).2.1 _ _ rfl _ (List.mem_of_getElem? hq)
  | enum n vds c hd =>
    intro x y hx hy ha
    obtain ⟨k1, t1⟩ := enum_typeOf hd hx
    obtain ⟨k2, t2⟩ := enum_typeOf hd hy
    rw [patch_enum_derived E k1 t1]
    split
    · rfl
    · next hc =>
      have ha : y.ArrayFree := ha.resolve_left fun hno => hc (by
        have := hno n _ hd
        simp only at this
        simp [Obj.isTy, t2, hd, this])
      obtain ⟨z, hz, he⟩ := selfconv hD hO hK hy ha
      rw [hz]; exact he

theorem reset_reset (x : Obj) : x.reset.reset = x.reset := by
  induction x using Obj.ind with
  | h x ih =>
    have named : ∀ {fs : List (String × Obj)}, (∀ p ∈ fs, sizeOf p.2 < sizeOf x) →
        ((fs.map fun p => (p.1, p.2.reset)).map fun p => (p.1, p.2.reset)) =
          fs.map fun p => (p.1, p.2.reset) := by
      intro fs hs
      rw [List.map_map]
      exact List.map_congr_left fun p hp => by simp [ih p.2 (hs p hp)]
    have posn : ∀ {fs : List Obj}, (∀ p ∈ fs, sizeOf p < sizeOf x) →
        ((fs.map fun p => p.reset).map fun p => p.reset) = fs.map fun p => p.reset := by
      intro fs hs
      rw [List.map_map]
      exact List.map_congr_left fun p hp => by simp [ih p (hs p hp)]
    have sz : ∀ {fs : List Obj} {p}, p ∈ fs → sizeOf p < sizeOf fs := List.sizeOf_lt_of_mem
    cases x with
    | struct tag fs =>
      simp only [Obj.reset]
      rw [named fun p hp => by have := sizeOf_snd_lt_of_mem hp; simp; omega]
    | enumS tag v fs =>
      simp only [Obj.reset]
      rw [named fun p hp => by have := sizeOf_snd_lt_of_mem hp; simp; omega]
    | tupleStruct tag fs =>
      simp only [Obj.reset]
      rw [posn fun p hp => by have := sz hp; simp; omega]
    | tuple tag fs =>
      simp only [Obj.reset]
      rw [posn fun p hp => by have := sz hp; simp; omega]
    | enumT tag v fs =>
      simp only [Obj.reset]
      rw [posn fun p hp => by have := sz hp; simp; omega]
    | vec t fs =>
      simp only [Obj.reset]
      rw [posn fun p hp => by have := sz hp; simp; omega]
    | array t fs =>
      simp only [Obj.reset]
      rw [posn fun p hp => by have := sz hp; simp; omega]
    | map kt vt kvs =>
      simp only [Obj.reset, List.map_map]
      congr 1
      refine List.map_congr_left fun p hp => ?_
      have h1 := sizeOf_fst_lt_of_mem hp
      have h2 := sizeOf_snd_lt_of_mem hp
      simp [ih p.1 (by simp; omega), ih p.2 (by simp; omega)]
    | _ => simp [Obj.reset]

/-- Patching with the `to_value` of a full value makes the reflected contents equal. -/
theorem patch_full_value {E : Env} (hD : DeclsOK E) (hO : OrdLaws E) (hK : KeysShown E)
    {t : Ty} (ht : t.Fixed E false) : ∀ {x y : Obj}, HasTy E t x → HasTy E t y → y.NoGaps →
    (patch E x y.toValue.toObj).reset = y.reset := by
  induction ht with
  | scalar k =>
    intro x y hx hy hg
    cases hy with | scalar s => ?_
    generalize hk : s.kind = k at hx
    cases hx with | scalar s' => ?_
    rw [Obj.toValue, Value.toObj, patch_scalar, if_pos]
    simp [Obj.isTy, Obj.typeOf, hk]
  | nonzero k =>
    intro x y hx hy hg
    have := roundtrip_noGaps hD hO hK hy hg
    cases hx; cases hy
    rw [patch_nonzero, this]
    simp [Obj.reset]
  | box t _ ih =>
    intro x y hx hy hg
    cases hx; cases hy
    exact ih ‹_› ‹_› hg
  | array t n h => cases h
  | tuple ts _ ih =>
    intro x y hx hy hg
    cases hx with
    | tuple _ fx lx h1 =>
    cases hy with
    | tuple _ fy ly h2 =>
    rw [Obj.toValue, Value.toObj, patch_tuple, if_pos (by rfl)]
    simp only [Obj.reset]
    rw [patchTuple_full lx ly]
    intro i t p q hti hp hq
    simp only [Obj.fieldAt, toObj_visAt, List.getElem?_map, hq, Option.map_some, patchO]
    exact ih t (List.mem_of_getElem? hti) (h1 i t p hti hp) (h2 i t q hti hq)
      (hg.parts (List.mem_filter.mpr ⟨List.mem_of_getElem? hq, by simp [(h2 i t q hti hq).not_hidden]⟩))
  | struct n fds c hd _ ih =>
    intro x y hx hy hg
    obtain ⟨fx, rfl, nx, sx, tx⟩ := struct_inv hd hx
    obtain ⟨fy, rfl, ny, sy, ty⟩ := struct_inv hd hy
    have hn := hD.struct_names n fds c hd
    rw [toValue_struct, Value.toObj, patch_struct, if_pos (by rfl)]
    simp only [Obj.reset]
    rw [patchNamed_full hn nx ny sx sy]
    intro i fd p q hfd hp hq hs
    have hq' := ty i fd q hfd hq hs
    rw [name_at nx ny hp hq, Obj.field, toObj_visFields, lookup_toValue (ny ▸ hn),
      lookup_at hn ny hq hq'.not_hidden]
    exact ih fd (List.mem_of_getElem? hfd) hs (tx i fd p hfd hp hs) hq'
      (hg.parts (List.mem_map_of_mem (f := (·.2)) (List.mem_filter.mpr
        ⟨List.mem_of_getElem? hq, by simp [hq'.not_hidden]⟩)))
  | tupleStruct n fds c hd _ ih =>
    intro x y hx hy hg
    have hl := (hg.last hO ⟨_, hy⟩).1
    obtain ⟨fx, rfl, nx, sx, tx⟩ := tupleStruct_inv hd hx
    obtain ⟨fy, rfl, ny, sy, ty⟩ := tupleStruct_inv hd hy
    rw [toValue_tupleStruct, Value.toObj, patch_tupleStruct, if_pos (by rfl)]
    simp only [Obj.reset]
    rw [patchPos_full nx ny sx sy]
    intro i fd p q hfd hp hq hs
    have hq' := ty i fd q hfd hq hs
    have := visAt_eq_visPos (hl _ _ rfl) (visAt_some hq hq'.not_hidden)
    simp only [Obj.fieldAt, toObj_visAt, List.getElem?_map, this, Option.map_some, patchO]
    exact ih fd (List.mem_of_getElem? hfd) hs (tx i fd p hfd hp hs) hq'
      (hg.parts (List.mem_filter.mpr ⟨List.mem_of_getElem? hq, by simp [hq'.not_hidden]⟩))
  | enum n vds c hd =>
    intro x y hx hy hg
    obtain ⟨k1, t1⟩ := enum_typeOf hd hx
    obtain ⟨k2, t2⟩ := enum_typeOf hd hy
    have hv : y.toValue.toObj.kind = .enum ∧ y.toValue.toObj.isTy (.named n) = false := by
      cases hy with
      | struct _ _ _ _ hd' => rw [hd] at hd'; cases hd'
      | tupleStruct _ _ _ _ hd' => rw [hd] at hd'; cases hd'
      | enumS => rw [toValue_enumS, Value.toObj]; exact ⟨rfl, rfl⟩
      | enumT => rw [toValue_enumT, Value.toObj]; exact ⟨rfl, rfl⟩
      | enumU => rw [Obj.toValue, Value.toObj]; exact ⟨rfl, rfl⟩
    rw [patch_enum_derived E k1 t1, hv.2, Bool.false_and, if_neg (by simp), if_pos hv.1,
      roundtrip_noGaps hD hO hK hy hg]
    exact reset_reset y

end Mirror
