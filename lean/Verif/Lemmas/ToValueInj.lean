import Verif.Lemmas.RoundTrip

/-!
# Two values of one type with the same `Value` differ only in skipped fields
-/

set_option linter.unusedSimpArgs false

namespace Mirror

theorem vis_pos_inj : ∀ {fds : List FieldDef} {fs gs : List Obj}, fs.length = fds.length → gs.length = fds.length →
    (∀ (i : Nat) fd x, fds[i]? = some fd → fs[i]? = some x → x.isHidden = fd.skip) →
    (∀ (i : Nat) fd x, fds[i]? = some fd → gs[i]? = some x → x.isHidden = fd.skip) →
    (∀ (i : Nat) fd x y, fds[i]? = some fd → fs[i]? = some x → gs[i]? = some y → fd.skip = false →
      x.toValue = y.toValue → x.reset = y.reset) →
    (visPos fs).map (fun x => x.toValue) = (visPos gs).map (fun x => x.toValue) →
    fs.map (fun x => x.reset) = gs.map fun x => x.reset
  | [], fs, gs, h1, h2, _, _, _, _ => by
    have h1 := List.length_eq_zero_iff.mp h1
    have h2 := List.length_eq_zero_iff.mp h2
    subst h1; subst h2; rfl
  | fd :: fds, [], gs, h1, _, _, _, _, _ => by cases h1
  | fd :: fds, x :: fs, [], _, h2, _, _, _, _ => by cases h2
  | fd :: fds, x :: fs, y :: gs, h1, h2, h3, h4, h5, h6 => by
    have hx := h3 0 fd x rfl rfl
    have hy := h4 0 fd y rfl rfl
    have hrec := fun h => vis_pos_inj (fds := fds) (fs := fs) (gs := gs) (by simpa using h1) (by simpa using h2)
      (fun i fd x h h' => h3 (i + 1) fd x h h') (fun i fd x h h' => h4 (i + 1) fd x h h')
      (fun i fd x y h h' h'' => h5 (i + 1) fd x y h h' h'') h
    cases hs : fd.skip with
    | true =>
      rw [hs] at hx hy
      have e : x.reset = y.reset := by
        cases x <;> simp only [Obj.isHidden, Bool.false_eq_true] at hx
        cases y <;> simp only [Obj.isHidden, Bool.false_eq_true] at hy
        simp [Obj.reset]
      simp only [visPos, List.filter_cons, hx, hy, Bool.not_true, Bool.false_eq_true, if_false] at h6
      simp only [List.map_cons, e, hrec h6]
    | false =>
      rw [hs] at hx hy
      simp only [visPos, List.filter_cons, hx, hy, Bool.not_false, if_true, List.map_cons, List.cons.injEq] at h6
      simp only [List.map_cons, h5 0 fd x y rfl rfl rfl hs h6.1, hrec h6.2]

theorem mem_unique {fs : List (String × Obj)} (hn : (fs.map (·.1)).Nodup) {i : Nat} {p q : String × Obj}
    (hi : fs[i]? = some p) (hq : q ∈ fs) (h : q.1 = p.1) : q = p := by
  have a := lookup_of_mem_nodup hn (n := p.1) (List.mem_of_getElem? hi : (p.1, p.2) ∈ fs)
  have b := lookup_of_mem_nodup hn (n := p.1) (show (p.1, q.2) ∈ fs by rw [← h]; exact hq)
  rw [a] at b
  obtain ⟨q1, q2⟩ := q
  obtain ⟨p1, p2⟩ := p
  simp only at h b
  rw [h, Option.some.inj b]

theorem vis_named_inj {fds : List FieldDef} {fs gs : List (String × Obj)} (hn : (fds.map (·.name)).Nodup)
    (h1 : fs.map (·.1) = fds.map (·.name)) (h2 : gs.map (·.1) = fds.map (·.name))
    (h3 : ∀ (i : Nat) fd p, fds[i]? = some fd → fs[i]? = some p → p.2.isHidden = fd.skip)
    (h4 : ∀ (i : Nat) fd p, fds[i]? = some fd → gs[i]? = some p → p.2.isHidden = fd.skip)
    (h5 : ∀ (i : Nat) fd p q, fds[i]? = some fd → fs[i]? = some p → gs[i]? = some q → fd.skip = false →
      p.2.toValue = q.2.toValue → p.2.reset = q.2.reset)
    (h6 : bmOfList strCmp ((visFields fs).map fun p => (p.1, p.2.toValue)) =
      bmOfList strCmp ((visFields gs).map fun p => (p.1, p.2.toValue))) :
    fs.map (fun p => (p.1, p.2.reset)) = gs.map fun p => (p.1, p.2.reset) := by
  have nd : ∀ {fs : List (String × Obj)}, (fs.map (·.1)).Nodup →
      (((visFields fs).map fun p => (p.1, p.2.toValue)).map (·.1)).Nodup := by
    intro fs h
    rw [List.map_map]
    exact List.Nodup.sublist (List.filter_sublist.map _) h
  have hfn : (fs.map (·.1)).Nodup := h1 ▸ hn
  have hgn : (gs.map (·.1)).Nodup := h2 ▸ hn
  have hp : ((visFields fs).map fun p => (p.1, p.2.toValue)).Perm ((visFields gs).map fun p => (p.1, p.2.toValue)) :=
    (bmOfList_str_perm (nd hfn)).symm.trans (h6 ▸ bmOfList_str_perm (nd hgn))
  apply List.ext_getElem?
  intro i
  simp only [List.getElem?_map]
  cases hf : fs[i]? with
  | none =>
    have : gs[i]? = none := by
      have e : fs.length = gs.length := by simpa using congrArg List.length (h1.trans h2.symm)
      rw [List.getElem?_eq_none_iff] at hf ⊢; omega
    rw [this]
  | some p =>
    obtain ⟨fd, hfd, hne⟩ := align_named h1 hf
    obtain ⟨q, hq, hne'⟩ := align_named' h2 hfd
    rw [hq]
    have e1 : p.1 = q.1 := hne.symm.trans hne'
    have e2 : p.2.reset = q.2.reset := by
      have hx := h3 i fd p hfd hf
      have hy := h4 i fd q hfd hq
      cases hs : fd.skip with
      | true =>
        rw [hs] at hx hy
        obtain ⟨_, x⟩ := p
        obtain ⟨_, y⟩ := q
        cases x <;> simp only [Obj.isHidden, Bool.false_eq_true] at hx
        cases y <;> simp only [Obj.isHidden, Bool.false_eq_true] at hy
        simp [Obj.reset]
      | false =>
        rw [hs] at hx hy
        refine h5 i fd p q hfd hf hq hs ?_
        have hm : (p.1, p.2.toValue) ∈ (visFields gs).map fun p => (p.1, p.2.toValue) :=
          hp.subset (List.mem_map.mpr ⟨p, List.mem_filter.mpr ⟨List.mem_of_getElem? hf, by simp [hx]⟩, rfl⟩)
        obtain ⟨r, hr, he⟩ := List.mem_map.mp hm
        obtain ⟨he1, he2⟩ := Prod.mk.inj he
        rw [mem_unique hgn hq (visFields_sub hr) (he1.trans e1)] at he2
        exact he2.symm
    simp only [Option.map_some, e1, e2]

theorem map_toValue_perm {E : Env} (hO : OrdLaws E) (hK : KeysShown E) {kt : Ty} {kvs : List (Obj × Obj)}
    (hs : BMSorted (E.kcmp kt) kvs) (hk : ∀ p ∈ kvs, HasTy E kt p.1) :
    (bmCollect Value.cmp (kvs.map fun p => (p.1.toValue, p.2.toValue))).Perm
      (kvs.map fun p => (p.1.toValue, p.2.toValue)) := by
  refine bmCollect_perm ?_
  rw [List.pairwise_map]
  refine List.Pairwise.imp_of_mem ?_ hs
  intro p q hp hq hlt he
  have := hK kt q.1 p.1 (hk q hq) (hk p hp) he
  rw [hO.swap kt p.1 q.1 (hk p hp) (hk q hq), hlt] at this
  simp at this

theorem toValue_inj_reset {E : Env} (hD : DeclsOK E) (hO : OrdLaws E) (hK : KeysShown E) {t : Ty} {x : Obj}
    (hx : HasTy E t x) : ∀ {y : Obj}, HasTy E t y → x.toValue = y.toValue → x.reset = y.reset := by
  have uniq : ∀ {n : String} {vds : List VariantDef} {c : Bool} {a b : VariantDef}, E.decl n = some ⟨.enum vds, c⟩ →
      a ∈ vds → b ∈ vds → a.name = b.name → a = b := by
    intro n vds c a b hd ha hb he
    have h1 := find_variant (hD.variant_names n vds c hd) ha
    have h2 := find_variant (hD.variant_names n vds c hd) hb
    rw [he] at h1
    exact Option.some.inj (h1.symm.trans h2)
  have hid : ∀ {b : Bool} {x : Obj}, (b = true → x.isHidden = true) → (b = false → ∃ t, HasTy E t x) →
      x.isHidden = b := by
    intro b x h1 h2
    cases b with
    | true => exact h1 rfl
    | false => obtain ⟨_, h⟩ := h2 rfl; exact h.not_hidden
  induction hx with
  | scalar s =>
    intro y hy h
    generalize hT : Ty.scalar s.kind = T at hy
    cases hy <;> simp only [reduceCtorEq, Ty.scalar.injEq] at hT
    simp only [Obj.toValue, Value.scalar.injEq] at h
    rw [h]
  | nonzero k n hn =>
    intro y hy h
    cases hy with
    | nonzero _ m hm =>
      simp only [Obj.toValue, Value.scalar.injEq, Scalar.int.injEq, true_and] at h
      rw [h]
  | struct n fds c fs hd h2 h3 h4 ih =>
    intro y hy h
    cases hy with
    | struct _ fds' c' gs hd' h2' h3' h4' =>
      rw [hd] at hd'; cases hd'
      rw [toValue_struct, toValue_struct] at h
      simp only [Value.struct.injEq] at h
      have := vis_named_inj (hD.struct_names _ _ _ hd) h2 h2'
        (fun i fd p a b => hid (h3 i fd p a b) fun hs => ⟨_, h4 i fd p a b hs⟩)
        (fun i fd p a b => hid (h3' i fd p a b) fun hs => ⟨_, h4' i fd p a b hs⟩)
        (fun i fd p q a b c hs => ih i fd p a b hs (h4' i fd q a c hs)) h.2
      simp only [Obj.reset, this]
    | tupleStruct _ _ _ _ hd' => rw [hd] at hd'; cases hd'
    | enumS _ _ _ _ _ _ hd' => rw [hd] at hd'; cases hd'
    | enumT _ _ _ _ _ _ hd' => rw [hd] at hd'; cases hd'
    | enumU _ _ _ _ hd' => rw [hd] at hd'; cases hd'
  | tupleStruct n fds c fs hd h2 h3 h4 ih =>
    intro y hy h
    cases hy with
    | tupleStruct _ fds' c' gs hd' h2' h3' h4' =>
      rw [hd] at hd'; cases hd'
      rw [toValue_tupleStruct, toValue_tupleStruct] at h
      simp only [Value.tupleStruct.injEq] at h
      have := vis_pos_inj h2 h2'
        (fun i fd p a b => hid (h3 i fd p a b) fun hs => ⟨_, h4 i fd p a b hs⟩)
        (fun i fd p a b => hid (h3' i fd p a b) fun hs => ⟨_, h4' i fd p a b hs⟩)
        (fun i fd p q a b c hs => ih i fd p a b hs (h4' i fd q a c hs)) h
      simp only [Obj.reset, this]
    | struct _ _ _ _ hd' => rw [hd] at hd'; cases hd'
    | enumS _ _ _ _ _ _ hd' => rw [hd] at hd'; cases hd'
    | enumT _ _ _ _ _ _ hd' => rw [hd] at hd'; cases hd'
    | enumU _ _ _ _ hd' => rw [hd] at hd'; cases hd'
  | enumS n vds c vn fds fs hd hv h2 h3 h4 ih =>
    intro y hy h
    cases hy with
    | struct _ _ _ _ hd' => rw [hd] at hd'; cases hd'
    | tupleStruct _ _ _ _ hd' => rw [hd] at hd'; cases hd'
    | enumS _ vds' c' vn' fds' gs hd' hv' h2' h3' h4' =>
      rw [hd] at hd'; cases hd'
      rw [toValue_enumS, toValue_enumS] at h
      simp only [Value.enumS.injEq] at h
      obtain ⟨rfl, _, h⟩ := h
      cases uniq hd hv hv' rfl
      have := vis_named_inj (hD.variant_fields _ _ _ _ _ hd hv) h2 h2'
        (fun i fd p a b => hid (h3 i fd p a b) fun hs => ⟨_, h4 i fd p a b hs⟩)
        (fun i fd p a b => hid (h3' i fd p a b) fun hs => ⟨_, h4' i fd p a b hs⟩)
        (fun i fd p q a b c hs => ih i fd p a b hs (h4' i fd q a c hs)) h
      simp only [Obj.reset, this]
    | enumT => rw [toValue_enumS, toValue_enumT] at h; cases h
    | enumU => rw [toValue_enumS, Obj.toValue] at h; cases h
  | enumT n vds c vn fds fs hd hv h2 h3 h4 ih =>
    intro y hy h
    cases hy with
    | struct _ _ _ _ hd' => rw [hd] at hd'; cases hd'
    | tupleStruct _ _ _ _ hd' => rw [hd] at hd'; cases hd'
    | enumT _ vds' c' vn' fds' gs hd' hv' h2' h3' h4' =>
      rw [hd] at hd'; cases hd'
      rw [toValue_enumT, toValue_enumT] at h
      simp only [Value.enumT.injEq] at h
      obtain ⟨rfl, h⟩ := h
      cases uniq hd hv hv' rfl
      have := vis_pos_inj h2 h2'
        (fun i fd p a b => hid (h3 i fd p a b) fun hs => ⟨_, h4 i fd p a b hs⟩)
        (fun i fd p a b => hid (h3' i fd p a b) fun hs => ⟨_, h4' i fd p a b hs⟩)
        (fun i fd p q a b c hs => ih i fd p a b hs (h4' i fd q a c hs)) h
      simp only [Obj.reset, this]
    | enumS => rw [toValue_enumS, toValue_enumT] at h; cases h
    | enumU => rw [toValue_enumT, Obj.toValue] at h; cases h
  | enumU n vds c vn hd hv =>
    intro y hy h
    cases hy with
    | struct _ _ _ _ hd' => rw [hd] at hd'; cases hd'
    | tupleStruct _ _ _ _ hd' => rw [hd] at hd'; cases hd'
    | enumS => rw [toValue_enumS, Obj.toValue] at h; cases h
    | enumT => rw [toValue_enumT, Obj.toValue] at h; cases h
    | enumU => simp only [Obj.toValue, Value.enumU.injEq] at h; rw [h]
  | tuple ts fs hn ht ih =>
    intro y hy h
    cases hy with
    | tuple _ gs hn' ht' =>
      simp only [Obj.toValue, Value.tuple.injEq] at h
      have : fs.map (fun x => x.reset) = gs.map fun x => x.reset := by
        apply List.ext_getElem?
        intro i
        have e := congrArg (·[i]?) h
        simp only [List.getElem?_map] at e ⊢
        cases ha : fs[i]? with
        | none =>
          rw [ha] at e
          cases hb : gs[i]? with
          | none => rfl
          | some b => rw [hb] at e; cases e
        | some a =>
          rw [ha] at e
          cases hb : gs[i]? with
          | none => rw [hb] at e; cases e
          | some b =>
            rw [hb] at e
            obtain ⟨t, ht0⟩ := align_pos hn ha
            simp only [Option.map_some, Option.some.injEq] at e ⊢
            exact ih i t a ht0 ha (ht' i t b ht0 hb) e
      simp only [Obj.reset, this]
  | vec t xs hx ih =>
    intro y hy h
    cases hy with
    | vec _ ys hy =>
      simp only [Obj.toValue, Value.list.injEq] at h
      have : xs.map (fun x => x.reset) = ys.map fun x => x.reset := by
        apply List.ext_getElem?
        intro i
        have e := congrArg (·[i]?) h
        simp only [List.getElem?_map] at e ⊢
        cases ha : xs[i]? <;> cases hb : ys[i]? <;> rw [ha, hb] at e <;>
          simp only [Option.map_none, Option.map_some, reduceCtorEq, Option.some.injEq] at e ⊢
        exact ih _ (List.mem_of_getElem? ha) (hy _ (List.mem_of_getElem? hb)) e
      simp only [Obj.reset, this]
  | array t xs hx ih =>
    intro y hy h
    generalize hT : Ty.array t xs.length = T at hy
    cases hy <;> simp only [reduceCtorEq, Ty.array.injEq] at hT
    rename_i u ys hy
    obtain ⟨rfl, _⟩ := hT
    simp only [Obj.toValue, Value.list.injEq] at h
    have : xs.map (fun x => x.reset) = ys.map fun x => x.reset := by
      apply List.ext_getElem?
      intro i
      have e := congrArg (·[i]?) h
      simp only [List.getElem?_map] at e ⊢
      cases ha : xs[i]? <;> cases hb : ys[i]? <;> rw [ha, hb] at e <;>
        simp only [Option.map_none, Option.map_some, reduceCtorEq, Option.some.injEq] at e ⊢
      exact ih _ (List.mem_of_getElem? ha) (hy _ (List.mem_of_getElem? hb)) e
    simp only [Obj.reset, this]
  | map kt vt kvs hs hk hv ihk ihv =>
    intro y hy h
    cases hy with
    | map _ _ lws hs' hk' hv' =>
      simp only [Obj.toValue, Value.map.injEq] at h
      have hp := (map_toValue_perm hO hK hs hk).symm.trans (h ▸ map_toValue_perm hO hK hs' hk')
      obtain ⟨K, hperm, hKe⟩ := perm_map_inv hp.symm kvs rfl
      have hr : lws.map (fun p => (p.1.reset, p.2.reset)) = K.map fun p => (p.1.reset, p.2.reset) := by
        apply List.ext_getElem?
        intro i
        have e := congrArg (·[i]?) hKe
        simp only [List.getElem?_map] at e ⊢
        cases ha : lws[i]? <;> cases hb : K[i]? <;> rw [ha, hb] at e <;>
          simp only [Option.map_none, Option.map_some, reduceCtorEq, Option.some.injEq, Prod.mk.injEq] at e ⊢
        have ma := List.mem_of_getElem? ha
        have mb := hperm.subset (List.mem_of_getElem? hb)
        exact ⟨(ihk _ mb (hk' _ ma) e.1.symm).symm, (ihv _ mb (hv' _ ma) e.2.symm).symm⟩
      have hs1 := reset_sorted hO hK hs hk fun p hp => (hk p hp).reset hO hK
      have hs2 := reset_sorted hO hK hs' hk' fun p hp => (hk' p hp).reset hO hK
      have hp2 : (kvs.map fun p => (p.1.reset, p.2.reset)).Perm (lws.map fun p => (p.1.reset, p.2.reset)) :=
        hr ▸ hperm.symm.map _
      have : (kvs.map fun p => (p.1.reset, p.2.reset)) = lws.map fun p => (p.1.reset, p.2.reset) := by
        refine List.Perm.eq_of_pairwise (le := fun p q : Obj × Obj => E.kcmp kt p.1 q.1 = .lt) ?_ hs1 hs2 hp2
        intro a b ha hb h h'
        obtain ⟨a, ma, rfl⟩ := List.mem_map.mp ha
        obtain ⟨b, mb, rfl⟩ := List.mem_map.mp hb
        rw [hO.swap kt _ _ ((hk a ma).reset hO hK) ((hk' b mb).reset hO hK), h] at h'
        cases h'
      simp only [Obj.reset, this]
  | box t o _ ih =>
    intro y hy h
    cases hy with
    | box _ _ hy => exact ih hy h
  | value v o hw ho =>
    intro y hy h
    cases hy with
    | value w _ hw' ho' => subst ho ho'; rw [Value.toObj_toValue hw, Value.toObj_toValue hw'] at h; rw [h]
  | structValue ns fs o hw ho =>
    intro y hy h
    cases hy with
    | structValue _ _ _ hw' ho' => subst ho ho'; rw [Value.toObj_toValue hw, Value.toObj_toValue hw'] at h; rw [h]
  | tupleStructValue fs o hw ho =>
    intro y hy h
    cases hy with
    | tupleStructValue _ _ hw' ho' => subst ho ho'; rw [Value.toObj_toValue hw, Value.toObj_toValue hw'] at h; rw [h]
  | tupleValue fs o hw ho =>
    intro y hy h
    cases hy with
    | tupleValue _ _ hw' ho' => subst ho ho'; rw [Value.toObj_toValue hw, Value.toObj_toValue hw'] at h; rw [h]
  | enumValueS v ns fs o hw ho =>
    intro y hy h
    rw [ho, Value.toObj_toValue hw] at h
    cases hy with
    | enumValueS _ _ _ _ hw' ho' => rw [ho', Value.toObj_toValue hw'] at h; rw [ho, ho', h]
    | enumValueT _ _ _ hw' ho' => rw [ho', Value.toObj_toValue hw'] at h; cases h
    | enumValueU _ _ ho' => rw [ho', Value.toObj_toValue (.enumU _)] at h; cases h
  | enumValueT v fs o hw ho =>
    intro y hy h
    rw [ho, Value.toObj_toValue hw] at h
    cases hy with
    | enumValueS _ _ _ _ hw' ho' => rw [ho', Value.toObj_toValue hw'] at h; cases h
    | enumValueT _ _ _ hw' ho' => rw [ho', Value.toObj_toValue hw'] at h; rw [ho, ho', h]
    | enumValueU _ _ ho' => rw [ho', Value.toObj_toValue (.enumU _)] at h; cases h
  | enumValueU v o ho =>
    intro y hy h
    rw [ho, Value.toObj_toValue (.enumU _)] at h
    cases hy with
    | enumValueS _ _ _ _ hw' ho' => rw [ho', Value.toObj_toValue hw'] at h; cases h
    | enumValueT _ _ _ hw' ho' => rw [ho', Value.toObj_toValue hw'] at h; cases h
    | enumValueU _ _ ho' => rw [ho', Value.toObj_toValue (.enumU _)] at h; rw [ho, ho', h]

end Mirror
