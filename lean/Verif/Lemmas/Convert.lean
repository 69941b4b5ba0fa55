import Verif.Spec.Convert
import Verif.Lemmas.Sound
import Verif.Lemmas.Containers

set_option linter.unusedSimpArgs false

/-!
# `fromReflect` builds what `ConvStep` says
-/

namespace Mirror

theorem forall2_of_index {α β} {R : α → β → Prop} {l : List α} {r : List β} (hl : r.length = l.length)
    (h : ∀ (i : Nat) x y, l[i]? = some x → r[i]? = some y → R x y) : List.Forall₂ R l r := by
  induction l generalizing r with
  | nil => cases r <;> simp at hl ⊢
  | cons a l ih =>
    cases r with
    | nil => simp at hl
    | cons b r =>
      refine .cons (h 0 a b rfl rfl) (ih (by simpa using hl) fun i x y hx hy => ?_)
      exact h (i + 1) x y (by simpa using hx) (by simpa using hy)

theorem index_of_forall2 {α β} {R : α → β → Prop} {l : List α} {r : List β} (h : List.Forall₂ R l r) :
    r.length = l.length ∧ ∀ (i : Nat) x y, l[i]? = some x → r[i]? = some y → R x y := by
  induction h with
  | nil => simp
  | cons h _ ih =>
    refine ⟨by simp [ih.1], ?_⟩
    intro i x y hx hy
    cases i with
    | zero => simp at hx hy; subst hx hy; exact h
    | succ i => exact ih.2 i x y (by simpa using hx) (by simpa using hy)

theorem optAll_map_mk {α β} {f : α → Option β} {l : List α} {r : List β} (hl : r.length = l.length)
    (h : ∀ (i : Nat) x y, l[i]? = some x → r[i]? = some y → f x = some y) :
    optAll (l.map f) = some r := by
  rw [optAll_eq_some]
  apply List.ext_getElem?
  intro i
  simp only [List.getElem?_map]
  cases hx : l[i]? with
  | none =>
    have : r[i]? = none := by rw [List.getElem?_eq_none_iff] at hx ⊢; omega
    simp [this]
  | some x =>
    obtain ⟨y, hy⟩ := align_pos hl.symm hx
    simp [hy, h i x y hx hy]

theorem optAll_mapIdx_mk {α β} {f : Nat → α → Option β} {l : List α} {r : List β}
    (hl : r.length = l.length)
    (h : ∀ (i : Nat) x y, l[i]? = some x → r[i]? = some y → f i x = some y) :
    optAll (l.mapIdx f) = some r := by
  rw [optAll_eq_some]
  apply List.ext_getElem?
  intro i
  simp only [List.getElem?_map, List.getElem?_mapIdx]
  cases hx : l[i]? with
  | none =>
    have : r[i]? = none := by rw [List.getElem?_eq_none_iff] at hx ⊢; omega
    simp [this]
  | some x =>
    obtain ⟨y, hy⟩ := align_pos hl.symm hx
    simp [hy, h i x y hx hy]

theorem convField_iff {E : Env} {c : Bool} {t : Ty} {v y : Obj} :
    convField E c t v = some y ↔ FieldFrom c (fun t o y => fromReflect E t o = some y) t v y := by
  simp only [convField, FieldFrom, Obj.isTy]
  cases c <;> by_cases h : v.typeOf = some t <;> simp [h, @eq_comm _ v y]

theorem namedFrom_iff {E : Env} {c : Bool} {o : Obj} {fds : List FieldDef} {fs : List (String × Obj)} :
    optAll (fds.map (convNamed E c o)) = some fs ↔
      NamedFrom c (fun t o y => fromReflect E t o = some y) o fds fs := by
  constructor
  · intro h
    obtain ⟨hl, h⟩ := optAll_map_inv h
    refine ⟨?_, ?_, ?_⟩
    · apply List.ext_getElem?
      intro i
      simp only [List.getElem?_map]
      cases hfd : fds[i]? with
      | none =>
        have : fs[i]? = none := by rw [List.getElem?_eq_none_iff] at hfd ⊢; omega
        simp [this]
      | some fd =>
        obtain ⟨p, hp⟩ := align_pos hl.symm hfd
        have := h i fd p hfd hp
        simp only [convNamed] at this
        split at this
        · cases this; simp [hp]
        · obtain ⟨v, _, this⟩ := Option.bind_eq_some_iff.mp this
          obtain ⟨y, _, rfl⟩ := Option.map_eq_some_iff.mp this
          simp [hp]
    · intro i fd p hfd hp hs
      have := h i fd p hfd hp
      simp [convNamed, hs] at this
      simp [← this]
    · intro i fd p hfd hp hs
      have := h i fd p hfd hp
      simp only [convNamed, hs, Bool.false_eq_true, if_false] at this
      obtain ⟨v, hv, this⟩ := Option.bind_eq_some_iff.mp this
      obtain ⟨y, hy, rfl⟩ := Option.map_eq_some_iff.mp this
      exact ⟨v, hv, convField_iff.mp hy⟩
  · intro h
    have hl : fs.length = fds.length := by simpa using congrArg List.length h.names
    refine optAll_map_mk hl ?_
    intro i fd p hfd hp
    have hn : p.1 = fd.name := by
      have := congrArg (·[i]?) h.names
      simpa [hfd, hp] using this
    obtain ⟨n, x⟩ := p
    simp only at hn; subst hn
    cases hs : fd.skip with
    | true =>
      have := h.skipped i fd _ hfd hp hs
      simp only at this
      simp [convNamed, hs, this]
    | false =>
      obtain ⟨v, hv, hf⟩ := h.shown i fd _ hfd hp hs
      simp [convNamed, hs, hv, convField_iff.mpr hf]

theorem posFrom_iff {E : Env} {c : Bool} {o : Obj} {fds : List FieldDef} {fs : List Obj} :
    optAll (fds.mapIdx (convPos E c o)) = some fs ↔
      PosFrom c (fun t o y => fromReflect E t o = some y) o fds fs := by
  constructor
  · intro h
    obtain ⟨hl, h⟩ := optAll_mapIdx_inv h
    refine ⟨hl, ?_, ?_⟩
    · intro i fd p hfd hp hs
      have := h i fd p hfd hp
      simp [convPos, hs] at this
      simp [← this]
    · intro i fd p hfd hp hs
      have := h i fd p hfd hp
      simp only [convPos, hs, Bool.false_eq_true, if_false] at this
      obtain ⟨v, hv, hy⟩ := Option.bind_eq_some_iff.mp this
      exact ⟨v, hv, convField_iff.mp hy⟩
  · intro h
    refine optAll_mapIdx_mk h.length ?_
    intro i fd p hfd hp
    cases hs : fd.skip with
    | true =>
      have := h.skipped i fd _ hfd hp hs
      simp [convPos, hs, this]
    | false =>
      obtain ⟨v, hv, hf⟩ := h.shown i fd _ hfd hp hs
      simp [convPos, hs, hv, convField_iff.mpr hf]

theorem yields_inj {σ α : Type} {next : σ → Option α × σ} {s : σ} {l r : List α}
    (h : Yields next s l) (h' : Yields next s r) : l = r :=
  List.ext_getElem? fun i => (h i).symm.trans (h' i)

theorem fromReflect_enumValue {E : Env} {o : Obj} {y : Obj} :
    fromReflect E .enumValue o = some y ↔
      (∃ vn, o.variantKind = some .struct ∧ o.variantName = some vn ∧
        y = (Value.enumS vn (dynStruct o.namedIter).1 (dynStruct o.namedIter).2).toObj) ∨
      (∃ vn, o.variantKind = some .tuple ∧ o.variantName = some vn ∧
        y = (Value.enumT vn (o.posIter.map fun x => x.toValue)).toObj) ∨
      (∃ vn, o.variantKind = some .unit ∧ o.variantName = some vn ∧ y = (Value.enumU vn).toObj) := by
  rw [fromReflect]
  cases o <;> simp [Obj.variantKind, Obj.variantName, eq_comm]

/-- One step: what `fromReflect` returns, in terms of what it returns for the parts. -/
theorem fromReflect_step {E : Env} (hD : DeclsOK E) (t : Ty) (o y : Obj) :
    fromReflect E t o = some y ↔ ConvStep E (fun t o y => fromReflect E t o = some y) t o y := by
  constructor
  · intro h
    match t, h with
    | .scalar k, h =>
      rw [fromReflect_scalar] at h
      split at h
      · next hty =>
        cases h
        simp only [Obj.isTy, beq_iff_eq] at hty
        unfold Obj.typeOf at hty
        split at hty <;> simp at hty
        subst hty; exact .scalar _
      · cases h
    | .nonzero k, h =>
      rw [fromReflect_nonzero] at h
      split at h
      · next hty =>
        cases h
        simp only [Obj.isTy, beq_iff_eq] at hty
        unfold Obj.typeOf at hty
        split at hty <;> simp at hty
        subst hty; exact .nonzero _ _
      · split at h
        · split at h
          · next hh => cases h; obtain ⟨rfl, h0⟩ := hh; exact .nonzeroInt _ _ h0
          · cases h
        · cases h
    | .named n, h =>
      cases hd : E.decl n with
      | none => rw [fromReflect_nodecl hd] at h; cases h
      | some d =>
        obtain ⟨sh, c⟩ := d
        cases sh with
        | struct fds =>
          rw [fromReflect_struct hd] at h
          split at h
          · next hk =>
            obtain ⟨fs, hfs, rfl⟩ := Option.map_eq_some_iff.mp h
            exact .struct n fds c o fs hd hk (namedFrom_iff.mp hfs)
          · cases h
        | tupleStruct fds =>
          rw [fromReflect_tupleStruct hd] at h
          split at h
          · next hk =>
            obtain ⟨fs, hfs, rfl⟩ := Option.map_eq_some_iff.mp h
            exact .tupleStruct n fds c o fs hd hk (posFrom_iff.mp hfs)
          · cases h
        | enum vds =>
          rw [fromReflect_enum hd] at h
          obtain ⟨vn, hvn, h1⟩ := Option.bind_eq_some_iff.mp h
          obtain ⟨vd, hvd, h2⟩ := Option.bind_eq_some_iff.mp h1
          clear h1
          have hm := List.mem_of_find?_eq_some hvd
          have hname : vd.name = vn := by simpa using List.find?_some hvd
          cases vd with
          | struct vn' fds =>
            simp only [VariantDef.name] at hname; subst hname
            obtain ⟨fs, hfs, rfl⟩ := Option.map_eq_some_iff.mp h2
            exact .enumS n vds c _ fds o fs hd hm hvn (namedFrom_iff.mp hfs)
          | tuple vn' fds =>
            simp only [VariantDef.name] at hname; subst hname
            obtain ⟨fs, hfs, rfl⟩ := Option.map_eq_some_iff.mp h2
            exact .enumT n vds c _ fds o fs hd hm hvn (posFrom_iff.mp hfs)
          | unit vn' =>
            simp only [VariantDef.name] at hname; subst hname
            cases h2; exact .enumU n vds c _ o hd hm hvn
    | .tuple ts, h =>
      rw [fromReflect_tuple] at h
      split at h
      · next hk =>
        obtain ⟨fs, hfs, rfl⟩ := Option.map_eq_some_iff.mp h
        obtain ⟨hl, hi⟩ := optAll_mapIdx_inv hfs
        exact .tuple ts o fs hk hl fun i t x ht hx => Option.bind_eq_some_iff.mp (hi i t x ht hx)
      · cases h
    | .vec t, h =>
      cases o <;> simp [fromReflect] at h
      obtain ⟨ys, hys, rfl⟩ := h
      obtain ⟨hl, hi⟩ := optAll_map_inv hys
      exact .vec _ _ _ _ (forall2_of_index hl hi)
    | .array t n, h =>
      cases o <;> (first | (simp [fromReflect] at h; done) | skip)
      rw [fromReflect_array] at h
      obtain ⟨ys, hys, h⟩ := Option.bind_eq_some_iff.mp h
      split at h
      · next hn =>
        obtain ⟨hl, hi⟩ := optAll_map_inv hys
        cases h; rw [hl] at hn; subst hn
        exact .array _ _ _ _ (forall2_of_index hl hi)
      · cases h
    | .map kt vt, h =>
      cases o <;> (first | (simp [fromReflect] at h; done) | skip)
      rw [fromReflect_map] at h
      obtain ⟨ys, hys, rfl⟩ := Option.map_eq_some_iff.mp h
      obtain ⟨hl, hi⟩ := optAll_map_inv hys
      refine .map _ _ _ _ _ _ (forall2_of_index hl fun i x y hx hy => ?_)
      obtain ⟨k, hk, hh⟩ := Option.bind_eq_some_iff.mp (hi i x y hx hy)
      obtain ⟨v, hv, rfl⟩ := Option.map_eq_some_iff.mp hh
      exact ⟨hk, hv⟩
    | .box t, h => rw [fromReflect_box] at h; exact .box _ _ _ h
    | .value, h => rw [fromReflect_value] at h; cases h; exact .value _
    | .structValue, h =>
      rw [fromReflect] at h
      split at h
      · next hk =>
        cases h
        exact .structValue o o.namedIter hk (nextNamed_yields (.inl hk))
      · cases h
    | .tupleStructValue, h =>
      rw [fromReflect] at h
      split at h
      · next hk =>
        cases h
        exact .tupleStructValue o o.posIter hk (nextPos_yields (.inl hk))
      · cases h
    | .tupleValue, h =>
      rw [fromReflect] at h
      split at h
      · next hk =>
        cases h
        exact .tupleValue o o.posIter hk (nextPos_yields (.inr (.inl hk)))
      · cases h
    | .enumValue, h =>
      rcases fromReflect_enumValue.mp h with ⟨vn, hk, hn, rfl⟩ | ⟨vn, hk, hn, rfl⟩ | ⟨vn, hk, hn, rfl⟩
      · exact .enumValueS o vn _ o.namedIter hk hn (nextNamed_yields (.inr hk)) rfl
      · refine .enumValueT o vn o.posIter hk hn ?_
        have := nextVariant_yields o
        rwa [Obj.variantIter, hk] at this
      · exact .enumValueU o vn hk hn
  · intro h
    cases h with
    | scalar s => rw [fromReflect_scalar]; simp [Obj.isTy, Obj.typeOf]
    | nonzero k n => rw [fromReflect_nonzero]; simp [Obj.isTy, Obj.typeOf]
    | nonzeroInt k n h => rw [fromReflect_nonzero]; simp [Obj.isTy, Obj.typeOf, h]
    | struct n fds c o fs hd hk h => rw [fromReflect_struct hd, if_pos hk, namedFrom_iff.mpr h]; rfl
    | tupleStruct n fds c o fs hd hk h =>
      rw [fromReflect_tupleStruct hd, if_pos hk, posFrom_iff.mpr h]; rfl
    | enumS n vds c vn fds o fs hd hm hn h =>
      have : vds.find? (fun d => d.name = vn) = some (.struct vn fds) :=
        find_variant (hD.variant_names n vds c hd) hm
      rw [fromReflect_enum hd, hn, Option.bind_some, this, Option.bind_some]
      simp only [namedFrom_iff.mpr h]; rfl
    | enumT n vds c vn fds o fs hd hm hn h =>
      have : vds.find? (fun d => d.name = vn) = some (.tuple vn fds) :=
        find_variant (hD.variant_names n vds c hd) hm
      rw [fromReflect_enum hd, hn, Option.bind_some, this, Option.bind_some]
      simp only [posFrom_iff.mpr h]; rfl
    | enumU n vds c vn o hd hm hn =>
      have : vds.find? (fun d => d.name = vn) = some (.unit vn) :=
        find_variant (hD.variant_names n vds c hd) hm
      rw [fromReflect_enum hd, hn, Option.bind_some, this, Option.bind_some]
    | tuple ts o fs hk hl h =>
      rw [fromReflect_tuple, if_pos hk]
      rw [optAll_mapIdx_mk hl fun i t x ht hx => Option.bind_eq_some_iff.mpr (h i t x ht hx)]
      rfl
    | vec t u xs ys h =>
      obtain ⟨hl, hi⟩ := index_of_forall2 h
      rw [fromReflect_vec, optAll_map_mk hl hi]; rfl
    | array t u xs ys h =>
      obtain ⟨hl, hi⟩ := index_of_forall2 h
      rw [fromReflect_array, optAll_map_mk hl hi]; simp [hl]
    | map kt vt u w kvs l h =>
      obtain ⟨hl, hi⟩ := index_of_forall2 h
      rw [fromReflect_map, optAll_map_mk hl]
      · rfl
      · intro i x y hx hy
        obtain ⟨h1, h2⟩ := hi i x y hx hy
        simp [h1, h2]
    | box t o y h => rw [fromReflect_box]; exact h
    | value o => rw [fromReflect_value]
    | structValue o l hk h =>
      obtain rfl := yields_inj h (nextNamed_yields (.inl hk))
      rw [fromReflect, if_pos hk]; rfl
    | tupleStructValue o l hk h =>
      obtain rfl := yields_inj h (nextPos_yields (.inl hk))
      rw [fromReflect, if_pos hk]
    | tupleValue o l hk h =>
      obtain rfl := yields_inj h (nextPos_yields (.inr (.inl hk)))
      rw [fromReflect, if_pos hk]
    | enumValueS o vn s l hk hn h hs =>
      obtain rfl := yields_inj h (nextNamed_yields (.inr hk))
      subst hs
      exact fromReflect_enumValue.mpr (.inl ⟨vn, hk, hn, rfl⟩)
    | enumValueT o vn l hk hn h =>
      have := nextVariant_yields o
      rw [Obj.variantIter, hk] at this
      have := yields_inj h this
      have : l = o.posIter := (List.map_injective_iff.mpr fun a b h => by cases h; rfl) this
      subst this
      exact fromReflect_enumValue.mpr (.inr (.inl ⟨vn, hk, hn, rfl⟩))
    | enumValueU o vn hk hn => exact fromReflect_enumValue.mpr (.inr (.inr ⟨vn, hk, hn, rfl⟩))

theorem FieldFrom.mono {c : Bool} {conv conv' : Ty → Obj → Obj → Prop} {t : Ty} {v y : Obj}
    (hc : conv t v y → conv' t v y) (h : FieldFrom c conv t v y) : FieldFrom c conv' t v y := by
  rcases h with h | ⟨h1, h2⟩
  · exact .inl h
  · exact .inr ⟨h1, hc h2⟩

/-- The parts on which a conversion step depends are smaller. -/
theorem ConvStep.mono {E : Env} {conv conv' : Ty → Obj → Obj → Prop} {t : Ty} {o y : Obj}
    (hc : ∀ t' o' y', Prod.Lex (· < ·) (· < ·) (sizeOf o', sizeOf t') (sizeOf o, sizeOf t) →
      conv t' o' y' → conv' t' o' y')
    (h : ConvStep E conv t o y) : ConvStep E conv' t o y := by
  have named : ∀ {c fds fs}, NamedFrom c conv o fds fs → NamedFrom c conv' o fds fs := by
    intro c fds fs h
    refine ⟨h.names, h.skipped, fun i fd p hfd hp hs => ?_⟩
    obtain ⟨v, hv, hf⟩ := h.shown i fd p hfd hp hs
    exact ⟨v, hv, hf.mono (hc _ _ _ (.left _ _ (Obj.field_size hv)))⟩
  have pos : ∀ {c fds fs}, PosFrom c conv o fds fs → PosFrom c conv' o fds fs := by
    intro c fds fs h
    refine ⟨h.length, h.skipped, fun i fd p hfd hp hs => ?_⟩
    obtain ⟨v, hv, hf⟩ := h.shown i fd p hfd hp hs
    exact ⟨v, hv, hf.mono (hc _ _ _ (.left _ _ (Obj.fieldAt_size hv)))⟩
  cases h with
  | scalar s => exact .scalar s
  | nonzero k n => exact .nonzero k n
  | nonzeroInt k n h => exact .nonzeroInt k n h
  | struct n fds c o fs hd hk h => exact .struct n fds c o fs hd hk (named h)
  | tupleStruct n fds c o fs hd hk h => exact .tupleStruct n fds c o fs hd hk (pos h)
  | enumS n vds c vn fds o fs hd hm hn h => exact .enumS n vds c vn fds o fs hd hm hn (named h)
  | enumT n vds c vn fds o fs hd hm hn h => exact .enumT n vds c vn fds o fs hd hm hn (pos h)
  | enumU n vds c vn o hd hm hn => exact .enumU n vds c vn o hd hm hn
  | tuple ts o fs hk hl h =>
    refine .tuple ts o fs hk hl fun i t x ht hx => ?_
    obtain ⟨v, hv, hf⟩ := h i t x ht hx
    exact ⟨v, hv, hc _ _ _ (.left _ _ (Obj.fieldAt_size hv)) hf⟩
  | vec t u xs ys h =>
    obtain ⟨hl, hi⟩ := index_of_forall2 h
    refine .vec t u xs ys (forall2_of_index hl fun i x y hx hy => hc _ _ _ (.left _ _ ?_) (hi i x y hx hy))
    have := sizeOf_lt_of_getElem? hx; simp; omega
  | array t u xs ys h =>
    obtain ⟨hl, hi⟩ := index_of_forall2 h
    refine .array t u xs ys (forall2_of_index hl fun i x y hx hy => hc _ _ _ (.left _ _ ?_) (hi i x y hx hy))
    have := sizeOf_lt_of_getElem? hx; simp; omega
  | map kt vt u w kvs l h =>
    obtain ⟨hl, hi⟩ := index_of_forall2 h
    refine .map kt vt u w kvs l (forall2_of_index hl fun i x y hx hy => ?_)
    have h1 := sizeOf_fst_lt_of_mem (List.mem_of_getElem? hx)
    have h2 := sizeOf_snd_lt_of_mem (List.mem_of_getElem? hx)
    exact ⟨hc _ _ _ (.left _ _ (by simp; omega)) (hi i x y hx hy).1,
      hc _ _ _ (.left _ _ (by simp; omega)) (hi i x y hx hy).2⟩
  | box t o y h => exact .box t o y (hc _ _ _ (.right _ (by simp)) h)
  | value o => exact .value o
  | structValue o l hk h => exact .structValue o l hk h
  | tupleStructValue o l hk h => exact .tupleStructValue o l hk h
  | tupleValue o l hk h => exact .tupleValue o l hk h
  | enumValueS o vn s l hk hn h hs => exact .enumValueS o vn s l hk hn h hs
  | enumValueT o vn l hk hn h => exact .enumValueT o vn l hk hn h
  | enumValueU o vn hk hn => exact .enumValueU o vn hk hn

theorem fromReflect_conv {E : Env} (hD : DeclsOK E) (t : Ty) (o y : Obj)
    (h : fromReflect E t o = some y) : ConvertsTo E t o y := by
  intro R hR
  apply hR
  refine ((fromReflect_step hD t o y).mp h).mono fun t' o' y' hlt h' => ?_
  exact fromReflect_conv hD t' o' y' h' R hR
termination_by (sizeOf o, sizeOf t)
decreasing_by exact hlt

theorem convertsTo_iff {E : Env} (hD : DeclsOK E) {t : Ty} {o y : Obj} :
    ConvertsTo E t o y ↔ fromReflect E t o = some y :=
  ⟨fun h => h (fun t o y => fromReflect E t o = some y)
    fun t o y => (fromReflect_step hD t o y).mpr, fromReflect_conv hD t o y⟩

theorem not_convertsTo_iff {E : Env} (hD : DeclsOK E) {t : Ty} {o : Obj} :
    (∀ y, ¬ ConvertsTo E t o y) ↔ fromReflect E t o = none := by
  simp only [convertsTo_iff hD]
  cases fromReflect E t o <;> simp

end Mirror
