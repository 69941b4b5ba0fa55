import Verif.Spec.Equal
import Verif.Lemmas.ReflectEqLaws

set_option linter.unusedSimpArgs false

/-!
# `reflect_eq` of values of the same type is agreement everywhere
-/

namespace Mirror

/-- Two sorted lists of the same length, each key of the first equal to some key of the second: the
keys are equal position by position. -/
theorem sorted_align {κ α β : Type} {P : κ → Prop} {cmp : κ → κ → Ordering} (hc : CmpOn P cmp) :
    ∀ {l : List (κ × α)} {m : List (κ × β)}, (∀ p ∈ l, P p.1) → (∀ p ∈ m, P p.1) → BMSorted cmp l →
      BMSorted cmp m → l.length = m.length → (∀ p ∈ l, ∃ q ∈ m, cmp p.1 q.1 = .eq) →
      ∀ (i : Nat) p q, l[i]? = some p → m[i]? = some q → cmp p.1 q.1 = .eq := by
  intro l
  induction l with
  | nil => simp
  | cons a l ih =>
    intro m
    cases m with
    | nil => simp
    | cons b m =>
      intro hl hm hsl hsm hlen h
      obtain ⟨sl1, sl2⟩ := List.pairwise_cons.mp hsl
      obtain ⟨sm1, sm2⟩ := List.pairwise_cons.mp hsm
      have Pa := hl a (by simp)
      have Pb := hm b (by simp)
      -- distinct positions of the first list have different keys
      have inj : ∀ (i j : Nat) x x' (y : κ × β), (a :: l)[i]? = some x → (a :: l)[j]? = some x' →
          y ∈ b :: m → cmp x.1 y.1 = .eq → cmp x'.1 y.1 = .eq → i = j := by
        intro i j x x' y hi hj hy h1 h2
        have px := hl x (List.mem_of_getElem? hi)
        have px' := hl x' (List.mem_of_getElem? hj)
        have e : cmp x.1 x'.1 = .eq := by
          rw [hc.eq_trans _ _ _ px (hm y hy) px' h1]
          exact hc.eq_symm px' (hm y hy) h2
        obtain ⟨li, ei⟩ := List.getElem?_eq_some_iff.mp hi
        obtain ⟨lj, ej⟩ := List.getElem?_eq_some_iff.mp hj
        have pw := List.pairwise_iff_getElem.mp hsl
        rcases Nat.lt_trichotomy i j with hlt | heq | hgt
        · have := pw i j li lj hlt
          rw [ei, ej, e] at this; cases this
        · exact heq
        · have := pw j i lj li hgt
          rw [ei, ej, hc.eq_symm px px' e] at this; cases this
      have surj := pigeonhole hlen h inj
      -- the heads are equal
      have hab : cmp a.1 b.1 = .eq := by
        obtain ⟨q, hq, he⟩ := h a (by simp)
        rcases List.mem_cons.mp hq with rfl | hq'
        · exact he
        · obtain ⟨x, hx, hxb⟩ := surj b (by simp)
          rcases List.mem_cons.mp hx with rfl | hx'
          · exact hxb
          · exfalso
            have h1 := sl1 x hx'
            have h2 := sm1 q hq'
            -- b < q = a < x = b
            have Px := hl x (by simp [hx'])
            have Pq := hm q hq
            have h3 : cmp b.1 a.1 = .lt := by
              rw [hc.eq_trans_right Pa Pq Pb he]; exact h2
            have h4 := hc.lt_trans _ _ _ Pb Pa Px h3 h1
            rw [hc.eq_symm Px Pb hxb] at h4; cases h4
      intro i p q hp hq
      cases i with
      | zero => simp at hp hq; subst hp hq; exact hab
      | succ i =>
        refine ih (fun p hp => hl p (by simp [hp])) (fun p hp => hm p (by simp [hp])) sl2 sm2
          (by simpa using hlen) ?_ i p q (by simpa using hp) (by simpa using hq)
        intro x hx
        obtain ⟨y, hy, he⟩ := h x (by simp [hx])
        rcases List.mem_cons.mp hy with rfl | hy'
        · exfalso
          have h1 := sl1 x hx
          rw [hc.eq_trans _ _ _ Pa Pb (hl x (by simp [hx])) hab,
            hc.eq_symm (hl x (by simp [hx])) Pb he] at h1
          cases h1
        · exact ⟨y, hy', he⟩

theorem Scalar.eqv_kind {s s' : Scalar} (h : s.eqv s' = true) : s'.kind = s.kind := by
  cases s <;> cases s' <;> simp [Scalar.eqv] at h <;> simp [Scalar.kind]
  exact h.1.symm

theorem Agree.typeOf {E : Env} {x y : Obj} (h : Agree E x y) : y.typeOf = x.typeOf := by
  cases h with
  | scalar s s' h => simp [Obj.typeOf, Scalar.eqv_kind h]
  | tupleStruct t => cases t <;> rfl
  | tuple t => cases t <;> rfl
  | enumT t => cases t <;> rfl
  | array t fs gs h => simp [Obj.typeOf, h]
  | _ => rfl

/-- Values of the same type that are `reflect_eq` have the same dynamic type. -/
theorem reflectEq_typeOf {E : Env} {t : Ty} {x : Obj} (hx : HasTy E t x) : ∀ {y : Obj}, HasTy E t y →
    reflectEq E x y = some true → y.typeOf = x.typeOf := by
  induction hx with
  | box t o h ih => intro y hy hr; cases hy with | box _ _ hy => exact ih hy hr
  | value v o hw ho =>
    intro y hy hr
    cases hy with
    | value v' _ hw' ho' =>
      subst ho ho'
      rw [reflectEq_iff] at hr
      have hk := hr.kind
      have hvk := hr.vkind
      have hs := hr.scalar
      clear hr
      cases v <;> cases v' <;> simp only [Value.toObj, Obj.kind, reduceCtorEq] at hk <;>
        simp only [Value.toObj, Obj.variantKind, Option.some.injEq, reduceCtorEq] at hvk <;>
        try simp only [Value.toObj, Obj.typeOf]
      case scalar.scalar s s' =>
        rw [Scalar.eqv_kind (hs s s' (by rw [Value.toObj]; rfl) (by rw [Value.toObj]; rfl))]
  | array t xs h ih =>
    intro y hy hr
    generalize hn : xs.length = n at hy
    cases hy with
    | array _ ys h' => simp [Obj.typeOf, hn]
  | scalar s =>
    intro y hy _
    generalize hn : s.kind = k at hy
    cases hy with
    | scalar s' => simp [Obj.typeOf, hn]
  | _ => intro y hy _; cases hy <;> subst_vars <;> simp only [Value.toObj, Obj.typeOf]

theorem lookup_isSome_iff {α} {l : List (String × α)} {n : String} :
    (∃ x, lookup n l = some x) ↔ n ∈ l.map (·.1) := by
  rw [← Option.isSome_iff_exists, ← not_iff_not, ← lookup_none_iff]
  cases lookup n l <;> simp

theorem filter_length_eq {α} {q : α → Bool} {l m : List α} (hl : l.length = m.length)
    (h : ∀ (i : Nat) x y, l[i]? = some x → m[i]? = some y → q x = q y) :
    (l.filter q).length = (m.filter q).length := by
  induction l generalizing m with
  | nil => cases m with
    | nil => rfl
    | cons b m => simp at hl
  | cons a l ih =>
    cases m with
    | nil => simp at hl
    | cons b m =>
      have h0 := h 0 a b rfl rfl
      have := ih (m := m) (by simpa using hl) fun i x y hx hy =>
        h (i + 1) x y (by simpa using hx) (by simpa using hy)
      simp only [List.filter_cons, h0]
      split <;> simp [this]

theorem takeWhile_idx {fs : List Obj} (h : HiddenLast fs) {i : Nat} {x : Obj} :
    (fs.takeWhile fun x => !x.isHidden)[i]? = some x ↔ fs[i]? = some x ∧ x.isHidden = false := by
  constructor
  · intro hx
    refine ⟨?_, ?_⟩
    · obtain ⟨r, hr⟩ := List.takeWhile_prefix (l := fs) fun x : Obj => !x.isHidden
      rw [← hr, List.getElem?_append_left (List.getElem?_eq_some_iff.mp hx).1]
      exact hx
    · have := List.all_takeWhile (p := fun x : Obj => !x.isHidden) (l := fs)
      rw [List.all_eq_true] at this
      simpa using this x (List.mem_of_getElem? hx)
  · rintro ⟨hx, hh⟩
    rw [h.takeWhile]
    exact visAt_eq_visPos h (by simp [visAt, hx, hh])

theorem agree_of_hidden {E : Env} {x y : Obj} (hx : x.isHidden = true) (hy : y.isHidden = true) :
    Agree E x y := by
  cases x <;> simp [Obj.isHidden] at hx
  cases y <;> simp [Obj.isHidden] at hy
  exact .hidden _ _

/-- Positional fields: comparing what is iterated over is comparing everything that is shown. -/
theorem pos_agree {E : Env} {fs gs : List Obj} (hl : fs.length = gs.length)
    (hf : HiddenLast fs) (hg : HiddenLast gs)
    (hh : ∀ (i : Nat) x y, fs[i]? = some x → gs[i]? = some y → x.isHidden = y.isHidden)
    (ih : ∀ (i : Nat) x y, fs[i]? = some x → gs[i]? = some y → x.isHidden = false →
      (reflectEq E x y = some true ↔ Agree E x y)) :
    (∀ (i : Nat) x y, (fs.takeWhile fun x => !x.isHidden)[i]? = some x →
      (gs.takeWhile fun x => !x.isHidden)[i]? = some y → reflectEq E x y = some true) ↔
    ∀ (i : Nat) x y, fs[i]? = some x → gs[i]? = some y → Agree E x y := by
  constructor
  · intro h i x y hx hy
    cases hxh : x.isHidden with
    | true => exact agree_of_hidden hxh (hh i x y hx hy ▸ hxh)
    | false =>
      refine (ih i x y hx hy hxh).mp (h i x y ((takeWhile_idx hf).mpr ⟨hx, hxh⟩)
        ((takeWhile_idx hg).mpr ⟨hy, hh i x y hx hy ▸ hxh⟩))
  · intro h i x y hx hy
    obtain ⟨hx, hxh⟩ := (takeWhile_idx hf).mp hx
    obtain ⟨hy, _⟩ := (takeWhile_idx hg).mp hy
    exact (ih i x y hx hy hxh).mpr (h i x y hx hy)

/-- Named fields with the same names in the same order. -/
theorem named_agree {E : Env} {fs gs : List (String × Obj)} (hn : fs.map (·.1) = gs.map (·.1))
    (hd : (gs.map (·.1)).Nodup)
    (hh : ∀ (i : Nat) p q, fs[i]? = some p → gs[i]? = some q → p.2.isHidden = q.2.isHidden)
    (ih : ∀ (i : Nat) p q, fs[i]? = some p → gs[i]? = some q → p.2.isHidden = false →
      (reflectEq E p.2 q.2 = some true ↔ Agree E p.2 q.2)) :
    (∀ p ∈ visFields fs, ∃ y, lookup p.1 (visFields gs) = some y ∧ reflectEq E p.2 y = some true) ↔
    ∀ (i : Nat) p q, fs[i]? = some p → gs[i]? = some q → Agree E p.2 q.2 := by
  have hl : fs.length = gs.length := by simpa using congrArg List.length hn
  have nm : ∀ {i : Nat} {p q : String × Obj}, fs[i]? = some p → gs[i]? = some q → p.1 = q.1 := by
    intro i p q hp hq
    have := congrArg (·[i]?) hn
    simpa [hp, hq] using this
  have lk : ∀ {i : Nat} {p q : String × Obj}, fs[i]? = some p → gs[i]? = some q →
      p.2.isHidden = false → lookup p.1 (visFields gs) = some q.2 := by
    intro i p q hp hq hv
    rw [nm hp hq]
    exact lookup_vis_of_idx hd hq (by rw [← hh i p q hp hq]; exact hv)
  constructor
  · intro h i p q hp hq
    cases hph : p.2.isHidden with
    | true => exact agree_of_hidden hph (hh i p q hp hq ▸ hph)
    | false =>
      obtain ⟨y, hy, hr⟩ := h p (List.mem_filter.mpr ⟨List.mem_of_getElem? hp, by simp [hph]⟩)
      rw [lk hp hq hph] at hy; cases hy
      exact (ih i p q hp hq hph).mp hr
  · intro h p hp
    obtain ⟨hp, hph⟩ := List.mem_filter.mp hp
    have hph : p.2.isHidden = false := by simpa using hph
    obtain ⟨i, hi⟩ := List.getElem?_of_mem hp
    obtain ⟨q, hq⟩ := align_pos hl hi
    exact ⟨q.2, lk hi hq hph, (ih i p q hi hq hph).mpr (h i p q hi hq)⟩

/-- Dynamic records. -/
theorem dyn_agree {E : Env} {fs gs : List (String × Obj)} {ns ms : List String} (hns : ns.Nodup)
    (hms : ms.Nodup) (hf : ∀ n, n ∈ ns ↔ n ∈ fs.map (·.1)) (hg : ∀ n, n ∈ ms ↔ n ∈ gs.map (·.1))
    (hv : ∀ p ∈ gs, p.2.isHidden = false)
    (ih : ∀ n x y, lookup n fs = some x → lookup n gs = some y →
      (reflectEq E x y = some true ↔ Agree E x y)) :
    (ns.length = ms.length ∧
      ∀ p ∈ dynIter fs ns, ∃ y, lookup p.1 (visFields gs) = some y ∧ reflectEq E p.2 y = some true) ↔
    (ns.Perm ms ∧ ∀ n x y, lookup n fs = some x → lookup n gs = some y → Agree E x y) := by
  have hf' : ∀ n ∈ ns, n ∈ fs.map (·.1) := fun n hn => (hf n).mp hn
  rw [visFields_all hv]
  constructor
  · rintro ⟨hl, h⟩
    have hsub : ns ⊆ ms := by
      intro n hn
      obtain ⟨x, hx⟩ := lookup_isSome_iff.mpr (hf' n hn)
      obtain ⟨y, hy, _⟩ := h (n, x) ((mem_dynIter hf').mpr ⟨hn, hx⟩)
      exact (hg n).mpr (lookup_isSome_iff.mp ⟨y, hy⟩)
    refine ⟨(List.subperm_of_subset hns hsub).perm_of_length_le (by omega), ?_⟩
    intro n x y hx hy
    obtain ⟨z, hz, hr⟩ := h (n, x) ((mem_dynIter hf').mpr ⟨(hf n).mpr (lookup_isSome_iff.mp ⟨x, hx⟩), hx⟩)
    rw [hy] at hz; cases hz
    exact (ih n x y hx hy).mp hr
  · rintro ⟨hp, h⟩
    refine ⟨hp.length_eq, ?_⟩
    rintro ⟨n, x⟩ hm
    obtain ⟨hn, hx⟩ := (mem_dynIter hf').mp hm
    obtain ⟨y, hy⟩ := lookup_isSome_iff.mpr ((hg n).mp (hp.mem_iff.mp hn))
    exact ⟨y, hy, (ih n x y hx hy).mpr (h n x y hx hy)⟩

theorem skip_hidden {E : Env} {fds : List FieldDef} {fs : List Obj} (hl : fs.length = fds.length)
    (h3 : ∀ (i : Nat) fd x, fds[i]? = some fd → fs[i]? = some x → fd.skip = true → x.isHidden = true)
    (h4 : ∀ (i : Nat) fd x, fds[i]? = some fd → fs[i]? = some x → fd.skip = false → HasTy E fd.ty x)
    {i : Nat} {x : Obj} (hx : fs[i]? = some x) :
    ∃ fd, fds[i]? = some fd ∧ x.isHidden = fd.skip ∧ (x.isHidden = false → HasTy E fd.ty x) := by
  obtain ⟨fd, hfd⟩ := align_pos hl hx
  refine ⟨fd, hfd, ?_⟩
  cases hs : fd.skip with
  | true => have := h3 i fd x hfd hx hs; simp [this]
  | false => have := h4 i fd x hfd hx hs; simp [this.not_hidden, this]

theorem skip_hidden_named {E : Env} {fds : List FieldDef} {fs : List (String × Obj)}
    (hl : fs.map (·.1) = fds.map (·.name))
    (h3 : ∀ (i : Nat) fd p, fds[i]? = some fd → fs[i]? = some p → fd.skip = true →
      p.2.isHidden = true)
    (h4 : ∀ (i : Nat) fd p, fds[i]? = some fd → fs[i]? = some p → fd.skip = false →
      HasTy E fd.ty p.2) {i : Nat} {p : String × Obj} (hx : fs[i]? = some p) :
    ∃ fd, fds[i]? = some fd ∧ p.2.isHidden = fd.skip ∧ (p.2.isHidden = false → HasTy E fd.ty p.2) := by
  obtain ⟨fd, hfd, _⟩ := align_named hl hx
  refine ⟨fd, hfd, ?_⟩
  cases hs : fd.skip with
  | true => have := h3 i fd p hfd hx hs; simp [this]
  | false => have := h4 i fd p hfd hx hs; simp [this.not_hidden, this]

theorem kcmp_fromReflect_self {E : Env} (hD : DeclsOK E) (hO : OrdLaws E) (hK : KeysShown E)
    {kt : Ty} {k k' : Obj} (hk : HasTy E kt k) (h : fromReflect E kt k = some k') :
    HasTy E kt k' ∧ E.kcmp kt k' k = .eq := by
  have hty := fromReflect_sound hO _ _ ⟨_, hk⟩ h
  refine ⟨hty, hK kt _ _ hty hk ?_⟩
  have := selfconv_sound hD hO hK hk h
  rw [← toValue_reset k', this, toValue_reset, Value.cmp_self]

theorem toObj_value_hasTy {E : Env} {l : List Value} (h : ∀ v ∈ l, v.WF) {i : Nat} {x : Obj}
    (hx : (l.map fun v => v.toObj)[i]? = some x) : HasTy E .value x := by
  obtain ⟨v, hv, rfl⟩ := getElem?_map_some hx
  exact .value _ _ (h v (List.mem_of_getElem? hv)) rfl

theorem lookup_value_hasTy {E : Env} {l : List (String × Value)} (h : ∀ p ∈ l, p.2.WF) {n : String}
    {x : Obj} (hx : lookup n (l.map fun p => (p.1, p.2.toObj)) = some x) : HasTy E .value x := by
  obtain ⟨p, hp, hpx⟩ := List.mem_map.mp (lookup_mem hx)
  cases hpx
  exact .value _ _ (h p hp) rfl

theorem variant_unique {vds : List VariantDef} (h : (vds.map (·.name)).Nodup) {a b : VariantDef}
    (ha : a ∈ vds) (hb : b ∈ vds) (hn : a.name = b.name := by rfl) : a = b := by
  have h1 := find_variant h ha
  have h2 := find_variant h hb
  rw [hn, h2] at h1
  cases h1; rfl

theorem gapless_hiddenLast {fs : List Obj}
    (hg : ∀ i x, visAt fs i = some x → ∀ j ≤ i, (visAt fs j).isSome) : HiddenLast fs := by
  intro i j x y hi hj hx hy
  refine Nat.lt_of_not_le fun h => ?_
  have := hg j y (by simp [visAt, hj, hy]) i h
  simp [visAt, hi, hx] at this

theorem hiddenLast_gapless {fs : List Obj} (h : HiddenLast fs) :
    ∀ i x, visAt fs i = some x → ∀ j ≤ i, (visAt fs j).isSome := by
  intro i x hx j hj
  unfold visAt at hx
  cases hi : fs[i]? with
  | none => simp [hi] at hx
  | some y =>
    have hl := (List.getElem?_eq_some_iff.mp hi).1
    have hjl : fs[j]? = some (fs[j]'(by omega)) := List.getElem?_eq_getElem _
    cases hh : (fs[j]'(by omega)).isHidden with
    | false => simp [visAt, hjl, hh]
    | true =>
      have hy : y.isHidden = false := by
        cases hy : y.isHidden with
        | false => rfl
        | true => simp [hi, hy] at hx
      have := h j i _ y hjl hi hh hy
      omega

theorem Obj.Gapless.hiddenLast {o : Obj} (h : o.Gapless) :
    (∀ tag fs, o = .tupleStruct tag fs → HiddenLast fs) ∧
    (∀ tag fs, o = .tuple tag fs → HiddenLast fs) ∧
    (∀ tag vn fs, o = .enumT tag vn fs → HiddenLast fs) :=
  ⟨fun _ _ e => by subst e; exact gapless_hiddenLast h, fun _ _ e => by subst e; exact gapless_hiddenLast h,
    fun _ _ _ e => by subst e; exact gapless_hiddenLast h⟩

theorem Obj.Gapless.named {n vn : String} {fs : List (String × Obj)}
    (h : (Obj.enumS (.derived n) vn fs).Gapless) :
    fs.takeWhile (fun p => !p.2.isHidden) = visFields fs := by
  have hl : HiddenLast (fs.map (·.2)) := gapless_hiddenLast h
  apply takeWhile_eq_filter
  intro i j x y hi hj hx hy
  exact hl i j x.2 y.2 (by simp [hi]) (by simp [hj]) (by simpa using hx) (by simpa using hy)

theorem HiddenLast.congr {fs gs : List Obj} (hl : fs.length = gs.length) (h : HiddenLast fs)
    (hh : ∀ (i : Nat) x y, fs[i]? = some x → gs[i]? = some y → x.isHidden = y.isHidden) : HiddenLast gs := by
  intro i j x y hi hj hx hy
  obtain ⟨x', hx'⟩ := align_pos hl.symm hi
  obtain ⟨y', hy'⟩ := align_pos hl.symm hj
  exact h i j x' y' hx' hy' (by rw [hh i x' x hx' hi]; exact hx) (by rw [hh j y' y hy' hj]; exact hy)

theorem reflectEq_agree_gapless {E : Env} (hD : DeclsOK E) (hO : OrdLaws E) (hK : KeysShown E)
    {x : Obj} : ∀ {t : Ty} {y : Obj}, HasTy E t x → HasTy E t y →
    x.NamesNodup → y.NamesNodup → x.KeysArrayFree → x.Everywhere Obj.Gapless →
    (reflectEq E x y = some true ↔ Agree E x y) := by
  induction x using Obj.ind with
  | h x ih =>
    intro t y htx hty nx ny kx gx
    suffices hmain : y.typeOf = x.typeOf → (reflectEq E x y = some true ↔ Agree E x y) by
      exact ⟨fun h => (hmain (reflectEq_typeOf htx hty h)).mp h, fun h => (hmain h.typeOf).mpr h⟩
    intro hto
    have okx : x.OK E := ⟨_, htx⟩
    have oky : y.OK E := ⟨_, hty⟩
    have ih : ∀ {t : Ty} {x' y' : Obj}, x' ∈ x.parts → y' ∈ y.parts → HasTy E t x' → HasTy E t y' →
        (reflectEq E x' y' = some true ↔ Agree E x' y') := fun hx hy h1 h2 =>
      ih _ (Obj.parts_size hx) h1 h2 (nx.parts hx) (ny.parts hy) (kx.parts hx) (gx.parts hx)
    clear htx hty
    -- positional blocks
    have posParts : ∀ {fs : List Obj} {i : Nat} {x}, fs[i]? = some x → x.isHidden = false →
        x ∈ visPos fs := fun hx hh => List.mem_filter.mpr ⟨List.mem_of_getElem? hx, by simp [hh]⟩
    have namedParts : ∀ {fs : List (String × Obj)} {i : Nat} {p}, fs[i]? = some p →
        p.2.isHidden = false → p.2 ∈ (visFields fs).map (·.2) := fun hx hh =>
      List.mem_map.mpr ⟨_, List.mem_filter.mpr ⟨List.mem_of_getElem? hx, by simp [hh]⟩, rfl⟩
    have lookParts : ∀ {fs : List (String × Value)} {n : String} {x : Obj},
        lookup n (fs.map fun p => (p.1, p.2.toObj)) = some x →
        x ∈ (visFields (fs.map fun p => (p.1, p.2.toObj))).map (·.2) := by
      intro fs n x hx
      rw [toObj_visFields]
      exact List.mem_map.mpr ⟨_, lookup_mem hx, rfl⟩
    have dynPos : ∀ {fs gs : List Value}, (∀ v ∈ fs, v.WF) → (∀ v ∈ gs, v.WF) →
        (fs.map fun v => v.toObj) = x.parts → (gs.map fun v => v.toObj) = y.parts →
        ((((fs.map fun v => v.toObj).filter fun x => !x.isHidden).length =
          ((gs.map fun v => v.toObj).filter fun x => !x.isHidden).length ∧
          ∀ (i : Nat) x y, ((fs.map fun v => v.toObj).takeWhile fun x => !x.isHidden)[i]? = some x →
            ((gs.map fun v => v.toObj).takeWhile fun x => !x.isHidden)[i]? = some y →
            reflectEq E x y = some true) ↔
        ((fs.map fun v => v.toObj).length = (gs.map fun v => v.toObj).length ∧
          ∀ (i : Nat) x y, (fs.map fun v => v.toObj)[i]? = some x →
            (gs.map fun v => v.toObj)[i]? = some y → Agree E x y)) := by
      intro fs gs hf hg pf pg
      rw [filter_toObj, filter_toObj]
      refine and_congr_right fun hl => ?_
      have vis : ∀ {fs : List Value} {i : Nat} {x}, (fs.map fun v => v.toObj)[i]? = some x →
          x.isHidden = false := by
        intro fs i x hx
        obtain ⟨v, _, rfl⟩ := getElem?_map_some hx
        exact v.toObj_not_hidden
      refine pos_agree hl (toObj_hiddenLast _) (toObj_hiddenLast _)
        (fun i x y hx hy => by rw [vis hx, vis hy]) ?_
      intro i x y hx hy _
      exact ih (pf ▸ List.mem_of_getElem? hx) (pg ▸ List.mem_of_getElem? hy)
        (toObj_value_hasTy hf hx) (toObj_value_hasTy hg hy)
    have fdPos : ∀ {fds : List FieldDef} {fs gs : List Obj}, fs.length = fds.length →
        (∀ (i : Nat) fd x, fds[i]? = some fd → fs[i]? = some x → fd.skip = true →
          x.isHidden = true) →
        (∀ (i : Nat) fd x, fds[i]? = some fd → fs[i]? = some x → fd.skip = false →
          HasTy E fd.ty x) →
        gs.length = fds.length →
        (∀ (i : Nat) fd x, fds[i]? = some fd → gs[i]? = some x → fd.skip = true →
          x.isHidden = true) →
        (∀ (i : Nat) fd x, fds[i]? = some fd → gs[i]? = some x → fd.skip = false →
          HasTy E fd.ty x) →
        HiddenLast fs → visPos fs = x.parts → visPos gs = y.parts →
        (((fs.filter fun x => !x.isHidden).length = (gs.filter fun x => !x.isHidden).length ∧
          ∀ (i : Nat) x y, (fs.takeWhile fun x => !x.isHidden)[i]? = some x →
            (gs.takeWhile fun x => !x.isHidden)[i]? = some y → reflectEq E x y = some true) ↔
        (fs.length = gs.length ∧ ∀ (i : Nat) x y, fs[i]? = some x → gs[i]? = some y →
          Agree E x y)) := by
      intro fds fs gs f2 f3 f4 g2 g3 g4 hf pf pg
      have hl : fs.length = gs.length := f2.trans g2.symm
      have hh : ∀ (i : Nat) x y, fs[i]? = some x → gs[i]? = some y → x.isHidden = y.isHidden := by
        intro i x y hx hy
        obtain ⟨fd, h1, h2, _⟩ := skip_hidden f2 f3 f4 hx
        obtain ⟨fd', h1', h2', _⟩ := skip_hidden g2 g3 g4 hy
        rw [h1] at h1'; cases h1'
        rw [h2, h2']
      have hlen := filter_length_eq (q := fun x : Obj => !x.isHidden) hl
        fun i x y hx hy => by rw [hh i x y hx hy]
      simp only [hlen, hl, true_and]
      refine pos_agree hl hf (hf.congr hl hh) hh ?_
      intro i x y hx hy hv
      obtain ⟨fd, h1, _, h3⟩ := skip_hidden f2 f3 f4 hx
      obtain ⟨fd', h1', _, h3'⟩ := skip_hidden g2 g3 g4 hy
      rw [h1] at h1'; cases h1'
      have hv' := hh i x y hx hy ▸ hv
      exact ih (pf ▸ posParts hx hv) (pg ▸ posParts hy hv') (h3 hv) (h3' hv')
    have fdNamed : ∀ {fds : List FieldDef} {fs gs : List (String × Obj)},
        (fds.map (·.name)).Nodup → fs.map (·.1) = fds.map (·.name) →
        (∀ (i : Nat) fd p, fds[i]? = some fd → fs[i]? = some p → fd.skip = true →
          p.2.isHidden = true) →
        (∀ (i : Nat) fd p, fds[i]? = some fd → fs[i]? = some p → fd.skip = false →
          HasTy E fd.ty p.2) →
        gs.map (·.1) = fds.map (·.name) →
        (∀ (i : Nat) fd p, fds[i]? = some fd → gs[i]? = some p → fd.skip = true →
          p.2.isHidden = true) →
        (∀ (i : Nat) fd p, fds[i]? = some fd → gs[i]? = some p → fd.skip = false →
          HasTy E fd.ty p.2) →
        (visFields fs).map (·.2) = x.parts → (visFields gs).map (·.2) = y.parts →
        (((visFields fs).length = (visFields gs).length ∧
          ∀ p ∈ visFields fs, ∃ y, lookup p.1 (visFields gs) = some y ∧
            reflectEq E p.2 y = some true) ↔
        (fs.map (·.1) = gs.map (·.1) ∧
          ∀ (i : Nat) p q, fs[i]? = some p → gs[i]? = some q → Agree E p.2 q.2)) := by
      intro fds fs gs nd f2 f3 f4 g2 g3 g4 pf pg
      have hn : fs.map (·.1) = gs.map (·.1) := f2.trans g2.symm
      have hl : fs.length = gs.length := by simpa using congrArg List.length hn
      have hh : ∀ (i : Nat) p q, fs[i]? = some p → gs[i]? = some q →
          p.2.isHidden = q.2.isHidden := by
        intro i x y hx hy
        obtain ⟨fd, h1, h2, _⟩ := skip_hidden_named f2 f3 f4 hx
        obtain ⟨fd', h1', h2', _⟩ := skip_hidden_named g2 g3 g4 hy
        rw [h1] at h1'; cases h1'
        rw [h2, h2']
      have hlen : (visFields fs).length = (visFields gs).length :=
        filter_length_eq (q := fun p : String × Obj => !p.2.isHidden) hl
          fun i x y hx hy => by rw [hh i x y hx hy]
      simp only [hlen, hn, true_and]
      refine named_agree hn (g2 ▸ nd) hh ?_
      intro i x y hx hy hv
      obtain ⟨fd, h1, _, h3⟩ := skip_hidden_named f2 f3 f4 hx
      obtain ⟨fd', h1', _, h3'⟩ := skip_hidden_named g2 g3 g4 hy
      rw [h1] at h1'; cases h1'
      have hv' := hh i x y hx hy ▸ hv
      exact ih (pf ▸ namedParts hx hv) (pg ▸ namedParts hy hv') (h3 hv) (h3' hv')
    have lx := gx.here.hiddenLast
    have dx := OK.dyn_names hO okx
    have dy := OK.dyn_names hO oky
    have nsx : x.kind ≠ .scalar → ∀ s s', x.asScalar = some s →
        y.asScalar = some s' → s.eqv s' = true := by
      intro hne s s' hs
      rw [asScalar_none hne] at hs; cases hs
    have otherVariant : x.variantKind ≠ y.variantKind → ¬ Agree E x y →
        (reflectEq E x y = some true ↔ Agree E x y) := by
      intro h1 h2
      refine ⟨fun h => ?_, fun h => absurd h h2⟩
      rw [reflectEq_iff] at h
      exact absurd h.vkind h1
    cases x with
    | hidden d => have := okx.not_hidden; simp [Obj.isHidden] at this
    | scalar s =>
      have h := OK.typed hO oky hto
      generalize hk : s.kind = k at h
      cases h with
      | scalar s' =>
        rw [reflectEq]
        simp only [Obj.asScalar, Option.some.injEq]
        exact ⟨fun h => .scalar _ _ h, fun h => by cases h; assumption⟩
    | nonzero k n =>
      cases OK.typed hO oky hto with
      | nonzero _ n' h =>
        rw [reflectEq]
        simp only [Obj.asScalar, Option.some.injEq, Scalar.eqv, beq_self_eq_true, Bool.true_and,
          beq_iff_eq]
        exact ⟨fun h => by subst h; exact .nonzero _ _, fun h => by cases h; rfl⟩
    | struct tag fs =>
      cases tag with
      | derived n =>
        cases OK.typed hO okx rfl with
        | struct _ fds c _ hd f2 f3 f4 =>
          cases OK.typed hO oky hto with
          | struct _ fds' c' gs hd' g2 g3 g4 =>
            rw [hd] at hd'; cases hd'
            have := fdNamed (hD.struct_names n fds c hd) f2 f3 f4 g2 g3 g4 rfl rfl
            rw [reflectEq_iff]
            constructor
            · intro h
              obtain ⟨h1, h2⟩ := this.mp ⟨h.len, h.named⟩
              exact .struct n fs gs h1 h2
            · intro h
              cases h with
              | struct _ _ _ h1 h2 =>
                obtain ⟨h3, h4⟩ := this.mpr ⟨h1, h2⟩
                exact ⟨rfl, (fun h => by cases h), rfl, rfl, h3, nsx (fun h => by cases h), h4,
                  by simp [Obj.posIter], by simp [Obj.entries]⟩
          | tupleStruct _ _ _ _ hd' => rw [hd] at hd'; cases hd'
          | enumS _ _ _ _ _ _ hd' => rw [hd] at hd'; cases hd'
          | enumT _ _ _ _ _ _ hd' => rw [hd] at hd'; cases hd'
          | enumU _ _ _ _ hd' => rw [hd] at hd'; cases hd'
      | dyn ns =>
        cases OK.typed hO okx rfl with
        | structValue _ fs' _ hw ho =>
          rw [Value.toObj] at ho; cases ho
          cases OK.typed hO oky hto with
          | structValue ms gs' _ hw' ho' =>
            rw [Value.toObj] at ho'; subst ho'
            cases hw with
            | struct _ _ w1 w2 w3 =>
            cases hw' with
            | struct _ _ v1 v2 v3 =>
            have := dyn_agree (nx.here.1 _ _ rfl) (ny.here.1 _ _ rfl) (dx.1 _ _ rfl) (dy.1 _ _ rfl)
              oky.dynVis (fun n x y hx hy => ih (lookParts hx) (lookParts hy)
                (lookup_value_hasTy w3 hx) (lookup_value_hasTy v3 hy))
            rw [reflectEq_iff]
            constructor
            · intro h
              obtain ⟨h1, h2⟩ := this.mp ⟨h.len, h.named⟩
              exact .structDyn _ _ _ _ h1 h2
            · intro h
              cases h with
              | structDyn _ _ _ _ h1 h2 =>
                obtain ⟨h3, h4⟩ := this.mpr ⟨h1, h2⟩
                exact ⟨rfl, (fun h => by cases h), rfl, rfl, h3, nsx (fun h => by cases h), h4,
                  by simp [Obj.posIter], by simp [Obj.entries]⟩
    | tupleStruct tag fs =>
      cases tag with
      | derived n =>
        cases OK.typed hO okx rfl with
        | tupleStruct _ fds c _ hd f2 f3 f4 =>
          cases OK.typed hO oky hto with
          | tupleStruct _ fds' c' gs hd' g2 g3 g4 =>
            rw [hd] at hd'; cases hd'
            have := fdPos f2 f3 f4 g2 g3 g4 (lx.1 _ _ rfl) rfl rfl
            rw [reflectEq_iff]
            constructor
            · intro h
              obtain ⟨h1, h2⟩ := this.mp ⟨h.len, h.pos⟩
              exact .tupleStruct _ fs gs h1 h2
            · intro h
              cases h with
              | tupleStruct _ _ _ h1 h2 =>
                obtain ⟨h3, h4⟩ := this.mpr ⟨h1, h2⟩
                exact ⟨rfl, (fun h => by cases h), rfl, rfl, h3, nsx (fun h => by cases h),
                  by simp [Obj.namedIter], h4, by simp [Obj.entries]⟩
          | struct _ _ _ _ hd' => rw [hd] at hd'; cases hd'
          | enumS _ _ _ _ _ _ hd' => rw [hd] at hd'; cases hd'
          | enumT _ _ _ _ _ _ hd' => rw [hd] at hd'; cases hd'
          | enumU _ _ _ _ hd' => rw [hd] at hd'; cases hd'
      | dyn =>
        cases OK.typed hO okx rfl with
        | tupleStructValue fs' _ hw ho =>
          rw [Value.toObj] at ho; cases ho
          cases OK.typed hO oky hto with
          | tupleStructValue gs' _ hw' ho' =>
            rw [Value.toObj] at ho'; subst ho'
            cases hw with
            | tupleStruct _ w1 =>
            cases hw' with
            | tupleStruct _ v1 =>
            have := dynPos w1 v1 (filter_toObj _).symm (filter_toObj _).symm
            rw [reflectEq_iff]
            constructor
            · intro h
              obtain ⟨h1, h2⟩ := this.mp ⟨h.len, h.pos⟩
              exact .tupleStruct _ _ _ h1 h2
            · intro h
              cases h with
              | tupleStruct _ _ _ h1 h2 =>
                obtain ⟨h3, h4⟩ := this.mpr ⟨h1, h2⟩
                exact ⟨rfl, (fun h => by cases h), rfl, rfl, h3, nsx (fun h => by cases h),
                  by simp [Obj.namedIter], h4, by simp [Obj.entries]⟩
    | tuple tag fs =>
      cases tag with
      | typed ts =>
        cases OK.typed hO okx rfl with
        | tuple _ _ f2 f4 =>
          cases OK.typed hO oky hto with
          | tuple _ gs g2 g4 =>
            have ef := OK.tuple_vis hO okx
            have eg := OK.tuple_vis hO oky
            have vf : ∀ {i : Nat} {x}, fs[i]? = some x → x.isHidden = false := by
              intro i x hx
              obtain ⟨t, ht⟩ := align_pos f2 hx
              exact (f4 i t x ht hx).not_hidden
            have vg : ∀ {i : Nat} {x}, gs[i]? = some x → x.isHidden = false := by
              intro i x hx
              obtain ⟨t, ht⟩ := align_pos g2 hx
              exact (g4 i t x ht hx).not_hidden
            have hl : fs.length = gs.length := f2.trans g2.symm
            have := pos_agree (E := E) hl (lx.2.1 _ _ rfl)
              ((lx.2.1 _ _ rfl).congr hl fun i x y hx hy => by rw [vf hx, vg hy])
              (fun i x y hx hy => by rw [vf hx, vg hy])
              (fun i x y hx hy _ => by
                obtain ⟨t, ht⟩ := align_pos f2 hx
                exact ih (posParts hx (vf hx)) (posParts hy (vg hy)) (f4 i t x ht hx) (g4 i t y ht hy))
            rw [reflectEq_iff]
            constructor
            · intro h
              exact .tuple _ fs gs hl (this.mp h.pos)
            · intro h
              cases h with
              | tuple _ _ _ h1 h2 =>
                refine ⟨rfl, (fun h => by cases h), rfl, rfl, ?_, nsx (fun h => by cases h),
                  by simp [Obj.namedIter], this.mpr h2, by simp [Obj.entries]⟩
                show (visPos fs).length = (visPos gs).length
                rw [ef, eg, hl]
      | dyn =>
        cases OK.typed hO okx rfl with
        | tupleValue fs' _ hw ho =>
          rw [Value.toObj] at ho; cases ho
          cases OK.typed hO oky hto with
          | tupleValue gs' _ hw' ho' =>
            rw [Value.toObj] at ho'; subst ho'
            cases hw with
            | tuple _ w1 =>
            cases hw' with
            | tuple _ v1 =>
            have := dynPos w1 v1 (filter_toObj _).symm (filter_toObj _).symm
            rw [reflectEq_iff]
            constructor
            · intro h
              obtain ⟨h1, h2⟩ := this.mp ⟨h.len, h.pos⟩
              exact .tuple _ _ _ h1 h2
            · intro h
              cases h with
              | tuple _ _ _ h1 h2 =>
                obtain ⟨h3, h4⟩ := this.mpr ⟨h1, h2⟩
                exact ⟨rfl, (fun h => by cases h), rfl, rfl, h3, nsx (fun h => by cases h),
                  by simp [Obj.namedIter], h4, by simp [Obj.entries]⟩
    | enumS tag v fs =>
      cases tag with
      | derived n =>
        cases OK.typed hO okx rfl with
        | enumS _ vds c _ fds _ hd hv f2 f3 f4 =>
          cases OK.typed hO oky hto with
          | enumS _ vds' c' v' fds' gs hd' hv' g2 g3 g4 =>
            rw [hd] at hd'; cases hd'
            have e1 : (Obj.enumS (.derived n) v fs).namedIter = visFields fs :=
              gx.here.named
            rw [reflectEq_iff]
            constructor
            · intro h
              have hvn := h.vname
              simp only [Obj.variantName, Option.some.injEq] at hvn
              subst hvn
              have hfd := variant_unique (hD.variant_names n vds c hd) hv hv'
              cases hfd
              have := fdNamed (hD.variant_fields n vds c v fds hd hv) f2 f3 f4 g2 g3 g4 rfl rfl
              obtain ⟨h1, h2⟩ := this.mp ⟨h.len, e1 ▸ h.named⟩
              exact .enumS n v fs gs h1 h2
            · intro h
              cases h with
              | enumS _ _ _ _ h1 h2 =>
                have hfd := variant_unique (hD.variant_names n vds c hd) hv hv'
                cases hfd
                have := fdNamed (hD.variant_fields n vds c v fds hd hv) f2 f3 f4 g2 g3 g4 rfl rfl
                obtain ⟨h3, h4⟩ := this.mpr ⟨h1, h2⟩
                exact ⟨rfl, (fun h => by cases h), rfl, rfl, h3, nsx (fun h => by cases h),
                  e1.symm ▸ h4, by simp [Obj.posIter], by simp [Obj.entries]⟩
          | enumT _ _ _ _ _ _ _ => exact otherVariant (by simp [Obj.variantKind]) (fun h => by cases h)
          | enumU _ _ _ _ _ => exact otherVariant (by simp [Obj.variantKind]) (fun h => by cases h)
          | struct _ _ _ _ hd' => rw [hd] at hd'; cases hd'
          | tupleStruct _ _ _ _ hd' => rw [hd] at hd'; cases hd'
      | dyn ns =>
        cases OK.typed hO okx rfl with
        | enumValueS _ _ fs' _ hw ho =>
          rw [Value.toObj] at ho; cases ho
          cases OK.typed hO oky hto with
          | enumValueS v' ms gs' _ hw' ho' =>
            rw [Value.toObj] at ho'; subst ho'
            cases hw with
            | enumS _ _ _ w1 w2 w3 =>
            cases hw' with
            | enumS _ _ _ v1 v2 v3 =>
            have := dyn_agree (nx.here.2 _ _ _ rfl) (ny.here.2 _ _ _ rfl) (dx.2 _ _ _ rfl)
              (dy.2 _ _ _ rfl)
              oky.dynVis (fun n x y hx hy => ih (lookParts hx) (lookParts hy)
                (lookup_value_hasTy w3 hx) (lookup_value_hasTy v3 hy))
            rw [reflectEq_iff]
            constructor
            · intro h
              have hvn := h.vname
              simp only [Obj.variantName, Option.some.injEq] at hvn
              subst hvn
              obtain ⟨h1, h2⟩ := this.mp ⟨h.len, h.named⟩
              exact .enumSDyn _ _ _ _ _ h1 h2
            · intro h
              cases h with
              | enumSDyn _ _ _ _ _ h1 h2 =>
                obtain ⟨h3, h4⟩ := this.mpr ⟨h1, h2⟩
                exact ⟨rfl, (fun h => by cases h), rfl, rfl, h3, nsx (fun h => by cases h), h4,
                  by simp [Obj.posIter], by simp [Obj.entries]⟩
          | enumValueT _ _ _ _ ho' =>
            rw [Value.toObj] at ho'; subst ho'
            exact otherVariant (by simp [Obj.variantKind]) (fun h => by cases h)
          | enumValueU _ _ ho' =>
            rw [Value.toObj] at ho'; subst ho'
            exact otherVariant (by simp [Obj.variantKind]) (fun h => by cases h)
        | enumValueT _ _ _ _ ho => rw [Value.toObj] at ho; cases ho
        | enumValueU _ _ ho => rw [Value.toObj] at ho; cases ho
    | enumT tag v fs =>
      cases tag with
      | derived n =>
        cases OK.typed hO okx rfl with
        | enumT _ vds c _ fds _ hd hv f2 f3 f4 =>
          cases OK.typed hO oky hto with
          | enumT _ vds' c' v' fds' gs hd' hv' g2 g3 g4 =>
            rw [hd] at hd'; cases hd'
            rw [reflectEq_iff]
            constructor
            · intro h
              have hvn := h.vname
              simp only [Obj.variantName, Option.some.injEq] at hvn
              subst hvn
              have hfd := variant_unique (hD.variant_names n vds c hd) hv hv'
              cases hfd
              have := fdPos f2 f3 f4 g2 g3 g4 (lx.2.2 _ _ _ rfl) rfl rfl
              obtain ⟨h1, h2⟩ := this.mp ⟨h.len, h.pos⟩
              exact .enumT _ v fs gs h1 h2
            · intro h
              cases h with
              | enumT _ _ _ _ h1 h2 =>
                have hfd := variant_unique (hD.variant_names n vds c hd) hv hv'
                cases hfd
                have := fdPos f2 f3 f4 g2 g3 g4 (lx.2.2 _ _ _ rfl) rfl rfl
                obtain ⟨h3, h4⟩ := this.mpr ⟨h1, h2⟩
                exact ⟨rfl, (fun h => by cases h), rfl, rfl, h3, nsx (fun h => by cases h),
                  by simp [Obj.namedIter], h4, by simp [Obj.entries]⟩
          | enumS _ _ _ _ _ _ _ => exact otherVariant (by simp [Obj.variantKind]) (fun h => by cases h)
          | enumU _ _ _ _ _ => exact otherVariant (by simp [Obj.variantKind]) (fun h => by cases h)
          | struct _ _ _ _ hd' => rw [hd] at hd'; cases hd'
          | tupleStruct _ _ _ _ hd' => rw [hd] at hd'; cases hd'
      | dyn =>
        cases OK.typed hO okx rfl with
        | enumValueT _ fs' _ hw ho =>
          rw [Value.toObj] at ho; cases ho
          cases OK.typed hO oky hto with
          | enumValueT v' gs' _ hw' ho' =>
            rw [Value.toObj] at ho'; subst ho'
            cases hw with
            | enumT _ _ w1 =>
            cases hw' with
            | enumT _ _ v1 =>
            have := dynPos w1 v1 (filter_toObj _).symm (filter_toObj _).symm
            rw [reflectEq_iff]
            constructor
            · intro h
              have hvn := h.vname
              simp only [Obj.variantName, Option.some.injEq] at hvn
              subst hvn
              obtain ⟨h1, h2⟩ := this.mp ⟨h.len, h.pos⟩
              exact .enumT _ _ _ _ h1 h2
            · intro h
              cases h with
              | enumT _ _ _ _ h1 h2 =>
                obtain ⟨h3, h4⟩ := this.mpr ⟨h1, h2⟩
                exact ⟨rfl, (fun h => by cases h), rfl, rfl, h3, nsx (fun h => by cases h),
                  by simp [Obj.namedIter], h4, by simp [Obj.entries]⟩
          | enumValueS _ _ _ _ _ ho' =>
            rw [Value.toObj] at ho'; subst ho'
            exact otherVariant (by simp [Obj.variantKind]) (fun h => by cases h)
          | enumValueU _ _ ho' =>
            rw [Value.toObj] at ho'; subst ho'
            exact otherVariant (by simp [Obj.variantKind]) (fun h => by cases h)
        | enumValueS _ _ _ _ _ ho => rw [Value.toObj] at ho; cases ho
        | enumValueU _ _ ho => rw [Value.toObj] at ho; cases ho
    | enumU tag v =>
      have same : ∀ v', y = .enumU tag v' →
          (reflectEq E (.enumU tag v) y = some true ↔ Agree E (.enumU tag v) y) := by
        rintro v' rfl
        rw [reflectEq_iff]
        constructor
        · intro h
          have hvn := h.vname
          simp only [Obj.variantName, Option.some.injEq] at hvn
          subst hvn
          exact .enumU _ _
        · intro h
          cases h
          exact ⟨rfl, (fun h => by cases h), rfl, rfl, rfl, nsx (fun h => by cases h),
            by simp [Obj.namedIter], by simp [Obj.posIter], by simp [Obj.entries]⟩
      cases tag with
      | derived n =>
        cases OK.typed hO okx rfl with
        | enumU _ vds c _ hd hv =>
          cases OK.typed hO oky hto with
          | enumU _ vds' c' v' hd' hv' => exact same _ rfl
          | enumS _ _ _ _ _ _ _ => exact otherVariant (by simp [Obj.variantKind]) (fun h => by cases h)
          | enumT _ _ _ _ _ _ _ => exact otherVariant (by simp [Obj.variantKind]) (fun h => by cases h)
          | struct _ _ _ _ hd' => rw [hd] at hd'; cases hd'
          | tupleStruct _ _ _ _ hd' => rw [hd] at hd'; cases hd'
      | dyn =>
        cases OK.typed hO oky hto with
        | enumValueU v' _ ho' => rw [Value.toObj] at ho'; exact same _ ho'
        | enumValueS _ _ _ _ _ ho' =>
          rw [Value.toObj] at ho'; subst ho'
          exact otherVariant (by simp [Obj.variantKind]) (fun h => by cases h)
        | enumValueT _ _ _ _ ho' =>
          rw [Value.toObj] at ho'; subst ho'
          exact otherVariant (by simp [Obj.variantKind]) (fun h => by cases h)
    | vec t fs =>
      cases OK.typed hO okx rfl with
      | vec _ _ f =>
        cases OK.typed hO oky hto with
        | vec _ gs g =>
          rw [reflectEq_iff]
          constructor
          · intro h
            exact .vec _ fs gs h.len fun i p q hp hq =>
              (ih (List.mem_of_getElem? hp) (List.mem_of_getElem? hq) (f _ (List.mem_of_getElem? hp))
                (g _ (List.mem_of_getElem? hq))).mp (h.pos i p q hp hq)
          · intro h
            cases h with
            | vec _ _ _ h1 h2 =>
              exact ⟨rfl, (fun h => by cases h), rfl, rfl, h1, nsx (fun h => by cases h),
                by simp [Obj.namedIter], fun i p q hp hq =>
                  (ih (List.mem_of_getElem? hp) (List.mem_of_getElem? hq)
                    (f _ (List.mem_of_getElem? hp)) (g _ (List.mem_of_getElem? hq))).mpr
                    (h2 i p q hp hq), by simp [Obj.entries]⟩
    | array t fs =>
      have h := OK.typed hO oky hto
      have f : ∀ x ∈ fs, HasTy E t x := by
        have h := OK.typed hO okx (t := .array t fs.length) rfl
        generalize hn : fs.length = n at h
        cases h with
        | array _ _ f => exact f
      generalize hn : fs.length = n at h
      cases h with
        | array _ gs g =>
          rw [reflectEq_iff]
          constructor
          · intro h
            exact .array _ fs gs h.len fun i p q hp hq =>
              (ih (List.mem_of_getElem? hp) (List.mem_of_getElem? hq) (f _ (List.mem_of_getElem? hp))
                (g _ (List.mem_of_getElem? hq))).mp (h.pos i p q hp hq)
          · intro h
            cases h with
            | array _ _ _ h1 h2 =>
              exact ⟨rfl, (fun h => by cases h), rfl, rfl, h1, nsx (fun h => by cases h),
                by simp [Obj.namedIter], fun i p q hp hq =>
                  (ih (List.mem_of_getElem? hp) (List.mem_of_getElem? hq)
                    (f _ (List.mem_of_getElem? hp)) (g _ (List.mem_of_getElem? hq))).mpr
                    (h2 i p q hp hq), by simp [Obj.entries]⟩
    | map kt vt fs =>
      cases OK.typed hO oky hto with
      | map _ _ gs g1 g2 g3 =>
        obtain ⟨f1, f2, f3⟩ := OK.map_inv hO okx
        have hc := hO.cmpOn kt
        rw [reflectEq_iff]
        constructor
        · intro h
          have hfind : ∀ p ∈ fs, ∃ q ∈ gs, E.kcmp kt p.1 q.1 = .eq ∧
              reflectEq E p.2 q.2 = some true := by
            intro p hp
            obtain ⟨w, hw, hr⟩ := h.entries p hp
            obtain ⟨k, hk, k', hk', he⟩ := (mapGet_iff hO oky ⟨_, f2 p hp⟩).mp hw
            obtain ⟨tk, ek⟩ := kcmp_fromReflect_self hD hO hK (f2 p hp) hk'
            refine ⟨(k, w), hk, ?_, hr⟩
            show E.kcmp kt p.1 k = .eq
            rw [hc.eq_trans _ _ k (f2 p hp) tk (g2 _ hk) (hc.eq_symm tk (f2 p hp) ek)]
            exact he
          have hal := sorted_align hc f2 g2 f1 g1 h.len
            fun p hp => by obtain ⟨q, hq, he, _⟩ := hfind p hp; exact ⟨q, hq, he⟩
          refine .map _ _ _ _ h.len hal ?_
          intro i p q hp hq
          have hpm := List.mem_of_getElem? hp
          have hqm := List.mem_of_getElem? hq
          obtain ⟨q', hq', he', hr⟩ := hfind p hpm
          have e : E.kcmp kt q.1 q'.1 = .eq := by
            rw [hc.eq_trans _ _ q'.1 (g2 _ hqm) (f2 _ hpm) (g2 _ hq')
              (hc.eq_symm (f2 _ hpm) (g2 _ hqm) (hal i p q hp hq))]
            exact he'
          have := sorted_key_unique hc g2 g1 hqm hq' e
          subst this
          exact (ih (map_snd_parts hpm _ _) (map_snd_parts hqm _ _) (f3 _ hpm) (g3 _ hqm)).mp hr
        · intro h
          cases h with
          | map _ _ _ _ h1 h2 h3 =>
            refine ⟨rfl, (fun h => by cases h), rfl, rfl, h1, nsx (fun h => by cases h),
              by simp [Obj.namedIter], by simp [Obj.posIter], ?_⟩
            intro p hp
            obtain ⟨i, hi⟩ := List.getElem?_of_mem hp
            obtain ⟨q, hq⟩ := align_pos h1 hi
            have hqm := List.mem_of_getElem? hq
            obtain ⟨k', hk', _⟩ := selfconv hD hO hK (f2 p hp) (kx.here _ _ _ rfl p hp)
            obtain ⟨tk, ek⟩ := kcmp_fromReflect_self hD hO hK (f2 p hp) hk'
            refine ⟨q.2, (mapGet_iff hO oky ⟨_, f2 p hp⟩).mpr ⟨q.1, hqm, k', hk', ?_⟩,
              (ih (map_snd_parts hp _ _) (map_snd_parts hqm _ _) (f3 _ hp) (g3 _ hqm)).mpr
                (h3 i p q hi hq)⟩
            rw [hc.eq_trans _ _ q.1 tk (f2 p hp) (g2 _ hqm) ek]
            exact h2 i p q hi hq

theorem everywhere_gapless {E : Env} (hO : OrdLaws E) (hS : SkipsLastAll E) {x : Obj} :
    x.OK E → x.Everywhere Obj.Gapless := by
  induction x using Obj.ind with
  | h x ih =>
    intro ok
    refine .mk _ ?_ fun y hy => ih y (Obj.parts_size hy) (ok.parts hy)
    have hl := OK.hiddenLast hO hS.1 ok
    have dn := OK.dyn_names hO ok
    have idx : ∀ {xs : List Obj} (i : Nat) x, xs[i]? = some x → ∀ j ≤ i, (xs[j]?).isSome := by
      intro xs i x h j hj
      have := (List.getElem?_eq_some_iff.mp h).1
      rw [List.getElem?_eq_getElem (by omega)]; rfl
    have dyn : ∀ {ns : List String} {fs : List (String × Obj)}, (∀ n, n ∈ ns ↔ n ∈ fs.map (·.1)) →
        ∀ (i : Nat) x, (ns[i]?.bind fun n => lookup n fs) = some x →
        ∀ j ≤ i, (ns[j]?.bind fun n => lookup n fs).isSome := by
      intro ns fs h i x hi j hj
      cases hn : ns[i]? with
      | none => simp [hn] at hi
      | some n =>
        have hl := (List.getElem?_eq_some_iff.mp hn).1
        rw [List.getElem?_eq_getElem (by omega : j < ns.length)]
        obtain ⟨y, hy⟩ := lookup_isSome_iff.mpr
          ((h _).mp (List.getElem_mem (by omega : j < ns.length)))
        simp [hy]
    cases x with
    | scalar s => intro i x hi; simp [Obj.fieldAt] at hi
    | nonzero k n => intro i x hi; simp [Obj.fieldAt] at hi
    | enumU t v => intro i x hi; simp [Obj.fieldAt] at hi
    | map kt vt kvs => intro i x hi; simp [Obj.fieldAt] at hi
    | hidden d => intro i x hi; simp [Obj.fieldAt] at hi
    | tupleStruct t fs => exact hiddenLast_gapless (hl.1 _ _ rfl)
    | tuple t fs => exact hiddenLast_gapless (hl.2.1 _ _ rfl)
    | enumT t v fs => exact hiddenLast_gapless (hl.2.2 _ _ _ rfl)
    | vec t xs => exact idx
    | array t xs => exact idx
    | struct tag fs =>
      cases tag with
      | derived n =>
        intro i x hi j hj
        simp only [Obj.fieldAt, Option.map_eq_some_iff] at hi ⊢
        obtain ⟨p, hp, _⟩ := hi
        have := (List.getElem?_eq_some_iff.mp hp).1
        rw [List.getElem?_eq_getElem (by omega)]; rfl
      | dyn ns => exact dyn (dn.1 _ _ rfl)
    | enumS tag v fs =>
      cases tag with
      | dyn ns => exact dyn (dn.2 _ _ _ rfl)
      | derived n =>
        refine hiddenLast_gapless ?_
        cases OK.typed hO ok rfl with
        | enumS _ vds c _ fds _ hd hv f2 f3 f4 =>
          intro i j x y hi hj hx hy
          rw [List.getElem?_map, Option.map_eq_some_iff] at hi hj
          obtain ⟨p, hp, rfl⟩ := hi
          obtain ⟨q, hq, rfl⟩ := hj
          obtain ⟨fd, h1, h2, _⟩ := skip_hidden_named f2 f3 f4 hp
          obtain ⟨fd', h1', h2', _⟩ := skip_hidden_named f2 f3 f4 hq
          exact hS.2 n vds c v fds hd hv i j fd fd' h1 h1' (by rw [← h2]; exact hx) (by rw [← h2']; exact hy)

theorem reflectEq_agree {E : Env} (hD : DeclsOK E) (hO : OrdLaws E) (hK : KeysShown E)
    (hS : SkipsLastAll E) {x : Obj} {t : Ty} {y : Obj} (hx : HasTy E t x) (hy : HasTy E t y)
    (nx : x.NamesNodup) (ny : y.NamesNodup) (kx : x.KeysArrayFree) :
    reflectEq E x y = some true ↔ Agree E x y :=
  reflectEq_agree_gapless hD hO hK hx hy nx ny kx (everywhere_gapless hO hS ⟨t, hx⟩)

end Mirror
