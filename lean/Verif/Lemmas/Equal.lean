import Verif.Spec.Equal
import Verif.Lemmas.ReflectEqExact
import Verif.Lemmas.ReflectEqAgree

set_option linter.unusedSimpArgs false

/-!
# `reflect_eq`: the relation it decides, and its laws value by value
-/

namespace Mirror

/-! ## Iterators in terms of `field_at` -/

theorem takeWhile_visAt {fs : List Obj} : ∀ (i : Nat) (x : Obj),
    (fs.takeWhile fun x => !x.isHidden)[i]? = some x ↔
      visAt fs i = some x ∧ ∀ j ≤ i, (visAt fs j).isSome := by
  induction fs with
  | nil => intro i x; simp [visAt]
  | cons a r ih =>
    intro i x
    cases ha : a.isHidden with
    | true =>
      simp only [List.takeWhile_cons, ha, Bool.not_true, Bool.false_eq_true, if_false, List.getElem?_nil,
        reduceCtorEq, false_iff]
      rintro ⟨_, h⟩
      have := h 0 (Nat.zero_le _)
      simp [visAt, ha] at this
    | false =>
      simp only [List.takeWhile_cons, ha, Bool.not_false, if_true]
      cases i with
      | zero =>
        simp only [List.getElem?_cons_zero, visAt, ha]
        constructor
        · intro h
          refine ⟨by simpa using h, fun j hj => ?_⟩
          obtain rfl : j = 0 := by omega
          simp [ha]
        · intro h; simpa using h.1
      | succ i =>
        rw [List.getElem?_cons_succ, ih i x]
        have e : ∀ j, visAt (a :: r) (j + 1) = visAt r j := fun j => by simp [visAt]
        rw [e]
        refine and_congr_right fun _ => ⟨fun h j hj => ?_, fun h j hj => ?_⟩
        · cases j with
          | zero => simp [visAt, ha]
          | succ j => rw [e]; exact h j (by omega)
        · rw [← e]; exact h _ (by omega)

theorem posIter_iff {o : Obj} (h : o.kind ≠ .struct) (h' : o.variantKind ≠ some .struct) (i : Nat) (x : Obj) :
    o.posIter[i]? = some x ↔ o.fieldAt i = some x ∧ o.Reaches i := by
  have idx : ∀ {xs : List Obj}, xs[i]? = some x ↔ xs[i]? = some x ∧ ∀ j ≤ i, (xs[j]?).isSome := by
    intro xs
    refine ⟨fun h => ⟨h, fun j hj => ?_⟩, fun h => h.1⟩
    have := (List.getElem?_eq_some_iff.mp h).1
    rw [List.getElem?_eq_getElem (by omega)]; rfl
  cases o <;> simp only [Obj.kind, Obj.variantKind, ne_eq, not_true_eq_false, reduceCtorEq,
    not_false_eq_true] at h h'
  all_goals simp only [Obj.posIter, Obj.Reaches, Obj.fieldAt]
  case tupleStruct => exact takeWhile_visAt i x
  case tuple => exact takeWhile_visAt i x
  case enumT => exact takeWhile_visAt i x
  case vec => exact idx
  case array => exact idx
  all_goals simp

theorem structIter_iff {E : Env} (hD : DeclsOK E) (hO : OrdLaws E) {o : Obj} (h : o.OK E)
    (hk : o.kind = .struct) (n : String) (x : Obj) : (n, x) ∈ o.namedIter ↔ o.field n = some x := by
  refine ⟨fun hp => namedIter_field hD hO h hp, fun hf => ?_⟩
  have nn := OK.named_nodup hD hO h
  have dn := OK.dyn_names hO h
  have hv := h.dynVis
  cases o <;> simp only [Obj.kind, reduceCtorEq] at hk
  case struct tag fs =>
    cases tag with
    | derived m => exact (lookup_iff (visFields_nodup (nn.1 _ _ rfl))).mp hf
    | dyn ns =>
      replace hf : lookup n (visFields fs) = some x := hf
      rw [visFields_all hv] at hf
      refine (mem_dynIter fun n hn => (dn.1 _ _ rfl n).mp hn).mpr ⟨?_, hf⟩
      exact (dn.1 _ _ rfl n).mpr (List.mem_map.mpr ⟨_, lookup_mem hf, rfl⟩)

theorem takeWhile_named {fs : List (String × Obj)} : ∀ (n : String) (x : Obj),
    (n, x) ∈ fs.takeWhile (fun p => !p.2.isHidden) ↔
      ∃ i : Nat, fs[i]? = some (n, x) ∧ ∀ j ≤ i, (visAt (fs.map (·.2)) j).isSome := by
  induction fs with
  | nil => intro n x; simp
  | cons a r ih =>
    intro n x
    have e0 : a.2.isHidden = true → visAt ((a :: r).map (·.2)) 0 = none := fun h => by simp [visAt, h]
    have e : ∀ j, visAt ((a :: r).map (·.2)) (j + 1) = visAt (r.map (·.2)) j := fun j => by simp [visAt]
    cases ha : a.2.isHidden with
    | true =>
      simp only [List.takeWhile_cons, ha, Bool.not_true, Bool.false_eq_true, if_false, List.not_mem_nil,
        false_iff]
      rintro ⟨i, _, h⟩
      have := h 0 (Nat.zero_le _)
      rw [e0 ha] at this; cases this
    | false =>
      simp only [List.takeWhile_cons, ha, Bool.not_false, if_true, List.mem_cons, ih n x]
      constructor
      · rintro (h | ⟨i, hi, h⟩)
        · refine ⟨0, by simp [h], fun j hj => ?_⟩
          obtain rfl : j = 0 := by omega
          simp [visAt, ha]
        · refine ⟨i + 1, by simpa using hi, fun j hj => ?_⟩
          cases j with
          | zero => simp [visAt, ha]
          | succ j => rw [e]; exact h j (by omega)
      · rintro ⟨i, hi, h⟩
        cases i with
        | zero => simp at hi; exact .inl hi.symm
        | succ i =>
          refine .inr ⟨i, by simpa using hi, fun j hj => ?_⟩
          rw [← e]; exact h _ (by omega)

theorem variantIter_iff {E : Env} (hO : OrdLaws E) {o : Obj} (h : o.OK E)
    (hk : o.variantKind = some .struct) (n : String) (x : Obj) : (n, x) ∈ o.namedIter ↔
      ∃ i, o.nameAt i = some n ∧ o.fieldAt i = some x ∧ o.Reaches i := by
  have dn := OK.dyn_names hO h
  cases o <;> simp only [Obj.variantKind, reduceCtorEq, Option.some.injEq] at hk
  case enumS tag v fs =>
    cases tag with
    | derived m =>
      simp only [Obj.namedIter, Obj.nameAt, Obj.fieldAt, Obj.Reaches]
      rw [takeWhile_named]
      refine exists_congr fun i => ?_
      constructor
      · rintro ⟨hi, hr⟩
        have := hr i (Nat.le_refl _)
        simp only [visAt, List.getElem?_map, hi, Option.map_some] at this
        cases hx : x.isHidden with
        | true => simp [hx] at this
        | false => exact ⟨by simp [hi, hx], by simp [visAt, hi, hx], hr⟩
      · rintro ⟨h1, h2, hr⟩
        refine ⟨?_, hr⟩
        cases hi : fs[i]? with
        | none => simp [hi] at h1
        | some q =>
          simp only [visAt, List.getElem?_map, hi, Option.map_some, Option.bind_some] at h1 h2
          split at h2
          · cases h2
          · next hq =>
            cases h2
            simp only [hq, if_false, Option.some.injEq] at h1
            exact congrArg some (Prod.ext (by simpa using h1) rfl)
    | dyn ns =>
      have dn' : ∀ n ∈ ns, n ∈ fs.map (·.1) := fun n hn => (dn.2 _ _ _ rfl n).mp hn
      simp only [Obj.namedIter, Obj.nameAt, Obj.fieldAt, Obj.Reaches]
      rw [mem_dynIter dn']
      constructor
      · rintro ⟨hn, hx⟩
        obtain ⟨i, hi⟩ := List.getElem?_of_mem hn
        refine ⟨i, hi, by rw [hi]; exact hx, fun j hj => ?_⟩
        have hl := (List.getElem?_eq_some_iff.mp hi).1
        rw [List.getElem?_eq_getElem (by omega : j < ns.length)]
        obtain ⟨y, hy⟩ := lookup_isSome_iff.mpr (dn' _ (List.getElem_mem (by omega : j < ns.length)))
        simp [hy]
      · rintro ⟨i, hi, hx, _⟩
        rw [hi] at hx
        exact ⟨List.mem_of_getElem? hi, hx⟩

/-! ## One level of comparison -/

theorem EqStep.of_body {E : Env} (hD : DeclsOK E) (hO : OrdLaws E) {R : Obj → Obj → Prop} {a b : Obj}
    (ha : a.OK E) (h : EqBody E R a b) : EqStep E R a b := by
  have hp : a.kind ≠ .struct → a.variantKind ≠ some .struct → ∀ i x y, a.fieldAt i = some x →
      b.fieldAt i = some y → a.Reaches i → b.Reaches i → R x y := fun h1 h2 i x y hx hy ra rb =>
    h.pos i x y ((posIter_iff h1 h2 i x).mpr ⟨hx, ra⟩)
      ((posIter_iff (h.kind ▸ h1) (h.vkind ▸ h2) i y).mpr ⟨hy, rb⟩)
  cases hk : a.kind with
  | scalar =>
    obtain ⟨s, hs⟩ := asScalar_some hk
    obtain ⟨s', hs'⟩ := asScalar_some (h.kind ▸ hk)
    exact .scalar a b s s' hs hs' (h.scalar s s' hs hs')
  | struct =>
    refine .struct a b hk (h.kind ▸ hk) h.len fun n x hx => ?_
    exact h.named (n, x) ((structIter_iff hD hO ha hk n x).mpr hx)
  | tupleStruct =>
    have hv : a.variantKind ≠ some .struct := by cases a <;> simp [Obj.kind] at hk <;> simp [Obj.variantKind]
    exact .positional a b _ (.inl rfl) hk (h.kind ▸ hk) h.len (hp (by simp [hk]) hv)
  | tuple =>
    have hv : a.variantKind ≠ some .struct := by cases a <;> simp [Obj.kind] at hk <;> simp [Obj.variantKind]
    exact .positional a b _ (.inr (.inl rfl)) hk (h.kind ▸ hk) h.len (hp (by simp [hk]) hv)
  | list =>
    have hv : a.variantKind ≠ some .struct := by cases a <;> simp [Obj.kind] at hk <;> simp [Obj.variantKind]
    exact .positional a b _ (.inr (.inr (.inl rfl))) hk (h.kind ▸ hk) h.len (hp (by simp [hk]) hv)
  | array =>
    have hv : a.variantKind ≠ some .struct := by cases a <;> simp [Obj.kind] at hk <;> simp [Obj.variantKind]
    exact .positional a b _ (.inr (.inr (.inr rfl))) hk (h.kind ▸ hk) h.len (hp (by simp [hk]) hv)
  | enum =>
    cases hv : a.variantKind with
    | none => cases a <;> simp [Obj.kind] at hk <;> simp [Obj.variantKind] at hv
    | some vk =>
      cases vk with
      | unit => exact .unitVariant a b hv (h.vkind ▸ hv) h.vname
      | tuple => exact .tupleVariant a b hv (h.vkind ▸ hv) h.vname h.len (hp (by simp [hk]) (by simp [hv]))
      | struct =>
        refine .structVariant a b hv (h.vkind ▸ hv) h.vname h.len fun i n x hn hx hr => ?_
        exact h.named (n, x) ((variantIter_iff hO ha hv n x).mpr ⟨i, hn, hx, hr⟩)
  | map =>
    obtain ⟨kt, vt, kvs, rfl⟩ := kind_map hk
    exact .map kt vt kvs b (h.kind ▸ hk) h.len.symm h.entries
  | «opaque» => exact absurd hk h.shown

theorem variantKind_enum {o : Obj} {k : VKind} (h : o.variantKind = some k) : o.kind = .enum := by
  cases o <;> simp [Obj.variantKind] at h <;> rfl

theorem kind_entries {o : Obj} (h : o.kind ≠ .map) : o.entries = [] := by
  cases o <;> simp [Obj.kind] at h <;> rfl

theorem EqStep.body {E : Env} (hD : DeclsOK E) (hO : OrdLaws E) {R : Obj → Obj → Prop} {a b : Obj}
    (ha : a.OK E) (h : EqStep E R a b) : EqBody E R a b := by
  have hp : a.kind ≠ .struct → a.variantKind ≠ some .struct → b.kind ≠ .struct →
      b.variantKind ≠ some .struct → (∀ i x y, a.fieldAt i = some x →
      b.fieldAt i = some y → a.Reaches i → b.Reaches i → R x y) → ∀ (i : Nat) x y, a.posIter[i]? = some x →
      b.posIter[i]? = some y → R x y := fun h1 h2 h3 h4 h i x y hx hy => by
    obtain ⟨hx, ra⟩ := (posIter_iff h1 h2 i x).mp hx
    obtain ⟨hy, rb⟩ := (posIter_iff h3 h4 i y).mp hy
    exact h i x y hx hy ra rb
  have noS : ∀ {k : Kind}, a.kind = k → k ≠ .scalar → ∀ s s', a.asScalar = some s →
      b.asScalar = some s' → s.eqv s' = true := fun hk hne s s' hs _ => absurd (hk ▸ scalar_kind hs) hne
  have noN : a.kind ≠ .struct → a.variantKind ≠ some .struct → ∀ p ∈ a.namedIter,
      ∃ y, b.field p.1 = some y ∧ R p.2 y := fun h1 h2 p hp => by
    rcases named_isNamed hp with h | h
    · exact absurd h h1
    · exact absurd h h2
  have noE : a.kind ≠ .map → ∀ p ∈ a.entries, ∃ y, b.mapGet E p.1 = some y ∧ R p.2 y :=
    fun hk p hp => by simp [kind_entries hk] at hp
  have noP : a.posIter = [] → ∀ (i : Nat) x y, a.posIter[i]? = some x → b.posIter[i]? = some y → R x y :=
    fun h i x y hx => by simp [h] at hx
  cases h with
  | scalar _ _ s s' hs hs' he =>
    have ka := scalar_kind hs
    have kb := scalar_kind hs'
    obtain ⟨fa1, fa2, fa3⟩ := scalar_facts ka
    obtain ⟨fb1, fb2, fb3⟩ := scalar_facts kb
    refine ⟨ka.trans kb.symm, by simp [ka], fa1.trans fb1.symm, fa2.trans fb2.symm, fa3.trans fb3.symm, ?_,
      noN (by simp [ka]) (by simp [fa2]), noP (by cases a <;> simp [Obj.kind] at ka <;> rfl),
      noE (by simp [ka])⟩
    intro t t' ht ht'
    rw [hs] at ht; rw [hs'] at ht'; cases ht; cases ht'; exact he
  | struct _ _ hka hkb hl hf =>
    have na := nonenum_facts (b := a) (by simp [hka])
    have nb := nonenum_facts (b := b) (by simp [hkb])
    refine ⟨hka.trans hkb.symm, by simp [hka], na.1.trans nb.1.symm, na.2.trans nb.2.symm, hl,
      noS hka (by simp), ?_, noP (by cases a <;> simp [Obj.kind] at hka <;> rfl), noE (by simp [hka])⟩
    intro p hp
    exact hf p.1 p.2 ((structIter_iff hD hO ha hka _ _).mp hp)
  | positional _ _ k hk hka hkb hl hf =>
    have e : a.kind ≠ .enum ∧ a.kind ≠ .struct ∧ a.kind ≠ .map ∧ a.kind ≠ .opaque ∧ k ≠ .scalar := by
      rcases hk with rfl | rfl | rfl | rfl <;> simp [hka]
    have e' : b.kind ≠ .enum ∧ b.kind ≠ .struct := by
      rcases hk with rfl | rfl | rfl | rfl <;> simp [hkb]
    have na := nonenum_facts e.1
    have nb := nonenum_facts e'.1
    exact ⟨hka.trans hkb.symm, e.2.2.2.1, na.1.trans nb.1.symm, na.2.trans nb.2.symm, hl,
      noS hka e.2.2.2.2, noN e.2.1 (by simp [na.2]), hp e.2.1 (by simp [na.2]) e'.2 (by simp [nb.2]) hf,
      noE e.2.2.1⟩
  | unitVariant _ _ hva hvb hn =>
    have ka := variantKind_enum hva
    have kb := variantKind_enum hvb
    have la : a.fieldsLen = 0 := by cases a <;> simp [Obj.variantKind] at hva <;> rfl
    have lb : b.fieldsLen = 0 := by cases b <;> simp [Obj.variantKind] at hvb <;> rfl
    exact ⟨ka.trans kb.symm, by simp [ka], hn, hva.trans hvb.symm, la.trans lb.symm, noS ka (by simp),
      noN (by simp [ka]) (by simp [hva]), noP (by cases a <;> simp [Obj.variantKind] at hva <;> rfl),
      noE (by simp [ka])⟩
  | tupleVariant _ _ hva hvb hn hl hf =>
    have ka := variantKind_enum hva
    have kb := variantKind_enum hvb
    exact ⟨ka.trans kb.symm, by simp [ka], hn, hva.trans hvb.symm, hl, noS ka (by simp),
      noN (by simp [ka]) (by simp [hva]),
      hp (by simp [ka]) (by simp [hva]) (by simp [kb]) (by simp [hvb]) hf, noE (by simp [ka])⟩
  | structVariant _ _ hva hvb hn hl hf =>
    have ka := variantKind_enum hva
    have kb := variantKind_enum hvb
    refine ⟨ka.trans kb.symm, by simp [ka], hn, hva.trans hvb.symm, hl, noS ka (by simp), ?_,
      noP (pos_nil hva), noE (by simp [ka])⟩
    intro p hp
    obtain ⟨i, h1, h2, h3⟩ := (variantIter_iff hO ha hva p.1 p.2).mp hp
    exact hf i p.1 p.2 h1 h2 h3
  | map kt vt kvs _ hk hl hf =>
    have nb := nonenum_facts (b := b) (by simp [hk])
    exact ⟨hk.symm, by simp [Obj.kind], nb.1.symm, nb.2.symm, hl.symm, by simp [Obj.asScalar],
      by simp [Obj.namedIter], by simp [Obj.posIter], hf⟩

theorem EqStep.mono {E : Env} {R R' : Obj → Obj → Prop} (hR : ∀ x y, R x y → R' x y) {a b : Obj}
    (h : EqStep E R a b) : EqStep E R' a b := by
  cases h with
  | scalar _ _ s s' hs hs' he => exact .scalar a b s s' hs hs' he
  | struct _ _ h1 h2 h3 h4 =>
    exact .struct a b h1 h2 h3 fun n x hx => let ⟨y, hy, r⟩ := h4 n x hx; ⟨y, hy, hR _ _ r⟩
  | positional _ _ k hk h1 h2 h3 h4 =>
    exact .positional a b k hk h1 h2 h3 fun i x y hx hy ra rb => hR _ _ (h4 i x y hx hy ra rb)
  | unitVariant _ _ h1 h2 h3 => exact .unitVariant a b h1 h2 h3
  | tupleVariant _ _ h1 h2 h3 h4 h5 =>
    exact .tupleVariant a b h1 h2 h3 h4 fun i x y hx hy ra rb => hR _ _ (h5 i x y hx hy ra rb)
  | structVariant _ _ h1 h2 h3 h4 h5 =>
    exact .structVariant a b h1 h2 h3 h4 fun i n x hn hx hr =>
      let ⟨y, hy, r⟩ := h5 i n x hn hx hr; ⟨y, hy, hR _ _ r⟩
  | map kt vt kvs _ h1 h2 h3 =>
    exact .map kt vt kvs b h1 h2 fun p hp => let ⟨y, hy, r⟩ := h3 p hp; ⟨y, hy, hR _ _ r⟩

/-- A fixed point, not only closed. -/
theorem equalTo_step {E : Env} {a b : Obj} : EqualTo E a b ↔ EqStep E (EqualTo E) a b := by
  have cl : ∀ a b, EqStep E (EqualTo E) a b → EqualTo E a b := fun a b h R hR =>
    hR a b (h.mono fun x y hxy => hxy R hR)
  exact ⟨fun h => h _ fun a b h => h.mono cl, cl a b⟩

theorem EqBody.weaken {E : Env} {R R' : Obj → Obj → Prop} {a b : Obj} (ha : a.OK E)
    (hR : ∀ x ∈ a.parts, ∀ y, R x y → R' x y) (h : EqBody E R a b) : EqBody E R' a b := by
  refine ⟨h.kind, h.shown, h.vname, h.vkind, h.len, h.scalar, ?_, ?_, ?_⟩
  · intro p hp
    obtain ⟨y, hy, r⟩ := h.named p hp
    exact ⟨y, hy, hR _ (Obj.namedIter_parts ha.dynVis hp) _ r⟩
  · intro i x y hx hy
    exact hR _ (Obj.posIter_parts (List.mem_of_getElem? hx)) _ (h.pos i x y hx hy)
  · intro p hp
    obtain ⟨y, hy, r⟩ := h.entries p hp
    obtain ⟨kt, vt, kvs, rfl⟩ := entries_isMap hp
    exact ⟨y, hy, hR _ (map_snd_parts hp _ _) _ r⟩

theorem reflectEq_equalTo {E : Env} (hD : DeclsOK E) (hO : OrdLaws E) {a : Obj} : ∀ {b : Obj}, a.OK E →
    (reflectEq E a b = some true ↔ EqualTo E a b) := by
  induction a using Obj.ind with
  | h a ih =>
    intro b ha
    constructor
    · intro h
      rw [reflectEq_iff] at h
      refine equalTo_step.mpr (.of_body hD hO ha (h.weaken ha fun x hx y r => ?_))
      exact (ih x (Obj.parts_size hx) (ha.parts hx)).mp r
    · intro h
      rw [reflectEq_iff]
      refine ((equalTo_step.mp h).body hD hO ha).weaken ha fun x hx y r => ?_
      exact (ih x (Obj.parts_size hx) (ha.parts hx)).mpr r

/-! ## Symmetry and transitivity, value by value -/

/-- What symmetry needs of a value. -/
structure Fair (E : Env) (K : Ty → Prop) (o : Obj) : Prop where
  ok : o.OK E
  names : o.NamesNodup
  keys : o.KeyTypes K
  gaps : o.VariantsGapless

theorem Fair.parts {E : Env} {K : Ty → Prop} {o x : Obj} (h : Fair E K o) (hx : x ∈ o.parts) :
    Fair E K x :=
  ⟨h.ok.parts hx, h.names.parts hx, h.keys.parts hx, h.gaps.parts hx⟩

theorem gapless_named {E : Env} (hD : DeclsOK E) (hO : OrdLaws E) {o : Obj} (h : o.OK E)
    (hg : o.variantKind = some .struct → o.Gapless) (n : String) (x : Obj) :
    o.field n = some x ↔ (n, x) ∈ o.namedIter := by
  refine ⟨fun hf => ?_, fun hp => namedIter_field hD hO h hp⟩
  by_cases hk : o.kind = .struct
  · exact (structIter_iff hD hO h hk n x).mpr hf
  · by_cases hv : o.variantKind = some .struct
    · rw [variantIter_iff hO h hv]
      replace hg := hg hv
      have dn := OK.dyn_names hO h
      have hd := h.dynVis
      cases o <;> simp only [Obj.variantKind, reduceCtorEq, Option.some.injEq] at hv
      case enumS tag v fs =>
        cases tag with
        | derived m =>
          replace hf : lookup n (visFields fs) = some x := hf
          have hm := List.mem_filter.mp (lookup_mem hf)
          obtain ⟨i, hi⟩ := List.getElem?_of_mem hm.1
          have hx : x.isHidden = false := by simpa using hm.2
          have hat : (Obj.enumS (.derived m) v fs).fieldAt i = some x := by
            simp [Obj.fieldAt, visAt, hi, hx]
          exact ⟨i, by simp [Obj.nameAt, hi, hx], hat, hg i x hat⟩
        | dyn ns =>
          replace hf : lookup n (visFields fs) = some x := hf
          rw [visFields_all hd] at hf
          have hn := (dn.2 _ _ _ rfl n).mpr (List.mem_map.mpr ⟨_, lookup_mem hf, rfl⟩)
          obtain ⟨i, hi⟩ := List.getElem?_of_mem hn
          have hat : (Obj.enumS (.dyn ns) v fs).fieldAt i = some x := by simp [Obj.fieldAt, hi, hf]
          exact ⟨i, by simp [Obj.nameAt, hi], hat, hg i x hat⟩
    · cases o <;> simp [Obj.kind, Obj.variantKind] at hk hv <;> simp [Obj.field] at hf

theorem takeWhile_gapless {α} {q : α → Bool} : ∀ {l : List α},
    (∀ (i : Nat) x, l[i]? = some x → q x = true → ∀ j ≤ i, ∃ y, l[j]? = some y ∧ q y = true) →
    l.takeWhile q = l.filter q := by
  intro l h
  apply takeWhile_eq_filter
  intro i j x y hi hj hx hy
  rcases Nat.lt_or_ge j i with hlt | hge
  · exact hlt
  · obtain ⟨z, hz, hq⟩ := h j y hj hy i hge
    rw [hi] at hz; cases hz
    rw [hx] at hq; cases hq

theorem visAt_shown {fs : List Obj} {i : Nat} : (visAt fs i).isSome ↔
    ∃ y, fs[i]? = some y ∧ (!y.isHidden) = true := by
  unfold visAt
  cases fs[i]? with
  | none => simp
  | some x => cases hx : x.isHidden <;> simp [hx]

theorem gapless_takeWhile {fs : List Obj} (hg : ∀ i x, visAt fs i = some x → ∀ j ≤ i, (visAt fs j).isSome) :
    fs.takeWhile (fun x => !x.isHidden) = fs.filter fun x => !x.isHidden := by
  refine takeWhile_gapless fun i x hi hx j hj => ?_
  exact visAt_shown.mp (hg i x (by simpa [visAt, hi] using hx) j hj)

theorem gapless_pos {o : Obj} (hg : o.Gapless)
    (hk : o.kind = .tupleStruct ∨ o.kind = .tuple ∨ o.kind = .list ∨ o.kind = .array ∨
      o.variantKind = some .tuple) : o.posIter.length = o.fieldsLen := by
  cases o <;> simp [Obj.kind, Obj.variantKind] at hk <;> simp only [Obj.posIter, Obj.fieldsLen]
  all_goals rw [gapless_takeWhile hg]

theorem pos_le_len {o : Obj} (hk : o.kind = .tupleStruct ∨ o.kind = .tuple ∨ o.kind = .list ∨
    o.kind = .array ∨ o.variantKind = some .tuple) : o.posIter.length ≤ o.fieldsLen := by
  cases o <;> simp [Obj.kind, Obj.variantKind] at hk <;> simp only [Obj.posIter, Obj.fieldsLen, Nat.le_refl]
  all_goals exact (takeWhile_prefix_filter _ _).length_le

/-- The number and names of what a gapless record shows. -/
theorem gapless_named_len {E : Env} (hD : DeclsOK E) (hO : OrdLaws E) {o : Obj} (h : o.OK E)
    (hn : o.NamesNodup) (hg : o.variantKind = some .struct → o.Gapless)
    (hk : o.kind = .struct ∨ o.variantKind = some .struct) :
    (o.namedIter.map (·.1)).Nodup ∧ o.namedIter.length = o.fieldsLen := by
  have nn := OK.named_nodup hD hO h
  have dn := OK.dyn_names hO h
  have hv := h.dynVis
  have hh := hn.here
  cases o <;> simp [Obj.kind, Obj.variantKind] at hk
  case struct tag fs =>
    cases tag with
    | derived n => exact ⟨visFields_nodup (nn.1 _ _ rfl), rfl⟩
    | dyn ns =>
      obtain ⟨h1, _, h3⟩ := dynIter_regular (hh.1 _ _ rfl) (dn.1 _ _ rfl) hv
      exact ⟨h1, h3⟩
  case enumS tag v fs =>
    cases tag with
    | derived n =>
      have e : (Obj.enumS (.derived n) v fs).namedIter = visFields fs := by
        refine takeWhile_gapless fun i p hi hp j hj => ?_
        have hat : visAt (fs.map (·.2)) i = some p.2 := by simpa [visAt, hi] using hp
        obtain ⟨y, hy, hq⟩ := visAt_shown.mp (hg rfl i p.2 hat j hj)
        rw [List.getElem?_map, Option.map_eq_some_iff] at hy
        obtain ⟨q, hq', rfl⟩ := hy
        exact ⟨q, hq', hq⟩
      rw [e]
      exact ⟨visFields_nodup (nn.2 _ _ _ rfl), rfl⟩
    | dyn ns =>
      obtain ⟨h1, _, h3⟩ := dynIter_regular (hh.2 _ _ _ rfl) (dn.2 _ _ _ rfl) hv
      exact ⟨h1, h3⟩

theorem EqBody.symmFair {E : Env} (hD : DeclsOK E) (hO : OrdLaws E)
    {K : Ty → Prop} (hV : KeysByValue E K) {R R' : Obj → Obj → Prop} {a b : Obj}
    (ha : Fair E K a) (hb : Fair E K b)
    (hR : ∀ x ∈ a.parts, ∀ y ∈ b.parts, R x y → R' y x) (h : EqBody E R a b) : EqBody E R' b a := by
  refine ⟨h.kind.symm, h.kind ▸ h.shown, h.vname.symm, h.vkind.symm, h.len.symm,
    fun s s' hs hs' => Scalar.eqv_symm (h.scalar s' s hs' hs), ?_, ?_, ?_⟩
  · intro p hp
    have kb := named_isNamed hp
    have ka : a.kind = .struct ∨ a.variantKind = some .struct := by
      rw [h.kind, h.vkind]; exact kb
    have ra := gapless_named_len hD hO ha.ok ha.names ha.gaps.here ka
    have rb := gapless_named_len hD hO hb.ok hb.names hb.gaps.here kb
    obtain ⟨x, hx, hn, hRx⟩ := pigeonhole (l := a.namedIter) (m := b.namedIter)
      (R := fun x y => x.1 = y.1 ∧ R x.2 y.2)
      (by rw [ra.2, rb.2, h.len])
      (fun x hx => by
        obtain ⟨y, hy, hR⟩ := h.named x hx
        exact ⟨(x.1, y), (gapless_named hD hO hb.ok hb.gaps.here _ _).mp hy, rfl, hR⟩)
      (fun i j x x' y hi hj _ h1 h2 => by
        have e : x.1 = x'.1 := h1.1.trans h2.1.symm
        have h1 : (a.namedIter.map (·.1))[i]? = some x.1 := by simp [hi]
        have h2 : (a.namedIter.map (·.1))[j]? = some x.1 := by simp [hj, e]
        obtain ⟨li, ei⟩ := List.getElem?_eq_some_iff.mp h1
        obtain ⟨lj, ej⟩ := List.getElem?_eq_some_iff.mp h2
        exact (List.Nodup.getElem_inj_iff ra.1).mp (ei.trans ej.symm)) p hp
    refine ⟨x.2, (gapless_named hD hO ha.ok ha.gaps.here _ _).mpr (hn ▸ hx), hR _ ?_ _ ?_ hRx⟩
    · exact Obj.namedIter_parts ha.ok.dynVis hx
    · exact Obj.namedIter_parts hb.ok.dynVis hp
  · intro i x y hx hy
    exact hR _ (Obj.posIter_parts (List.mem_of_getElem? hy)) _
      (Obj.posIter_parts (List.mem_of_getElem? hx)) (h.pos i y x hy hx)
  · intro p hp
    obtain ⟨kt, vt, m, rfl⟩ := entries_isMap hp
    obtain ⟨kt', vt', l, rfl⟩ := kind_map (o := a) (by rw [h.kind]; rfl)
    have Ka := ha.keys.here _ _ _ rfl
    have Kb := hb.keys.here _ _ _ rfl
    obtain ⟨a1, a2, a3⟩ := OK.map_inv hO ha.ok
    obtain ⟨b1, b2, b3⟩ := OK.map_inv hO hb.ok
    obtain ⟨x, hx, hn, hRx⟩ := pigeonhole (l := l) (m := m)
      (R := fun x y => Value.cmp x.1.toValue y.1.toValue = .eq ∧ R x.2 y.2) h.len
      (fun x hx => by
        obtain ⟨y, hy, hR⟩ := h.entries x hx
        obtain ⟨k, hm, he⟩ := (mapGet_value hO hV hb.ok Kb Ka (a2 x hx)).mp hy
        exact ⟨(k, y), hm, he, hR⟩)
      (fun i j x x' y hi hj _ h1 h2 => by
        have hxm := List.mem_of_getElem? hi
        have hxm' := List.mem_of_getElem? hj
        have e : Value.cmp x.1.toValue x'.1.toValue = .eq := by
          rw [valueCmpOn.eq_trans _ _ x'.1.toValue trivial trivial trivial h1.1]
          exact valueCmpOn.eq_symm trivial trivial h2.1
        have g := (mapGet_value hO hV ha.ok Ka Ka (a2 _ hxm)).mpr ⟨x'.1, hxm', e⟩
        obtain ⟨k, hk, k', hk', ek⟩ := (mapGet_iff hO ha.ok ⟨_, a2 _ hxm⟩).mp g
        obtain ⟨k2, hk2, ek2⟩ := (hV _ _ _ _ Ka Ka (a2 _ hxm) (a2 _ hxm)).mpr (Value.cmp_self _)
        rw [hk'] at hk2; cases hk2
        have tk' := fromReflect_sound hO _ _ ⟨_, a2 _ hxm⟩ hk'
        obtain ⟨k3, hk3, ek3⟩ := (hV _ _ _ _ Ka Ka (a2 _ hxm') (a2 _ hxm)).mpr e
        rw [hk'] at hk3; cases hk3
        have : E.kcmp kt' x.1 x'.1 = .eq := by
          rw [(hO.cmpOn kt').eq_trans _ _ x'.1 (a2 _ hxm) tk' (a2 _ hxm')
            ((hO.cmpOn kt').eq_symm tk' (a2 _ hxm) ek2)]
          exact ek3
        obtain ⟨li, ei⟩ := List.getElem?_eq_some_iff.mp hi
        obtain ⟨lj, ej⟩ := List.getElem?_eq_some_iff.mp hj
        have pw := List.pairwise_iff_getElem.mp a1
        rcases Nat.lt_trichotomy i j with hlt | heq | hgt
        · have := pw i j li lj hlt
          simp_all
        · exact heq
        · have := pw j i lj li hgt
          have sw := (hO.cmpOn kt').eq_symm (a2 _ hxm) (a2 _ hxm') ‹E.kcmp kt' x.1 x'.1 = .eq›
          simp_all) p hp
    refine ⟨x.2, (mapGet_value hO hV ha.ok Ka Kb (b2 p hp)).mpr
      ⟨x.1, hx, valueCmpOn.eq_symm trivial trivial hn⟩, hR _ ?_ _ ?_ hRx⟩
    · exact map_snd_parts hx _ _
    · exact map_snd_parts hp _ _

theorem reflectEq_symm_fair {E : Env} (hD : DeclsOK E) (hO : OrdLaws E) {K : Ty → Prop}
    (hV : KeysByValue E K) {a : Obj} : ∀ {b : Obj}, Fair E K a → Fair E K b →
    reflectEq E a b = some true → reflectEq E b a = some true := by
  induction a using Obj.ind with
  | h a ih =>
    intro b ha hb h
    rw [reflectEq_iff] at h ⊢
    refine h.symmFair hD hO hV ha hb ?_
    intro x hx y hy
    exact ih x (Obj.parts_size hx) (ha.parts hx) (hb.parts hy)

/-- What transitivity needs of the outer two values. -/
structure Keyed (E : Env) (K : Ty → Prop) (o : Obj) : Prop where
  ok : o.OK E
  keys : o.KeyTypes K

theorem Keyed.parts {E : Env} {K : Ty → Prop} {o x : Obj} (h : Keyed E K o) (hx : x ∈ o.parts) :
    Keyed E K x :=
  ⟨h.ok.parts hx, h.keys.parts hx⟩

theorem walked_parts {E : Env} {o x : Obj} (h : o.OK E) (hx : x ∈ o.walked) : x ∈ o.parts := by
  rcases mem_walked.mp hx with ⟨p, hp, rfl⟩ | hx | ⟨p, hp, rfl⟩
  · exact Obj.namedIter_parts h.dynVis hp
  · exact Obj.posIter_parts hx
  · obtain ⟨kt, vt, kvs, rfl⟩ := entries_isMap hp
    exact map_snd_parts hp _ _

theorem EqBody.transGapless {E : Env} (hD : DeclsOK E) (hO : OrdLaws E)
    {K : Ty → Prop} (hV : KeysByValue E K) {R R' R'' : Obj → Obj → Prop} {a b c : Obj}
    (ha : Keyed E K a) (hb : Keyed E K b) (hc : Keyed E K c) (hg : b.Gapless)
    (hR : ∀ x ∈ a.parts, ∀ y ∈ b.walked, ∀ z ∈ c.parts, R x y → R' y z → R'' x z)
    (h : EqBody E R a b) (h' : EqBody E R' b c) : EqBody E R'' a c := by
  refine ⟨h.kind.trans h'.kind, h.shown, h.vname.trans h'.vname, h.vkind.trans h'.vkind,
    h.len.trans h'.len, ?_, ?_, ?_, ?_⟩
  · intro s s'' hs hs''
    obtain ⟨s', hs'⟩ := asScalar_some (h.kind ▸ scalar_kind hs)
    exact Scalar.eqv_trans (h.scalar _ _ hs hs') (h'.scalar _ _ hs' hs'')
  · intro p hp
    obtain ⟨y, hy, r1⟩ := h.named p hp
    have hm := (gapless_named hD hO hb.ok (fun _ => hg) _ _).mp hy
    obtain ⟨z, hz, r2⟩ := h'.named (p.1, y) hm
    exact ⟨z, hz, hR _ (Obj.namedIter_parts ha.ok.dynVis hp) _ (mem_walked.mpr (.inl ⟨_, hm, rfl⟩)) _
      (Obj.field_parts hz) r1 r2⟩
  · intro i x z hx hz
    have ka := pos_isPos (List.ne_nil_of_mem (List.mem_of_getElem? hx))
    have kb := ka
    rw [h.kind, h.vkind] at kb
    have lb : a.posIter.length ≤ b.posIter.length := by
      rw [gapless_pos hg kb, ← h.len]; exact pos_le_len ka
    have hi := (List.getElem?_eq_some_iff.mp hx).1
    have hy : b.posIter[i]? = some (b.posIter[i]'(by omega)) := List.getElem?_eq_getElem _
    exact hR _ (Obj.posIter_parts (List.mem_of_getElem? hx)) _
      (mem_walked.mpr (.inr (.inl (List.mem_of_getElem? hy)))) _
      (Obj.posIter_parts (List.mem_of_getElem? hz)) (h.pos _ _ _ hx hy) (h'.pos _ _ _ hy hz)
  · intro p hp
    obtain ⟨y, hy, r1⟩ := h.entries p hp
    obtain ⟨kta, vta, l, rfl⟩ := entries_isMap hp
    obtain ⟨ktb, vtb, m, rfl⟩ := kind_map (o := b) (by rw [← h.kind]; rfl)
    obtain ⟨ktc, vtc, n, rfl⟩ := kind_map (o := c) (by rw [← h'.kind]; rfl)
    have Ka := ha.keys.here _ _ _ rfl
    have Kb := hb.keys.here _ _ _ rfl
    have Kc := hc.keys.here _ _ _ rfl
    obtain ⟨a1, a2, a3⟩ := OK.map_inv hO ha.ok
    obtain ⟨b1, b2, b3⟩ := OK.map_inv hO hb.ok
    obtain ⟨k, hk, ek⟩ := (mapGet_value hO hV hb.ok Kb Ka (a2 p hp)).mp hy
    obtain ⟨z, hz, r2⟩ := h'.entries (k, y) hk
    obtain ⟨k', hk', ek'⟩ := (mapGet_value hO hV hc.ok Kc Kb (b2 _ hk)).mp hz
    refine ⟨z, (mapGet_value hO hV hc.ok Kc Ka (a2 p hp)).mpr ⟨k', hk', ?_⟩,
      hR _ (map_snd_parts hp _ _) _ (mem_walked.mpr (.inr (.inr ⟨(k, y), hk, rfl⟩))) _
        (Obj.mapGet_parts hz) r1 r2⟩
    rw [valueCmpOn.eq_trans _ _ _ trivial trivial trivial ek]
    exact ek'

theorem reflectEq_trans_gapless {E : Env} (hD : DeclsOK E) (hO : OrdLaws E)
    {K : Ty → Prop} (hV : KeysByValue E K) {a : Obj} : ∀ {b c : Obj}, Keyed E K a → Keyed E K b →
    Keyed E K c → b.AllGapless → reflectEq E a b = some true → reflectEq E b c = some true →
    reflectEq E a c = some true := by
  induction a using Obj.ind with
  | h a ih =>
    intro b c ha hb hc hg h h'
    rw [reflectEq_iff] at h h' ⊢
    obtain ⟨_, hg, hw⟩ := hg
    refine h.transGapless hD hO hV ha hb hc hg ?_ h'
    intro x hx y hy z hz
    exact ih x (Obj.parts_size hx) (ha.parts hx) (hb.parts (walked_parts hb.ok hy)) (hc.parts hz) (hw y hy)

/-! ## What a gap breaks -/

theorem bool_body {E : Env} {y : Obj} {b : Bool} (h : reflectEq E (.scalar (.bool b)) y = some true) :
    y.asScalar = some (.bool b) := by
  rw [reflectEq_iff] at h
  obtain ⟨s, hs⟩ := asScalar_some (h.kind.symm.trans rfl)
  have := h.scalar _ _ rfl hs
  cases s <;> simp [Scalar.eqv] at this
  rw [hs, this]

theorem body_bool {E : Env} {y : Obj} {b : Bool} (h : reflectEq E y (.scalar (.bool b)) = some true) :
    y.asScalar = some (.bool b) := by
  rw [reflectEq_iff] at h
  obtain ⟨s, hs⟩ := asScalar_some (h.kind.trans rfl)
  have := h.scalar _ _ hs rfl
  cases s <;> simp [Scalar.eqv] at this
  rw [hs, this]

theorem bool_differs (E : Env) (y : Obj) : ∃ b, reflectEq E (.scalar (.bool b)) y ≠ some true := by
  by_cases h : reflectEq E (.scalar (.bool true)) y = some true
  · refine ⟨false, fun h' => ?_⟩
    have := bool_body h
    rw [bool_body h'] at this; simp at this
  · exact ⟨true, h⟩

theorem differs_bool (E : Env) (y : Obj) : ∃ b, reflectEq E y (.scalar (.bool b)) ≠ some true := by
  by_cases h : reflectEq E y (.scalar (.bool true)) = some true
  · refine ⟨false, fun h' => ?_⟩
    have := body_bool h
    rw [body_bool h'] at this; simp at this
  · exact ⟨true, h⟩

theorem eq_false_of {r : Option Bool} (h : r.isSome) (h' : r ≠ some true) : r = some false := by
  cases r with
  | none => cases h
  | some b => cases b <;> simp_all

theorem gap_short {fs : List Obj} (h : ¬ ∀ i x, visAt fs i = some x → ∀ j ≤ i, (visAt fs j).isSome) :
    (fs.takeWhile fun x => !x.isHidden).length < (fs.filter fun x => !x.isHidden).length := by
  refine Nat.lt_of_not_le fun hl => h fun i x hx j hj => ?_
  have e := (takeWhile_prefix_filter (fun x : Obj => !x.isHidden) fs).eq_of_length_le hl
  obtain ⟨y, hy, hq⟩ := visAt_shown.mp (Option.isSome_iff_exists.mpr ⟨x, hx⟩)
  have hm : fs.takeWhile (fun x => !x.isHidden) = fs.filter fun x => !x.isHidden := e
  refine visAt_shown.mpr ?_
  clear e hl h hx
  induction fs generalizing i j with
  | nil => simp at hy
  | cons a r ih =>
    cases ha : a.isHidden with
    | true =>
      simp only [List.takeWhile_cons, List.filter_cons, ha, Bool.not_true, Bool.false_eq_true, if_false] at hm
      cases i with
      | zero => simp at hy; subst hy; simp [ha] at hq
      | succ i =>
        have : y ∈ r.filter fun x => !x.isHidden :=
          List.mem_filter.mpr ⟨List.mem_of_getElem? (by simpa using hy), hq⟩
        rw [← hm] at this; cases this
    | false =>
      simp only [List.takeWhile_cons, List.filter_cons, ha, Bool.not_false, if_true, List.cons.injEq,
        true_and] at hm
      cases j with
      | zero => exact ⟨a, by simp, by simp [ha]⟩
      | succ j =>
        cases i with
        | zero => omega
        | succ i =>
          obtain ⟨z, hz, hqz⟩ := ih i j (by omega) (by simpa using hy) hm
          exact ⟨z, by simpa using hz, hqz⟩

/-- The positional fields of a `Value` are all shown. -/
theorem toObj_takeWhile (vs : List Value) :
    (vs.map fun v => v.toObj).takeWhile (fun x => !x.isHidden) = vs.map fun v => v.toObj := by
  induction vs with
  | nil => rfl
  | cons v r ih => simp [List.takeWhile_cons, Value.toObj_not_hidden, ih]

theorem gap_breaks_trans {E : Env} {x : Obj} (hx : x.OK E)
    (hk : x.kind = .tupleStruct ∨ x.variantKind = some .tuple) (hg : ¬ x.Gapless)
    (h1 : reflectEq E x x.toValue.toObj = some true) :
    ∃ v : Value, v.WF ∧ reflectEq E x v.toObj = some true ∧
      reflectEq E x.toValue.toObj v.toObj = some false := by
  have wf := hx.toValue_wf
  have key : ∀ (fs : List Obj) (mk : List Value → Value) (mko : List Obj → Obj),
      x.toValue = mk ((visPos fs).map fun x => x.toValue) →
      (∀ l, (mk l).toObj = mko (l.map fun v => v.toObj)) →
      (∀ l, (∀ x ∈ l, Value.WF x) → (mk l).WF) →
      (∀ w ∈ (visPos fs).map fun x => x.toValue, w.WF) →
      x.posIter = fs.takeWhile (fun x => !x.isHidden) →
      (fs.takeWhile fun x => !x.isHidden).length < (fs.filter fun x => !x.isHidden).length →
      (∀ l : List Value, (mko (l.map fun v => v.toObj)).posIter = l.map fun v => v.toObj) →
      (∀ l l' : List Value, l.length = l'.length →
        (mko (l.map fun v => v.toObj)).fieldsLen = (mko (l'.map fun v => v.toObj)).fieldsLen) →
      (∀ l l', (mko l).kind = (mko l').kind ∧ (mko l).variantName = (mko l').variantName ∧
        (mko l).variantKind = (mko l').variantKind ∧ (mko l).asScalar = none ∧ (mko l).entries = [] ∧
        (mko l).namedIter = []) →
      ∃ v : Value, v.WF ∧ reflectEq E x v.toObj = some true ∧
        reflectEq E x.toValue.toObj v.toObj = some false := by
    intro fs mk mko hv ho hw hwl hp hlt hpos hlen hsame
    generalize hl : (visPos fs).map (fun x => x.toValue) = l at hv hwl
    have hll : l.length = (fs.filter fun x => !x.isHidden).length := by rw [← hl]; simp [visPos]
    let r := (fs.takeWhile fun x => !x.isHidden).length
    have hr : r < l.length := by omega
    obtain ⟨b, hb⟩ := differs_bool E (l[r].toObj)
    let l' := l.set r (.scalar (.bool b))
    have hl' : l'.length = l.length := by simp [l']
    have wf' : (mk l').WF := by
      refine hw _ fun y hy => ?_
      rcases List.mem_or_eq_of_mem_set hy with hy | rfl
      · exact hwl _ hy
      · exact .scalar _
    have hs := hsame (l.map fun v => v.toObj) (l'.map fun v => v.toObj)
    rw [hv, ho] at h1
    rw [reflectEq_iff] at h1
    refine ⟨mk l', wf', ?_, ?_⟩
    · rw [ho, reflectEq_iff]
      have h3 : ∀ m, (mko m).kind = (mko (l.map fun v => v.toObj)).kind := fun m => (hsame m _).1
      refine ⟨h1.kind.trans hs.1, h1.shown, h1.vname.trans hs.2.1, h1.vkind.trans hs.2.2.1,
        h1.len.trans (hlen _ _ hl'.symm), ?_, ?_, ?_, ?_⟩
      · intro s s' _ h'
        rw [(hsame _ []).2.2.2.1] at h'; cases h'
      · intro p hp'
        obtain ⟨y, hy, _⟩ := h1.named p hp'
        rcases hk with hk | hk <;> cases x <;> simp [Obj.kind, Obj.variantKind] at hk <;>
          simp [Obj.namedIter] at hp'
      · intro i y z hy hz
        rw [hp] at hy
        have hi := (List.getElem?_eq_some_iff.mp hy).1
        refine h1.pos i y z (by rw [hp]; exact hy) ?_
        rw [hpos] at hz ⊢
        rw [List.getElem?_map] at hz ⊢
        rw [← hz]
        congr 1
        exact (List.getElem?_set_ne (by omega)).symm
      · intro p hp'
        rcases hk with hk | hk <;> cases x <;> simp [Obj.kind, Obj.variantKind] at hk <;>
          simp [Obj.entries] at hp'
    · refine eq_false_of (reflectEq_total wf.ok wf'.ok) fun h => ?_
      rw [hv, ho, ho, reflectEq_iff] at h
      refine hb (h.pos r l[r].toObj (.scalar (.bool b)) ?_ ?_)
      · rw [hpos]; simp [hr]
      · rw [hpos, List.getElem?_map]
        simp only [l']
        rw [List.getElem?_set_self hr]; simp [Value.toObj]
  rcases hk with hk | hk <;> cases x <;> simp [Obj.kind, Obj.variantKind] at hk
  case inl.tupleStruct t fs =>
    refine key fs .tupleStruct (.tupleStruct .dyn) (toValue_tupleStruct _ _) (fun l => by simp [Value.toObj])
      (fun l h => .tupleStruct _ h) ?_ rfl (gap_short hg) (fun l => toObj_takeWhile l) ?_
      (fun l l' => ⟨rfl, rfl, rfl, rfl, rfl, rfl⟩)
    · rw [toValue_tupleStruct] at wf
      cases wf with | tupleStruct _ h => exact h
    · intro l l' h
      simp only [Obj.fieldsLen]
      rw [List.filter_eq_self.mpr, List.filter_eq_self.mpr] <;> simp [h, Value.toObj_not_hidden]
  case inr.enumT t v fs =>
    refine key fs (.enumT v) (.enumT .dyn v) (toValue_enumT _ _ _) (fun l => by simp [Value.toObj])
      (fun l h => .enumT _ _ h) ?_ rfl (gap_short hg) (fun l => toObj_takeWhile l) ?_
      (fun l l' => ⟨rfl, rfl, rfl, rfl, rfl, rfl⟩)
    · rw [toValue_enumT] at wf
      cases wf with | enumT _ _ h => exact h
    · intro l l' h
      simp only [Obj.fieldsLen]
      rw [List.filter_eq_self.mpr, List.filter_eq_self.mpr] <;> simp [h, Value.toObj_not_hidden]

theorem lookup_update {α} (l : List (String × α)) (n : String) (w : α) (m : String) :
    lookup m (l.map fun p => if p.1 = n then (p.1, w) else p) =
      if m = n then (lookup m l).map (fun _ => w) else lookup m l := by
  induction l with
  | nil => simp [lookup]
  | cons p r ih =>
    obtain ⟨k, y⟩ := p
    rw [List.map_cons, apply_ite (fun q => lookup m (q :: r.map _))]
    simp only [lookup, ih]
    by_cases hk : k = n <;> by_cases hm : m = n <;> by_cases hkm : k = m <;> simp_all

theorem gap_breaks_symm {E : Env} (hD : DeclsOK E) (hO : OrdLaws E) {x : Obj} (hx : x.OK E)
    (hk : x.variantKind = some .struct) (hg : ¬ x.Gapless)
    (h1 : reflectEq E x x.toValue.toObj = some true) :
    ∃ v : Value, v.WF ∧ reflectEq E x v.toObj = some true ∧ reflectEq E v.toObj x = some false := by
  have wf := hx.toValue_wf
  have nn := OK.named_nodup hD hO hx
  have dn := OK.dyn_names hO hx
  cases x <;> simp only [Obj.variantKind, reduceCtorEq, Option.some.injEq] at hk
  case enumS tag v fs =>
    cases tag with
    | dyn ns =>
      exfalso
      apply hg
      intro i x hi j hj
      simp only [Obj.fieldAt] at hi ⊢
      cases hn : ns[i]? with
      | none => simp [hn] at hi
      | some n =>
        have hl := (List.getElem?_eq_some_iff.mp hn).1
        rw [List.getElem?_eq_getElem (by omega : j < ns.length)]
        obtain ⟨y, hy⟩ := lookup_isSome_iff.mpr
          ((dn.2 _ _ _ rfl _).mp (List.getElem_mem (by omega : j < ns.length)))
        simp [hy]
    | derived m =>
      have nd := nn.2 _ _ _ rfl
      -- a field after the gap
      obtain ⟨n, y, hf, hm⟩ : ∃ n y, (n, y) ∈ visFields fs ∧
          (n, y) ∉ fs.takeWhile (fun p => !p.2.isHidden) := by
        refine Classical.byContradiction fun hc => hg fun i z hi => ?_
        have hi' : visAt (fs.map (·.2)) i = some z := hi
        obtain ⟨z', hz, hq⟩ := visAt_shown.mp (Option.isSome_iff_exists.mpr ⟨z, hi'⟩)
        rw [List.getElem?_map, Option.map_eq_some_iff] at hz
        obtain ⟨⟨n, z''⟩, hz, rfl⟩ := hz
        have : (n, z'') ∈ fs.takeWhile (fun p => !p.2.isHidden) :=
          Classical.byContradiction fun hc' => hc ⟨n, z'', List.mem_filter.mpr
            ⟨List.mem_of_getElem? hz, hq⟩, hc'⟩
        obtain ⟨k, hk, hr⟩ := (takeWhile_named _ _).mp this
        have : k = i := by
          have h1 := (List.getElem?_eq_some_iff.mp hk)
          have h2 := (List.getElem?_eq_some_iff.mp hz)
          refine (List.getElem_inj (h₀ := by simpa using h1.1) (h₁ := by simpa using h2.1) nd).mp ?_
          simp [h1.2, h2.2]
        subst this
        exact hr
      obtain ⟨b, hb⟩ := bool_differs E y
      rw [toValue_enumS] at wf h1
      generalize hl : bmOfList strCmp ((visFields fs).map fun p => (p.1, p.2.toValue)) = l at wf h1
      generalize hns : (visFields fs).map (·.1) = ns at wf h1
      obtain ⟨w1, w2, w3⟩ : (∀ n, n ∈ ns ↔ n ∈ l.map (·.1)) ∧ BMSorted strCmp l ∧ ∀ p ∈ l, p.2.WF := by
        cases wf with | enumS _ _ _ a b c => exact ⟨a, b, c⟩
      let l' := l.map fun p => if p.1 = n then (p.1, Value.scalar (.bool b)) else p
      have k1 : l'.map (·.1) = l.map (·.1) := by
        simp only [l', List.map_map]
        refine List.map_congr_left fun p _ => ?_
        simp only [Function.comp_apply]
        split <;> rfl
      have wf' : (Value.enumS v ns l').WF := by
        refine .enumS _ _ _ (by rw [k1]; exact w1) ?_ ?_
        · simp only [BMSorted, l', List.pairwise_map]
          refine w2.imp ?_
          intro p q h
          split <;> split <;> exact h
        · intro p hp
          obtain ⟨q, hq, rfl⟩ := List.mem_map.mp hp
          split
          · exact .scalar _
          · exact w3 _ hq
      have hlook : ∀ k, lookup k (l'.map fun p => (p.1, p.2.toObj)) =
          if k = n then (lookup k l).map (fun _ => .scalar (.bool b)) else
            (lookup k l).map fun v => v.toObj := by
        intro k
        rw [lookup_map, lookup_update]
        split
        · cases lookup k l <;> simp [Value.toObj]
        · rfl
      have hall : ∀ l : List (String × Value), visFields (l.map fun p => (p.1, p.2.toObj)) =
          l.map fun p => (p.1, p.2.toObj) := by
        intro l
        refine visFields_all fun p hp => ?_
        obtain ⟨q, _, rfl⟩ := List.mem_map.mp hp
        exact q.2.toObj_not_hidden
      refine ⟨_, wf', ?_, ?_⟩
      · rw [reflectEq_iff] at h1 ⊢
        simp only [Value.toObj] at h1 ⊢
        refine ⟨rfl, h1.shown, rfl, rfl, h1.len, by simp [Obj.asScalar], ?_, by simp [Obj.posIter],
          by simp [Obj.entries]⟩
        intro p hp
        obtain ⟨z, hz, hr⟩ := h1.named p hp
        refine ⟨z, ?_, hr⟩
        simp only [Obj.field, hall] at hz ⊢
        have hpn : p.1 ≠ n := by
          intro he
          have hp' : p ∈ visFields fs := (takeWhile_prefix_filter _ _).subset hp
          have := (lookup_iff (visFields_nodup nd)).mpr hf
          have h2 := (lookup_iff (visFields_nodup nd)).mpr (show (n, p.2) ∈ visFields fs by
            rw [← he]; exact hp')
          rw [this] at h2; cases h2
          apply hm
          rw [← he]; exact hp
        rw [hlook, if_neg hpn, ← lookup_map]
        exact hz
      · refine eq_false_of (reflectEq_total wf'.ok hx) fun h => ?_
        rw [reflectEq_iff] at h
        simp only [Value.toObj] at h
        have hn : n ∈ ns := by rw [← hns]; exact List.mem_map.mpr ⟨_, hf, rfl⟩
        obtain ⟨u, hu⟩ := lookup_isSome_iff.mpr ((w1 n).mp hn)
        have hin : (n, Obj.scalar (.bool b)) ∈
            dynIter (l'.map fun p => (p.1, p.2.toObj)) ns := by
          refine (mem_dynIter fun k hk => ?_).mpr ⟨hn, ?_⟩
          · rw [List.map_map]
            show k ∈ l'.map (·.1)
            rw [k1]; exact (w1 k).mp hk
          · rw [hlook, if_pos rfl, hu]; rfl
        obtain ⟨z, hz, hr⟩ := h.named _ hin
        have : (Obj.enumS (.derived m) v fs).field n = some y :=
          (lookup_iff (visFields_nodup nd)).mpr hf
        rw [this] at hz
        cases hz
        exact hb hr

/-! ## Fields after a gap do not count -/

theorem eqBody_congr_left {E : Env} {R : Obj → Obj → Prop} {a a' b : Obj} (h1 : a.kind = a'.kind)
    (h2 : a.variantName = a'.variantName) (h3 : a.variantKind = a'.variantKind)
    (h4 : a.fieldsLen = a'.fieldsLen) (h5 : a.asScalar = a'.asScalar)
    (h6 : ∀ p, p ∈ a'.namedIter ↔ p ∈ a.namedIter) (h7 : ∀ i : Nat, a.posIter[i]? = a'.posIter[i]?)
    (h8 : a.entries = a'.entries) (h : EqBody E R a b) : EqBody E R a' b :=
  ⟨h1 ▸ h.kind, h1 ▸ h.shown, h2 ▸ h.vname, h3 ▸ h.vkind, h4 ▸ h.len, h5 ▸ h.scalar,
    fun p hp => h.named p ((h6 p).mp hp), fun i x y hx hy => h.pos i x y (by rw [h7 i]; exact hx) hy,
    h8 ▸ h.entries⟩

theorem eqBody_congr_right {E : Env} {R : Obj → Obj → Prop} {a b b' : Obj} (h1 : b.kind = b'.kind)
    (h2 : b.variantName = b'.variantName) (h3 : b.variantKind = b'.variantKind)
    (h4 : b.fieldsLen = b'.fieldsLen) (h5 : b.asScalar = b'.asScalar)
    (h6 : ∀ n, b.field n = b'.field n) (h7 : ∀ i : Nat, b.posIter[i]? = b'.posIter[i]?)
    (h8 : ∀ k, b.mapGet E k = b'.mapGet E k) (h : EqBody E R a b) : EqBody E R a b' :=
  ⟨h1 ▸ h.kind, h.shown, h2 ▸ h.vname, h3 ▸ h.vkind, h4 ▸ h.len, h5 ▸ h.scalar,
    fun p hp => by rw [← h6]; exact h.named p hp,
    fun i x y hx hy => h.pos i x y hx (by rw [h7 i]; exact hy),
    fun p hp => by rw [← h8]; exact h.entries p hp⟩

theorem opt_bool_eq {a b : Option Bool} (ha : a.isSome) (hb : b.isSome) (h : a = some true ↔ b = some true) :
    a = b := by
  obtain ⟨p, rfl⟩ := Option.isSome_iff_exists.mp ha
  obtain ⟨q, rfl⟩ := Option.isSome_iff_exists.mp hb
  cases p <;> cases q <;> simp_all

theorem getElem?_ext_some {α} {l m : List α} {i : Nat} (h : ∀ x, l[i]? = some x ↔ m[i]? = some x) :
    l[i]? = m[i]? := by
  cases hm : m[i]? with
  | none =>
    cases hl : l[i]? with
    | none => rfl
    | some x => rw [(h x).mp hl] at hm; cases hm
  | some x => exact (h x).mpr hm

theorem gap_blind_pos {E : Env} (hD : DeclsOK E) {n : String} {x x' : Obj}
    (hx : HasTy E (.named n) x) (hx' : HasTy E (.named n) x')
    (hk : x.kind = .tupleStruct ∨ x.variantKind = some .tuple) (hn : x'.variantName = x.variantName)
    (h : ∀ i, x.Reaches i → x'.fieldAt i = x.fieldAt i) {y : Obj} (hy : y.OK E) :
    reflectEq E x y = reflectEq E x' y ∧ reflectEq E y x = reflectEq E y x' := by
  suffices hs : x.kind = x'.kind ∧ x.variantKind = x'.variantKind ∧ x.fieldsLen = x'.fieldsLen ∧
      (∀ i : Nat, x.posIter[i]? = x'.posIter[i]?) by
    obtain ⟨s1, s2, s3, s4⟩ := hs
    have hk' : x'.kind = .tupleStruct ∨ x'.variantKind = some .tuple := by rw [← s1, ← s2]; exact hk
    have e1 : ∀ {z : Obj}, (z.kind = .tupleStruct ∨ z.variantKind = some .tuple) → z.asScalar = none ∧
        z.namedIter = [] ∧ z.entries = [] ∧ (∀ m, z.field m = none) ∧ ∀ k, z.mapGet E k = none := by
      intro z hz
      cases z <;> simp [Obj.kind, Obj.variantKind] at hz <;>
        simp [Obj.asScalar, Obj.namedIter, Obj.entries, Obj.field, Obj.mapGet]
    obtain ⟨a1, a2, a3, a4, a5⟩ := e1 hk
    obtain ⟨b1, b2, b3, b4, b5⟩ := e1 hk'
    constructor
    · refine opt_bool_eq (reflectEq_total ⟨_, hx⟩ hy) (reflectEq_total ⟨_, hx'⟩ hy) ?_
      rw [reflectEq_iff, reflectEq_iff]
      exact ⟨eqBody_congr_left s1 hn.symm s2 s3 (by rw [a1, b1]) (by simp [a2, b2]) s4 (by rw [a3, b3]),
        eqBody_congr_left s1.symm hn s2.symm s3.symm (by rw [a1, b1]) (by simp [a2, b2])
          (fun i => (s4 i).symm) (by rw [a3, b3])⟩
    · refine opt_bool_eq (reflectEq_total hy ⟨_, hx⟩) (reflectEq_total hy ⟨_, hx'⟩) ?_
      rw [reflectEq_iff, reflectEq_iff]
      exact ⟨eqBody_congr_right s1 hn.symm s2 s3 (by rw [a1, b1]) (by simp [a4, b4]) s4 (by simp [a5, b5]),
        eqBody_congr_right s1.symm hn s2.symm s3.symm (by rw [a1, b1]) (by simp [a4, b4])
          (fun i => (s4 i).symm) (by simp [a5, b5])⟩
  have key : ∀ {fds : List FieldDef} {fs gs : List Obj}, fs.length = fds.length →
      (∀ (i : Nat) fd x, fds[i]? = some fd → fs[i]? = some x → fd.skip = true → x.isHidden = true) →
      (∀ (i : Nat) fd x, fds[i]? = some fd → fs[i]? = some x → fd.skip = false → HasTy E fd.ty x) →
      gs.length = fds.length →
      (∀ (i : Nat) fd x, fds[i]? = some fd → gs[i]? = some x → fd.skip = true → x.isHidden = true) →
      (∀ (i : Nat) fd x, fds[i]? = some fd → gs[i]? = some x → fd.skip = false → HasTy E fd.ty x) →
      (∀ i, (∀ j ≤ i, (visAt fs j).isSome) → visAt gs i = visAt fs i) →
      (fs.filter fun x => !x.isHidden).length = (gs.filter fun x => !x.isHidden).length ∧
      ∀ i : Nat, (fs.takeWhile fun x => !x.isHidden)[i]? = (gs.takeWhile fun x => !x.isHidden)[i]? := by
    intro fds fs gs f2 f3 f4 g2 g3 g4 hv
    have hl : fs.length = gs.length := f2.trans g2.symm
    have hh : ∀ (i : Nat) x y, fs[i]? = some x → gs[i]? = some y → x.isHidden = y.isHidden := by
      intro i x y hx hy
      obtain ⟨fd, h1, h2, _⟩ := skip_hidden f2 f3 f4 hx
      obtain ⟨fd', h1', h2', _⟩ := skip_hidden g2 g3 g4 hy
      rw [h1] at h1'; cases h1'
      rw [h2, h2']
    refine ⟨filter_length_eq (q := fun x : Obj => !x.isHidden) hl fun i x y hx hy => by rw [hh i x y hx hy], ?_⟩
    have hr : ∀ j, (visAt fs j).isSome ↔ (visAt gs j).isSome := by
      intro j
      rw [visAt_shown, visAt_shown]
      constructor
      · rintro ⟨z, hz, hq⟩
        obtain ⟨w, hw⟩ := align_pos hl hz
        exact ⟨w, hw, by rw [← hh j z w hz hw]; exact hq⟩
      · rintro ⟨w, hw, hq⟩
        obtain ⟨z, hz⟩ := align_pos hl.symm hw
        exact ⟨z, hz, by rw [hh j z w hz hw]; exact hq⟩
    intro i
    refine getElem?_ext_some fun z => ?_
    rw [takeWhile_visAt, takeWhile_visAt]
    constructor
    · rintro ⟨h1, h2⟩
      exact ⟨by rw [hv i h2]; exact h1, fun j hj => (hr j).mp (h2 j hj)⟩
    · rintro ⟨h1, h2⟩
      have h3 : ∀ j ≤ i, (visAt fs j).isSome := fun j hj => (hr j).mpr (h2 j hj)
      exact ⟨by rw [← hv i h3]; exact h1, h3⟩
  cases hx with
  | tupleStruct _ fds c fs hd f2 f3 f4 =>
    cases hx' with
    | tupleStruct _ fds' c' gs hd' g2 g3 g4 =>
      rw [hd] at hd'; cases hd'
      obtain ⟨k1, k2⟩ := key f2 f3 f4 g2 g3 g4 h
      exact ⟨rfl, rfl, k1, k2⟩
    | struct _ _ _ _ hd' => rw [hd] at hd'; cases hd'
    | enumS _ _ _ _ _ _ hd' => rw [hd] at hd'; cases hd'
    | enumT _ _ _ _ _ _ hd' => rw [hd] at hd'; cases hd'
    | enumU _ _ _ _ hd' => rw [hd] at hd'; cases hd'
  | enumT _ vds c v fds fs hd hv f2 f3 f4 =>
    cases hx' with
    | enumT _ vds' c' v' fds' gs hd' hv' g2 g3 g4 =>
      rw [hd] at hd'; cases hd'
      simp only [Obj.variantName, Option.some.injEq] at hn
      subst hn
      have hfd := variant_unique (hD.variant_names n vds c hd) hv hv'
      cases hfd
      obtain ⟨k1, k2⟩ := key f2 f3 f4 g2 g3 g4 h
      exact ⟨rfl, rfl, k1, k2⟩
    | enumS _ vds' c' v' fds' gs hd' hv' =>
      rw [hd] at hd'; cases hd'
      simp only [Obj.variantName, Option.some.injEq] at hn
      subst hn
      have hfd := variant_unique (hD.variant_names n vds c hd) hv hv'
      cases hfd
    | enumU _ vds' c' v' hd' hv' =>
      rw [hd] at hd'; cases hd'
      simp only [Obj.variantName, Option.some.injEq] at hn
      subst hn
      have hfd := variant_unique (hD.variant_names n vds c hd) hv hv'
      cases hfd
    | struct _ _ _ _ hd' => rw [hd] at hd'; cases hd'
    | tupleStruct _ _ _ _ hd' => rw [hd] at hd'; cases hd'
  | struct _ _ _ _ hd' => simp [Obj.kind, Obj.variantKind] at hk
  | enumS _ _ _ _ _ _ hd' => simp [Obj.kind, Obj.variantKind] at hk
  | enumU _ _ _ _ hd' => simp [Obj.kind, Obj.variantKind] at hk

theorem gap_blind_named {E : Env} (hD : DeclsOK E) (hO : OrdLaws E) {n : String} {x x' : Obj}
    (hx : HasTy E (.named n) x) (hx' : HasTy E (.named n) x')
    (hk : x.variantKind = some .struct) (hn : x'.variantName = x.variantName)
    (h : ∀ i, x.Reaches i → x'.fieldAt i = x.fieldAt i) {y : Obj} (hy : y.OK E) :
    reflectEq E x y = reflectEq E x' y := by
  cases hx with
  | enumS _ vds c v fds fs hd hv f2 f3 f4 =>
    have okx : (Obj.enumS (.derived n) v fs).OK E := ⟨_, .enumS n vds c v fds fs hd hv f2 f3 f4⟩
    cases hx' with
    | enumS _ vds' c' v' fds' gs hd' hv' g2 g3 g4 =>
      rw [hd] at hd'; cases hd'
      simp only [Obj.variantName, Option.some.injEq] at hn
      subst hn
      have hfd := variant_unique (hD.variant_names n vds c hd) hv hv'
      cases hfd
      have okx' : (Obj.enumS (.derived n) v' gs).OK E := ⟨_, .enumS n vds c v' fds gs hd hv' g2 g3 g4⟩
      have hnn : fs.map (·.1) = gs.map (·.1) := f2.trans g2.symm
      have hl : fs.length = gs.length := by simpa using congrArg List.length hnn
      have hh : ∀ (i : Nat) p q, fs[i]? = some p → gs[i]? = some q → p.2.isHidden = q.2.isHidden := by
        intro i x y hx hy
        obtain ⟨fd, h1, h2, _⟩ := skip_hidden_named f2 f3 f4 hx
        obtain ⟨fd', h1', h2', _⟩ := skip_hidden_named g2 g3 g4 hy
        rw [h1] at h1'; cases h1'
        rw [h2, h2']
      have hlen : (visFields fs).length = (visFields gs).length :=
        filter_length_eq (q := fun p : String × Obj => !p.2.isHidden) hl
          fun i x y hx hy => by rw [hh i x y hx hy]
      have hname : ∀ i, (Obj.enumS (.derived n) v' fs).nameAt i = (Obj.enumS (.derived n) v' gs).nameAt i := by
        intro i
        simp only [Obj.nameAt]
        cases hi : fs[i]? with
        | none =>
          have : gs[i]? = none := by
            rw [List.getElem?_eq_none_iff] at hi ⊢; omega
          rw [this]
        | some p =>
          obtain ⟨q, hq⟩ := align_pos hl hi
          have e : p.1 = q.1 := by
            have := congrArg (·[i]?) hnn
            simpa [hi, hq] using this
          simp [hq, hh i p q hi hq, e]
      have hr : ∀ j, ((Obj.enumS (.derived n) v' fs).fieldAt j).isSome ↔
          ((Obj.enumS (.derived n) v' gs).fieldAt j).isSome := by
        intro j
        simp only [Obj.fieldAt]
        rw [visAt_shown, visAt_shown]
        simp only [List.getElem?_map, Option.map_eq_some_iff]
        constructor
        · rintro ⟨_, ⟨z, hz, rfl⟩, hq⟩
          obtain ⟨w, hw⟩ := align_pos hl hz
          exact ⟨_, ⟨w, hw, rfl⟩, by rw [← hh j z w hz hw]; exact hq⟩
        · rintro ⟨_, ⟨w, hw, rfl⟩, hq⟩
          obtain ⟨z, hz⟩ := align_pos hl.symm hw
          exact ⟨_, ⟨z, hz, rfl⟩, by rw [hh j z w hz hw]; exact hq⟩
      have hmem : ∀ p, p ∈ (Obj.enumS (.derived n) v' gs).namedIter ↔
          p ∈ (Obj.enumS (.derived n) v' fs).namedIter := by
        rintro ⟨m, z⟩
        rw [variantIter_iff hO okx rfl, variantIter_iff hO okx' rfl]
        constructor
        · rintro ⟨i, h1, h2, h3⟩
          have h3' : (Obj.enumS (.derived n) v' fs).Reaches i := fun j hj => (hr j).mpr (h3 j hj)
          exact ⟨i, by rw [hname]; exact h1, by rw [← h i h3']; exact h2, h3'⟩
        · rintro ⟨i, h1, h2, h3⟩
          exact ⟨i, by rw [← hname]; exact h1, by rw [h i h3]; exact h2, fun j hj => (hr j).mp (h3 j hj)⟩
      refine opt_bool_eq (reflectEq_total okx hy) (reflectEq_total okx' hy) ?_
      rw [reflectEq_iff, reflectEq_iff]
      exact ⟨eqBody_congr_left rfl rfl rfl hlen rfl hmem (fun i => rfl) rfl,
        eqBody_congr_left rfl rfl rfl hlen.symm rfl (fun p => (hmem p).symm) (fun i => rfl) rfl⟩
    | enumT _ vds' c' v' fds' gs hd' hv' =>
      rw [hd] at hd'; cases hd'
      simp only [Obj.variantName, Option.some.injEq] at hn
      subst hn
      have hfd := variant_unique (hD.variant_names n vds c hd) hv hv'
      cases hfd
    | enumU _ vds' c' v' hd' hv' =>
      rw [hd] at hd'; cases hd'
      simp only [Obj.variantName, Option.some.injEq] at hn
      subst hn
      have hfd := variant_unique (hD.variant_names n vds c hd) hv hv'
      cases hfd
    | struct _ _ _ _ hd' => rw [hd] at hd'; cases hd'
    | tupleStruct _ _ _ _ hd' => rw [hd] at hd'; cases hd'
  | tupleStruct _ _ _ _ hd' => simp [Obj.variantKind] at hk
  | enumT _ _ _ _ _ _ hd' => simp [Obj.variantKind] at hk
  | struct _ _ _ _ hd' => simp [Obj.variantKind] at hk
  | enumU _ _ _ _ hd' => simp [Obj.variantKind] at hk

end Mirror
