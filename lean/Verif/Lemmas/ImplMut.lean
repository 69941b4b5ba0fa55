import Verif.Spec.ImplMut
import Verif.Lemmas.Impl
import Verif.Lemmas.Path

/-!
# Lemmas: `at_mut` on hand-written implementations
-/

namespace Mirror

section
variable {A : Type}

/-- How a key of a path asks for a part. -/
def Form.handle (I : Impl A) (f : Form) : Key → Option (Handle A)
  | .named n => some (.field n)
  | .numbered i => some (.pos i)
  | .get v =>
    match f with
    | .map => some (.key (I.ofValue v))
    | _ => (valueToUsize v).map .index
  | .variant _ => none

theorem Impl.atKey_part (I : Impl A) (a : A) (k : Key) (hk : ∀ v, k ≠ .variant v) :
    I.atKey a k = ((I.view a).form.handle I k).bind (I.view a).part := by
  cases k with
  | variant v => exact absurd rfl (hk v)
  | named n =>
    simp only [Impl.atKey, Form.handle, Option.bind_some]
    generalize I.view a = w
    cases w <;> try rfl
    next kind _ _ _ _ => cases kind <;> rfl
  | numbered i =>
    simp only [Impl.atKey, Form.handle, Option.bind_some]
    generalize I.view a = w
    cases w <;> try rfl
    next kind _ _ _ _ => cases kind <;> rfl
  | get v =>
    simp only [Impl.atKey, Form.handle]
    generalize I.view a = w
    cases w <;> simp only [RefView.form] <;> cases valueToUsize v <;> try rfl
    all_goals next kind _ _ _ _ _ => cases kind <;> rfl

theorem MutImpl.atKeyMut_spot (M : MutImpl A) (a : A) (k : Key) (hk : ∀ v, k ≠ .variant v) :
    M.atKeyMut a k = ((M.viewMut a).form.handle M.toImpl k).bind (M.viewMut a).spot := by
  cases k with
  | variant v => exact absurd rfl (hk v)
  | named n =>
    simp only [MutImpl.atKeyMut, Form.handle, Option.bind_some]
    generalize M.viewMut a = w
    cases w <;> try rfl
    next kind _ _ => cases kind <;> rfl
  | numbered i =>
    simp only [MutImpl.atKeyMut, Form.handle, Option.bind_some]
    generalize M.viewMut a = w
    cases w <;> try rfl
    next kind _ _ => cases kind <;> rfl
  | get v =>
    simp only [MutImpl.atKeyMut, Form.handle]
    generalize M.viewMut a = w
    cases w <;> simp only [MutView.form] <;> cases valueToUsize v <;> try rfl
    all_goals next kind _ _ _ => cases kind <;> rfl

/-- A variant key finds the value itself, if its form is right. -/
theorem Impl.atKey_variant (I : Impl A) (a : A) (v : String) :
    I.atKey a (.variant v) = match (I.view a).form with
      | .enum n _ => if n = v then some a else none
      | _ => none := by
  simp only [Impl.atKey]
  generalize I.view a = w
  cases w <;> rfl

theorem MutImpl.atKeyMut_variant (M : MutImpl A) (a : A) (v : String) :
    M.atKeyMut a (.variant v) = match (M.viewMut a).form with
      | .enum n _ => if n = v then some ⟨a, fun z => z⟩ else none
      | _ => none := by
  simp only [MutImpl.atKeyMut]
  generalize M.viewMut a = w
  cases w <;> rfl

theorem MutImpl.atKeyMut_variant_some {M : MutImpl A} {a : A} {v : String} {pl : Spot A}
    (h : M.atKeyMut a (.variant v) = some pl) : pl = ⟨a, fun z => z⟩ := by
  rw [M.atKeyMut_variant] at h
  split at h
  · split at h
    · cases h; rfl
    · cases h
  · cases h

/-- A value of the same form has the same variant. -/
theorem Impl.atKey_variant_form (I : Impl A) {a b : A} (h : (I.view b).form = (I.view a).form) (v : String) :
    (I.atKey b (.variant v)).isSome = (I.atKey a (.variant v)).isSome := by
  rw [I.atKey_variant, I.atKey_variant, h]
  split
  · split <;> rfl
  · rfl

variable {M : MutImpl A} {R K : A → A → Prop}

theorem MutImpl.Lawful.get_key (h : M.Lawful R K) (a : A) (k : Key) :
    (M.atKeyMut a k).map (·.get) = M.atKey a k := by
  by_cases hk : ∀ v, k ≠ .variant v
  · rw [M.atKeyMut_spot a k hk, M.toImpl.atKey_part a k hk, h.form a]
    cases (M.view a).form.handle M.toImpl k with
    | none => rfl
    | some x => exact h.same a x
  · simp only [not_forall, Classical.not_not] at hk
    obtain ⟨v, rfl⟩ := hk
    rw [M.atKeyMut_variant, M.toImpl.atKey_variant, h.form a]
    split
    · split <;> rfl
    · rfl

theorem MutImpl.Lawful.get_go (h : M.Lawful R K) (p : List Key) :
    ∀ a, (M.atMutGo a p).map (·.get) = M.atGo a p := by
  induction p with
  | nil => intro a; rfl
  | cons k r ih =>
    intro a
    have hk := h.get_key a k
    rw [MutImpl.atMutGo, Impl.atGo]
    cases hq : M.atKeyMut a k with
    | none => rw [hq] at hk; rw [← hk]; rfl
    | some pl =>
      rw [hq] at hk
      rw [← hk]
      cases r with
      | nil => rfl
      | cons k' r' =>
        have := ih pl.get
        simp only [Option.map_some]
        rw [← this]
        cases M.atMutGo pl.get (k' :: r') <;> rfl

/-- What the first step of a path gives. -/
theorem MutImpl.atMutGo_cons {a : A} {k : Key} {r : List Key} {sp : Spot A}
    (h : M.atMutGo a (k :: r) = some sp) : ∃ pl, M.atKeyMut a k = some pl ∧
      (r = [] ∧ sp = pl ∨ ∃ sp', r ≠ [] ∧ M.atMutGo pl.get r = some sp' ∧
        sp = ⟨sp'.get, fun z => pl.put (sp'.put z)⟩) := by
  rw [MutImpl.atMutGo] at h
  cases hk : M.atKeyMut a k with
  | none => rw [hk] at h; cases h
  | some pl =>
    rw [hk] at h
    refine ⟨pl, rfl, ?_⟩
    cases r with
    | nil => cases h; exact Or.inl ⟨rfl, rfl⟩
    | cons k' r' =>
      dsimp only at h
      cases hq : M.atMutGo pl.get (k' :: r') with
      | none => rw [hq] at h; cases h
      | some sp' => rw [hq] at h; cases h; exact Or.inr ⟨sp', nofun, rfl, rfl⟩

theorem Impl.atGo_cons (I : Impl A) (a : A) (k : Key) (r : List Key) (hr : r ≠ []) :
    I.atGo a (k :: r) = (I.atKey a k).bind fun x => I.atGo x r := by
  rw [Impl.atGo]
  cases r with
  | nil => exact absurd rfl hr
  | cons k' r' => cases I.atKey a k <;> rfl

theorem Impl.atGo_one (I : Impl A) (a : A) (k : Key) : I.atGo a [k] = I.atKey a k := by
  simp only [Impl.atGo]
  cases I.atKey a k <;> rfl

/-- One step that is not a variant key. -/
theorem MutImpl.Lawful.write_key (h : M.Lawful R K) {a : A} {k : Key} {pl : Spot A}
    (hk : ∀ v, k ≠ .variant v) (hp : M.atKeyMut a k = some pl) {z : A} (hz : R pl.get z) :
    R a (pl.put z) ∧ (M.view (pl.put z)).form = (M.view a).form ∧ M.atKey (pl.put z) k = some z ∧
      ∀ k', KeyApart M.toImpl K (M.view a).form k k' → M.atKey (pl.put z) k' = M.atKey a k' := by
  rw [M.atKeyMut_spot a k hk, h.form a] at hp
  obtain ⟨x, hx, hs⟩ := Option.bind_eq_some_iff.mp hp
  obtain ⟨h1, h2, h3, h4⟩ := h.write a x pl z hs hz
  refine ⟨h1, h2, ?_, fun k' hkk => ?_⟩
  · rw [M.toImpl.atKey_part _ k hk, h2, hx]
    exact h3
  · have hk' : ∀ v, k' ≠ .variant v := by
      intro v hv
      subst hv
      generalize (M.view a).form = f at hkk
      cases hkk
    rw [M.toImpl.atKey_part _ k' hk', M.toImpl.atKey_part _ k' hk', h2]
    cases hx' : (M.view a).form.handle M.toImpl k' with
    | none => rfl
    | some x' =>
      refine h4 x' ?_
      revert hx hx' hkk
      generalize (M.view a).form = f
      intro hx hkk hx'
      cases hkk with
      | named hn => cases hx; cases hx'; exact .field hn
      | numbered hn => cases hx; cases hx'; exact .pos hn
      | key hn => cases hx; cases hx'; exact .key hn
      | index hf hi =>
        simp only [Form.handle] at hx hx'
        obtain ⟨i, hvi, rfl⟩ := Option.map_eq_some_iff.mp hx
        obtain ⟨j, hvj, rfl⟩ := Option.map_eq_some_iff.mp hx'
        exact .index fun hij => hi i hvi (by rw [hvj, hij])

theorem MutImpl.Lawful.back_key (h : M.Lawful R K) {a : A} {k : Key} {pl : Spot A}
    (hp : M.atKeyMut a k = some pl) : pl.put pl.get = a := by
  by_cases hk : ∀ v, k ≠ .variant v
  · rw [M.atKeyMut_spot a k hk] at hp
    obtain ⟨x, hx, hs⟩ := Option.bind_eq_some_iff.mp hp
    exact h.back a x pl hs
  · simp only [not_forall, Classical.not_not] at hk
    obtain ⟨v, rfl⟩ := hk
    rw [MutImpl.atKeyMut_variant_some hp]

theorem MutImpl.Lawful.back_go (h : M.Lawful R K) (p : List Key) :
    ∀ a sp, M.atMutGo a p = some sp → sp.put sp.get = a := by
  induction p with
  | nil => intro a sp hs; cases hs
  | cons k r ih =>
    intro a sp hs
    obtain ⟨pl, hk, ⟨rfl, rfl⟩ | ⟨sp', hr, hs', rfl⟩⟩ := MutImpl.atMutGo_cons hs
    · exact h.back_key hk
    · show pl.put (sp'.put sp'.get) = a
      rw [ih pl.get sp' hs']
      exact h.back_key hk

/-- Overwriting a part overwrites the whole with something it may be overwritten with. -/
theorem MutImpl.Lawful.rel_go (h : M.Lawful R K) (p : List Key) :
    ∀ a sp z, M.atMutGo a p = some sp → R sp.get z → R a (sp.put z) := by
  induction p with
  | nil => intro a sp z hs; cases hs
  | cons k r ih =>
    intro a sp z hs hz
    have key : ∀ pl y, M.atKeyMut a k = some pl → R pl.get y → R a (pl.put y) := by
      intro pl y hk hy
      by_cases hv : ∀ v, k ≠ .variant v
      · exact (h.write_key hv hk hy).1
      · simp only [not_forall, Classical.not_not] at hv
        obtain ⟨v, rfl⟩ := hv
        cases MutImpl.atKeyMut_variant_some hk
        exact hy
    obtain ⟨pl, hk, ⟨rfl, rfl⟩ | ⟨sp', hr, hs', rfl⟩⟩ := MutImpl.atMutGo_cons hs
    · exact key _ _ hk hz
    · exact key pl _ hk (ih _ _ _ hs' hz)

/-- A write within a value leaves its form. -/
theorem MutImpl.Lawful.form_go (h : M.Lawful R K) (p : List Key) :
    ∀ a sp z, (∃ k ∈ p, ∀ v, k ≠ Key.variant v) → M.atMutGo a p = some sp → R sp.get z →
      (M.view (sp.put z)).form = (M.view a).form := by
  induction p with
  | nil => intro a sp z _ hs; cases hs
  | cons k r ih =>
    intro a sp z hex hs hz
    obtain ⟨pl, hk, hr⟩ := MutImpl.atMutGo_cons hs
    by_cases hv : ∀ v, k ≠ .variant v
    · rcases hr with ⟨rfl, rfl⟩ | ⟨sp', hr, hs', rfl⟩
      · exact (h.write_key hv hk hz).2.1
      · exact (h.write_key hv hk (h.rel_go _ _ _ _ hs' hz)).2.1
    · obtain ⟨k0, hk0, hn⟩ := hex
      have hk0r : k0 ∈ r := by
        rcases List.mem_cons.mp hk0 with rfl | hm
        · exact absurd hn hv
        · exact hm
      simp only [not_forall, Classical.not_not] at hv
      obtain ⟨v, rfl⟩ := hv
      cases MutImpl.atKeyMut_variant_some hk
      rcases hr with ⟨rfl, rfl⟩ | ⟨sp', hr, hs', rfl⟩
      · simp at hk0r
      · exact ih _ _ _ ⟨k0, hk0r, hn⟩ hs' hz

theorem MutImpl.Lawful.read_go (h : M.Lawful R K) (p : List Key) :
    ∀ a sp z, M.atMutGo a p = some sp → R sp.get z → (∀ v, p.getLast? ≠ some (Key.variant v)) →
      M.atGo (sp.put z) p = some z := by
  induction p with
  | nil => intro a sp z hs; cases hs
  | cons k r ih =>
    intro a sp z hs hz hl
    obtain ⟨pl, hk, hr⟩ := MutImpl.atMutGo_cons hs
    rcases hr with ⟨rfl, rfl⟩ | ⟨sp', hr, hs', rfl⟩
    · have hv : ∀ v, k ≠ .variant v := fun v hv => hl v (by rw [hv]; rfl)
      rw [Impl.atGo_one]
      exact (h.write_key hv hk hz).2.2.1
    · have hl' : ∀ v, r.getLast? ≠ some (Key.variant v) := by
        intro v hv
        refine hl v ?_
        rw [List.getLast?_cons, hv]
        rfl
      rw [Impl.atGo_cons _ _ _ _ hr]
      by_cases hv : ∀ v, k ≠ .variant v
      · rw [(h.write_key hv hk (h.rel_go _ _ _ _ hs' hz)).2.2.1]
        exact ih _ _ _ hs' hz hl'
      · simp only [not_forall, Classical.not_not] at hv
        obtain ⟨v, rfl⟩ := hv
        have hpl := MutImpl.atKeyMut_variant_some hk
        subst hpl
        have hex : ∃ k ∈ r, ∀ v, k ≠ Key.variant v := by
          obtain ⟨x, hx⟩ : ∃ x, r.getLast? = some x := by
            cases hg : r.getLast? with
            | none => exact absurd (List.getLast?_eq_none_iff.mp hg) hr
            | some x => exact ⟨x, rfl⟩
          exact ⟨x, List.mem_of_getLast? hx, fun v hxv => hl' v (by rw [hx, hxv])⟩
        have hf := h.form_go r a sp' z hex hs' hz
        have hkk := h.get_key a (.variant v)
        rw [hk] at hkk
        have hsome := M.toImpl.atKey_variant_form hf v
        rw [← hkk] at hsome
        have : M.atKey (sp'.put z) (.variant v) = some (sp'.put z) := by
          rw [M.toImpl.atKey_variant] at hsome ⊢
          split at hsome
          · split at hsome
            · next hn => rw [if_pos hn]
            · cases hsome
          · cases hsome
        show (M.atKey (sp'.put z) (.variant v)).bind _ = some z
        rw [this]
        exact ih _ _ _ hs' hz hl'

theorem KeyApart.left {I : Impl A} {f : Form} {k k' : Key} (h : KeyApart I K f k k') :
    ∀ v, k ≠ .variant v := by
  cases h <;> intro v <;> exact nofun

/-- A variant key at the end. -/
theorem MutImpl.atMutGo_variant {p : List Key} (hp : p ≠ []) {a : A} {v : String} {sp : Spot A}
    (h : M.atMutGo a (p ++ [.variant v]) = some sp) :
    ∃ sp0 : Spot A, M.atMutGo a p = some sp0 ∧ sp.get = sp0.get ∧ sp0 = ⟨sp0.get, sp.put⟩ := by
  induction p generalizing a sp with
  | nil => exact absurd rfl hp
  | cons k r ih =>
    obtain ⟨pl, hk, ⟨hr, -⟩ | ⟨sp', hr, hs', rfl⟩⟩ := MutImpl.atMutGo_cons (r := r ++ [.variant v]) h
    · simp at hr
    · rw [MutImpl.atMutGo, hk]
      cases r with
      | nil =>
        obtain ⟨pl', hk', ⟨-, rfl⟩ | ⟨sp'', hr', -⟩⟩ := MutImpl.atMutGo_cons (r := []) hs'
        · cases MutImpl.atKeyMut_variant_some hk'
          exact ⟨pl, rfl, rfl, rfl⟩
        · exact absurd rfl hr'
      | cons k' r' =>
        obtain ⟨sp0, h0, h1, h2⟩ := ih nofun hs'
        simp only [h0]
        refine ⟨_, rfl, h1, ?_⟩
        rw [h2]

theorem PathsApart.key {I : Impl A} {a : A} {p q : KeyPath} (h : PathsApart I K a p q) :
    (∃ k ∈ p, ∀ v, k ≠ Key.variant v) ∧ q ≠ [] := by
  induction h with
  | @here a k k' p q hk =>
    exact ⟨⟨k, by simp, hk.left⟩, nofun⟩
  | @next a x k p q hk _ _ _ => exact ⟨⟨k, by simp, hk⟩, nofun⟩
  | left _ ih =>
    obtain ⟨⟨k, hk, hn⟩, hq⟩ := ih
    exact ⟨⟨k, by simp [hk], hn⟩, hq⟩
  | right _ ih => exact ⟨ih.1, nofun⟩

theorem MutImpl.Lawful.frame_go (h : M.Lawful R K) {a : A} {p q : KeyPath}
    (hpq : PathsApart M.toImpl K a p q) : ∀ sp z, M.atMutGo a p = some sp → R sp.get z → M.atGo (sp.put z) q = M.atGo a q := by
  induction hpq with
  | @here a k k' p q hkk =>
    intro sp z hs hz
    have hv : ∀ v, k ≠ .variant v := hkk.left
    obtain ⟨pl, hk, hr⟩ := MutImpl.atMutGo_cons hs
    obtain ⟨y, hy, he⟩ : ∃ y, R pl.get y ∧ sp.put z = pl.put y := by
      rcases hr with ⟨rfl, rfl⟩ | ⟨sp', hr, hs', rfl⟩
      · exact ⟨z, hz, rfl⟩
      · exact ⟨_, h.rel_go _ _ _ _ hs' hz, rfl⟩
    have := (h.write_key hv hk hy).2.2.2 k' hkk
    rw [he]
    rw [Impl.atGo, Impl.atGo, this]
  | @next a x k p q hv hax hpq ih =>
    intro sp z hs hz
    obtain ⟨pl, hk, ⟨rfl, rfl⟩ | ⟨sp', hr, hs', rfl⟩⟩ := MutImpl.atMutGo_cons hs
    · obtain ⟨⟨k0, hk0, -⟩, -⟩ := hpq.key
      simp at hk0
    · rw [Impl.atGo_cons _ _ _ _ hpq.key.2, Impl.atGo_cons _ _ _ _ hpq.key.2]
      rw [(h.write_key hv hk (h.rel_go _ _ _ _ hs' hz)).2.2.1, hax]
      have hx := h.get_key a k
      rw [hk, hax] at hx
      cases hx
      exact ih _ _ hs' hz
  | @left a v p q hpq ih =>
    intro sp z hs hz
    obtain ⟨pl, hk, ⟨rfl, rfl⟩ | ⟨sp', hr, hs', rfl⟩⟩ := MutImpl.atMutGo_cons hs
    · obtain ⟨⟨k0, hk0, -⟩, -⟩ := hpq.key
      simp at hk0
    · have hpl := MutImpl.atKeyMut_variant_some hk
      subst hpl
      exact ih _ _ hs' hz
  | @right a v p q hpq ih =>
    intro sp z hs hz
    have hf := h.form_go p a sp z hpq.key.1 hs hz
    rw [Impl.atGo_cons _ _ _ _ hpq.key.2, Impl.atGo_cons _ _ _ _ hpq.key.2,
      M.toImpl.atKey_variant, M.toImpl.atKey_variant, hf]
    split
    · split
      · exact ih _ _ hs hz
      · rfl
    · rfl

end

/-! ## Derived and built-in values -/

theorem Obj.mutImpl_key (E : Env) (o : Obj) (k : Key) :
    (Obj.mutImpl E).atKeyMut o k = (o.atKeyMut E k).map Place.spot := by
  cases k with
  | named n => cases o <;> rfl
  | numbered i => cases o <;> rfl
  | get v =>
    simp only [MutImpl.atKeyMut, Obj.atKeyMut, Obj.mutImpl]
    cases o <;> simp only [Obj.viewMut, Obj.kindMut, Obj.kind] <;> try rfl
    all_goals cases valueToUsize v <;> rfl
  | variant v =>
    simp only [MutImpl.atKeyMut, Obj.atKeyMut, Obj.mutImpl]
    cases o <;> simp only [Obj.viewMut, Obj.kindMut, Obj.kind, Obj.variantName, Option.some.injEq] <;> try rfl
    all_goals split <;> rfl

theorem Obj.mutImpl_go (E : Env) (p : List Key) :
    ∀ o, (Obj.mutImpl E).atMutGo o p = (atMutGo E o p).map Place.spot := by
  induction p with
  | nil => intro o; rfl
  | cons k r ih =>
    intro o
    rw [MutImpl.atMutGo, Mirror.atMutGo, Obj.mutImpl_key]
    cases o.atKeyMut E k with
    | none => rfl
    | some pl =>
      cases r with
      | nil => rfl
      | cons k' r' =>
        simp only [Option.map_some]
        rw [show (Place.spot pl).get = pl.get from rfl, ih]
        cases Mirror.atMutGo E pl.get (k' :: r') <;> rfl

/-- The ways a derived or built-in value gives mutable access to a part. -/
inductive SpotForm (E : Env) : Handle Obj → Obj → Spot Obj → Prop
  | struct (tag fs n q) : placeNamed n fs = some q →
      SpotForm E (.field n) (.struct tag fs) ⟨q.1, fun z => .struct tag (q.2 z)⟩
  | enumS (tag v fs n q) : placeNamed n fs = some q →
      SpotForm E (.field n) (.enumS tag v fs) ⟨q.1, fun z => .enumS tag v (q.2 z)⟩
  | tupleStruct (tag fs i q) : placeAt i fs = some q →
      SpotForm E (.pos i) (.tupleStruct tag fs) ⟨q.1, fun z => .tupleStruct tag (q.2 z)⟩
  | tuple (tag fs i q) : placeAt i fs = some q →
      SpotForm E (.pos i) (.tuple tag fs) ⟨q.1, fun z => .tuple tag (q.2 z)⟩
  | enumT (tag v fs i q) : placeAt i fs = some q →
      SpotForm E (.pos i) (.enumT tag v fs) ⟨q.1, fun z => .enumT tag v (q.2 z)⟩
  | vec (t fs i q) : placeIdx i fs = some q →
      SpotForm E (.index i) (.vec t fs) ⟨q.1, fun z => .vec t (q.2 z)⟩
  | array (t fs i q) : placeIdx i fs = some q →
      SpotForm E (.index i) (.array t fs) ⟨q.1, fun z => .array t (q.2 z)⟩
  | map (kt vt kvs k key q) : fromReflect E kt k = some key → placeKey (E.kcmp kt) key kvs = some q →
      SpotForm E (.key k) (.map kt vt kvs) ⟨q.1, fun z => .map kt vt (q.2 z)⟩

theorem spotForm {E : Env} {o : Obj} {h : Handle Obj} {sp : Spot Obj}
    (hs : (Obj.viewMut E o).spot h = some sp) : SpotForm E h o sp := by
  have two : ∀ {α : Type} {x : Option α} {f : α → Place}, (x.map f).map Place.spot = some sp →
      ∃ a, x = some a ∧ sp = (f a).spot := by
    intro α x f hx
    cases x with
    | none => cases hx
    | some a => cases hx; exact ⟨a, rfl, rfl⟩
  cases h with
  | field n =>
    cases o <;> simp only [Obj.viewMut, MutView.spot, Obj.fieldMut, reduceCtorEq] at hs
    · obtain ⟨q, hq, rfl⟩ := two hs; exact .struct _ _ _ _ hq
    · obtain ⟨q, hq, rfl⟩ := two hs; exact .enumS _ _ _ _ _ hq
  | pos i =>
    cases o <;> simp only [Obj.viewMut, MutView.spot, Obj.fieldAtMut, reduceCtorEq] at hs
    · obtain ⟨q, hq, rfl⟩ := two hs; exact .tupleStruct _ _ _ _ hq
    · obtain ⟨q, hq, rfl⟩ := two hs; exact .tuple _ _ _ _ hq
    · obtain ⟨q, hq, rfl⟩ := two hs; exact .enumT _ _ _ _ _ hq
  | index i =>
    cases o <;> simp only [Obj.viewMut, MutView.spot, Obj.fieldAtMut, reduceCtorEq] at hs
    · obtain ⟨q, hq, rfl⟩ := two hs; exact .vec _ _ _ _ hq
    · obtain ⟨q, hq, rfl⟩ := two hs; exact .array _ _ _ _ hq
  | key k =>
    cases o <;> simp only [Obj.viewMut, MutView.spot, Obj.mapGetMut, reduceCtorEq] at hs
    next kt vt kvs =>
      cases hf : fromReflect E kt k with
      | none => rw [hf] at hs; cases hs
      | some key =>
        rw [hf] at hs
        obtain ⟨q, hq, rfl⟩ := two hs
        exact .map _ _ _ _ _ _ hf hq

theorem SpotForm.put_get {E : Env} {h : Handle Obj} {o : Obj} {sp : Spot Obj} (hs : SpotForm E h o sp) :
    sp.put sp.get = o := by
  cases hs with
  | struct _ _ _ q hq =>
    obtain ⟨i, e1, e2, _⟩ := placeNamed_set hq q.1
    obtain ⟨hi, e1⟩ := List.getElem?_eq_some_iff.mp e1
    simp only [e2]; rw [← e1, List.set_getElem_self]
  | enumS _ _ _ _ q hq =>
    obtain ⟨i, e1, e2, _⟩ := placeNamed_set hq q.1
    obtain ⟨hi, e1⟩ := List.getElem?_eq_some_iff.mp e1
    simp only [e2]; rw [← e1, List.set_getElem_self]
  | tupleStruct _ _ _ _ hq =>
    obtain ⟨hi, e1⟩ := List.getElem?_eq_some_iff.mp (placeAt_vis hq).1
    simp only [(placeAt_put hq _).1]; rw [← e1, List.set_getElem_self]
  | tuple _ _ _ _ hq =>
    obtain ⟨hi, e1⟩ := List.getElem?_eq_some_iff.mp (placeAt_vis hq).1
    simp only [(placeAt_put hq _).1]; rw [← e1, List.set_getElem_self]
  | enumT _ _ _ _ _ hq =>
    obtain ⟨hi, e1⟩ := List.getElem?_eq_some_iff.mp (placeAt_vis hq).1
    simp only [(placeAt_put hq _).1]; rw [← e1, List.set_getElem_self]
  | vec _ _ _ _ hq =>
    obtain ⟨hi, e1⟩ := List.getElem?_eq_some_iff.mp (placeIdx_vis hq)
    simp only [(placeIdx_put hq _).1]; rw [← e1, List.set_getElem_self]
  | array _ _ _ _ hq =>
    obtain ⟨hi, e1⟩ := List.getElem?_eq_some_iff.mp (placeIdx_vis hq)
    simp only [(placeIdx_put hq _).1]; rw [← e1, List.set_getElem_self]
  | map _ _ _ _ _ q _ hq =>
    obtain ⟨l₁, l₂, k', e1, e2, _⟩ := placeKey_put hq q.1
    simp only [e2, e1]

theorem Obj.viewMut_get (E : Env) (o : Obj) (h : Handle Obj) :
    ((Obj.viewMut E o).spot h).map (·.get) = (Obj.view E o).part h := by
  have two : ∀ (x : Option Place), (x.map Place.spot).map (·.get) = x.map (·.get) := by
    intro x; cases x <;> rfl
  cases h with
  | field n =>
    cases o <;> simp only [Obj.viewMut, Obj.view, MutView.spot, RefView.part, Option.map_none, two,
      Obj.fieldMut, Obj.field, Option.map_map, ← placeNamed_get] <;> rfl
  | pos i =>
    cases o <;> simp only [Obj.viewMut, Obj.view, MutView.spot, RefView.part, Option.map_none, two,
      Obj.fieldAtMut, Obj.fieldAt, Option.map_map, ← placeAt_get] <;> rfl
  | index i =>
    cases o <;> simp only [Obj.viewMut, Obj.view, MutView.spot, RefView.part, Option.map_none, two,
      Obj.fieldAtMut, Obj.fieldAt, Option.map_map, ← placeIdx_get] <;> rfl
  | key k =>
    cases o <;> simp only [Obj.viewMut, Obj.view, MutView.spot, RefView.part, Option.map_none, two,
      Obj.mapGetMut, Obj.mapGet]
    next kt vt kvs =>
      cases fromReflect E kt k with
      | none => rfl
      | some key => simp only [Option.map_map, Option.bind_some, ← placeKey_get]; rfl

theorem SpotForm.write {E : Env} {h : Handle Obj} {o : Obj} {sp : Spot Obj} (hs : SpotForm E h o sp)
    {z : Obj} (hz : z.isHidden = false) :
    (sp.put z).isHidden = false ∧ (Obj.view E (sp.put z)).form = (Obj.view E o).form ∧
      (Obj.view E (sp.put z)).part h = some z ∧
      ∀ h', Handle.Apart (MayMeet E) h h' → (Obj.view E (sp.put z)).part h' = (Obj.view E o).part h' := by
  cases hs with
  | struct tag fs n q hq =>
    refine ⟨rfl, rfl, placeNamed_same hq hz, fun h' ha => ?_⟩
    cases ha with
    | field hn => exact placeNamed_other hq hn hz
  | enumS tag v fs n q hq =>
    refine ⟨rfl, rfl, placeNamed_same hq hz, fun h' ha => ?_⟩
    cases ha with
    | field hn => exact placeNamed_other hq hn hz
  | tupleStruct tag fs i q hq =>
    obtain ⟨e, hi⟩ := placeAt_put hq z
    refine ⟨rfl, rfl, ?_, fun h' ha => ?_⟩
    · simp only [Obj.view, RefView.part, Obj.fieldAt, e, visAt_set_self hi hz]
    · cases ha with
      | pos hn => simp only [Obj.view, RefView.part, Obj.fieldAt, e, visAt_set_ne hn]
  | tuple tag fs i q hq =>
    obtain ⟨e, hi⟩ := placeAt_put hq z
    refine ⟨rfl, rfl, ?_, fun h' ha => ?_⟩
    · simp only [Obj.view, RefView.part, Obj.fieldAt, e, visAt_set_self hi hz]
    · cases ha with
      | pos hn => simp only [Obj.view, RefView.part, Obj.fieldAt, e, visAt_set_ne hn]
  | enumT tag v fs i q hq =>
    obtain ⟨e, hi⟩ := placeAt_put hq z
    refine ⟨rfl, rfl, ?_, fun h' ha => ?_⟩
    · simp only [Obj.view, RefView.part, Obj.fieldAt, e, visAt_set_self hi hz]
    · cases ha with
      | pos hn => simp only [Obj.view, RefView.part, Obj.fieldAt, e, visAt_set_ne hn]
  | vec t fs i q hq =>
    obtain ⟨e, hi⟩ := placeIdx_put hq z
    refine ⟨rfl, rfl, ?_, fun h' ha => ?_⟩
    · simp [Obj.view, RefView.part, Obj.fieldAt, e, hi]
    · cases ha with
      | index hn => simp only [Obj.view, RefView.part, Obj.fieldAt, e, List.getElem?_set_ne hn]
  | array t fs i q hq =>
    obtain ⟨e, hi⟩ := placeIdx_put hq z
    refine ⟨rfl, rfl, ?_, fun h' ha => ?_⟩
    · simp [Obj.view, RefView.part, Obj.fieldAt, e, hi]
    · cases ha with
      | index hn => simp only [Obj.view, RefView.part, Obj.fieldAt, e, List.getElem?_set_ne hn]
  | map kt vt kvs k key q hf hq =>
    obtain ⟨l₁, l₂, k', e1, e2, e3, e4⟩ := placeKey_put hq z
    refine ⟨rfl, rfl, ?_, fun h' ha => ?_⟩
    · simp only [Obj.view, RefView.part, Obj.mapGet, hf, Option.bind_some]
      rw [e2, bmGet_append, bmGet_none e4]
      simp [bmGet, e3]
    · cases ha with
      | @key _ l hn =>
        simp only [Obj.view, RefView.part, Obj.mapGet]
        cases hl : fromReflect E kt l with
        | none => rfl
        | some b =>
          have hb : E.kcmp kt b k' ≠ .eq := fun hb => hn ⟨kt, key, b, k', hf, hl, e3, hb⟩
          simp only [Option.bind_some]
          rw [e2, e1, bmGet_append, bmGet_append]
          simp [bmGet, hb]

theorem Obj.mutImpl_lawful (E : Env) :
    (Obj.mutImpl E).Lawful (fun _ z => z.isHidden = false) (MayMeet E) where
  form o := by cases o <;> rfl
  same o h := Obj.viewMut_get E o h
  back o h sp hs := (spotForm hs).put_get
  write o h sp z hs hz := (spotForm hs).write hz


/-! ## Paths one after the other -/

theorem Impl.at_cons {A : Type} (I : Impl A) (a : A) (k : Key) (p : KeyPath) :
    I.at a (k :: p) = (I.atKey a k).bind fun x => I.at x p := by
  unfold Impl.at
  rw [if_neg (by simp [KeyPath.isEmpty])]
  cases p with
  | nil => rw [Impl.atGo_one]; cases I.atKey a k <;> rfl
  | cons k' p' =>
    rw [Impl.atGo_cons I a k (k' :: p') (by simp)]
    simp [KeyPath.isEmpty]

theorem MutImpl.atMut_cons {A : Type} (M : MutImpl A) (a : A) (k : Key) (p : KeyPath) :
    M.atMut a (k :: p) = (M.atKeyMut a k).bind fun pl => (M.atMut pl.get p).map fun s =>
      ⟨s.get, fun z => pl.put (s.put z)⟩ := by
  unfold MutImpl.atMut
  rw [if_neg (by simp [KeyPath.isEmpty]), MutImpl.atMutGo]
  cases M.atKeyMut a k with
  | none => rfl
  | some pl =>
    cases p with
    | nil => rfl
    | cons k' p' =>
      simp only [Option.bind_some]
      rw [if_neg (by simp [KeyPath.isEmpty])]
      cases M.atMutGo pl.get (k' :: p') <;> rfl

theorem Impl.at_append {A : Type} (I : Impl A) (p q : KeyPath) :
    ∀ a, I.at a (p ++ q) = (I.at a p).bind fun x => I.at x q := by
  induction p with
  | nil => intro a; rfl
  | cons k p ih =>
    intro a
    rw [List.cons_append, I.at_cons, I.at_cons]
    cases I.atKey a k with
    | none => rfl
    | some x => exact ih x

theorem MutImpl.atMut_append {A : Type} (M : MutImpl A) (p q : KeyPath) :
    ∀ a, M.atMut a (p ++ q) = (M.atMut a p).bind fun sp => (M.atMut sp.get q).map fun s =>
      ⟨s.get, fun z => sp.put (s.put z)⟩ := by
  induction p with
  | nil =>
    intro a
    show M.atMut a q = (M.atMut a q).map _
    cases M.atMut a q <;> rfl
  | cons k p ih =>
    intro a
    rw [List.cons_append, M.atMut_cons, M.atMut_cons]
    cases M.atKeyMut a k with
    | none => rfl
    | some pl =>
      simp only [Option.bind_some]
      rw [ih pl.get]
      cases M.atMut pl.get p with
      | none => rfl
      | some sp =>
        simp only [Option.bind_some, Option.map_some]
        cases M.atMut sp.get q <;> rfl


end Mirror
