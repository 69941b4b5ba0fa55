import Verif.Lemmas.Attrs

set_option linter.unusedSimpArgs false

/-!
# C71: what `#[derive(Reflect)]` accepts, and what its options do

The grammar and the meaning of options are in `Spec/Attrs.lean`.
-/

namespace Mirror

/-! ## Options on items -/

/-- **C71.** The attributes of an item are accepted exactly if they say something: there is no `#[reflect]`, or
there is one, whose content is a list of options (`opt_out(..)`, `meta(..)`, `crate_name(..)`), commas being
optional, in which no key occurs twice. What is accepted is what the options amount to. -/
theorem C71_item_exact (P : SynParsers) (as : List SAttr) (a : ItemAttrs) :
    parseItem P as = some a ↔ ∃ os, ItemSays P as os ∧ ItemMeaning os (DocsOf as) a := by
  have hmean : ∀ os b, Fresh [] (ItemOpt.pairs os) →
      (ItemMeaning os (DocsOf as) b ↔ b = os.foldl ItemOpt.apply (.new (docLines as))) := by
    intro os b hf
    obtain ⟨h1, h2, h3, h4, h5, h6, h7⟩ := foldl_itemOpt_meaning os (.new (docLines as)) .nil hf
    have hm : ItemMeaning os (DocsOf as) (os.foldl ItemOpt.apply (.new (docLines as))) :=
      ⟨by rw [h1]; simp [ItemAttrs.new], by rw [h2]; simp [ItemAttrs.new], by rw [h3]; simp [ItemAttrs.new],
        h4, h5, by simpa [ItemAttrs.new] using h6, by rw [h7]; exact docLines_eq as⟩
    constructor
    · intro h
      exact h.unique hm (fun _ => Iff.rfl) rfl (List.Perm.refl _)
    · rintro rfl; exact hm
  have hnew : (ItemAttrs.new (docLines as)).pairs = [] := rfl
  obtain ⟨hf0, hf1⟩ := reflect_filter as
  unfold parseItem
  split
  · next h =>
    rw [hf0] at h
    simp only [Option.some.injEq]
    constructor
    · rintro rfl
      exact ⟨[], .inl ⟨h, rfl⟩, (hmean [] _ (fresh_nil _)).mpr rfl⟩
    · rintro ⟨os, (⟨_, rfl⟩ | ⟨l, r, ts, rfl, _⟩), hm⟩
      · exact ((hmean [] _ (fresh_nil _)).mp hm).symm
      · exact absurd rfl (h _ (by simp; exact .inr (.inl rfl)))
  · next x h =>
    rw [hf1] at h
    obtain ⟨l, r, has, hx, hn⟩ := h
    have hsays : ∀ os, ItemSays P as os ↔ ∃ ts, x.body = .list ts ∧ Listed (ReadsItem P) ts os ∧
        ((ItemOpt.pairs os).map (·.1)).Nodup := by
      intro os
      constructor
      · rintro (⟨h, _⟩ | ⟨l', r', ts, has', hn', hl, hnd⟩)
        · exact absurd hx (h x (by rw [has]; simp))
        · have : x = ⟨["reflect"], .list ts⟩ := by
            have h1 := (hf1 x).mpr ⟨l, r, has, hx, hn⟩
            have h2 := (hf1 _).mpr ⟨l', r', has', rfl, hn'⟩
            rw [h1] at h2
            simpa using h2
          exact ⟨ts, by rw [this], hl, hnd⟩
      · rintro ⟨ts, hb, hl, hnd⟩
        refine .inr ⟨l, r, ts, ?_, hn, hl, hnd⟩
        rw [has]
        obtain ⟨p, b⟩ := x
        simp only at hx hb
        rw [hx, hb]
    have hfresh : ∀ os, Fresh [] (ItemOpt.pairs os) ↔ ((ItemOpt.pairs os).map (·.1)).Nodup := by
      intro os; simp [Fresh]
    cases hb : x.body with
    | list ts =>
      simp only [SAttr.args, hb, Option.bind_some]
      rw [itemLoop_iff P _ ts _ _ (Nat.le_refl _), hnew]
      constructor
      · rintro ⟨os, hl, hf, rfl⟩
        exact ⟨os, (hsays os).mpr ⟨ts, hb, hl, (hfresh os).mp hf⟩, (hmean os _ hf).mpr rfl⟩
      · rintro ⟨os, hs, hm⟩
        obtain ⟨ts', hb', hl, hnd⟩ := (hsays os).mp hs
        rw [hb] at hb'; cases hb'
        have hf := (hfresh os).mpr hnd
        exact ⟨os, hl, hf, (hmean os _ hf).mp hm⟩
    | _ =>
      simp only [SAttr.args, hb, Option.bind_none, reduceCtorEq, false_iff]
      rintro ⟨os, hs, _⟩
      obtain ⟨ts', hb', _⟩ := (hsays os).mp hs
      rw [hb] at hb'; cases hb'
  · next h1 h2 =>
    simp only [reduceCtorEq, false_iff]
    rintro ⟨os, (⟨h, _⟩ | ⟨l, r, ts, has, hn, _⟩), _⟩
    · exact h1 (hf0.mpr h)
    · exact h2 _ ((hf1 _).mpr ⟨l, r, has, rfl, hn⟩)

/-- **C71.** The attributes of a variant or field are accepted exactly if they say something: there is no
`#[reflect]`, or there is one, whose content is a list of options (`skip`, `meta(..)`,
`from_reflect_with(..)`), commas being optional, in which no key occurs twice. What is accepted is what the
options amount to. -/
theorem C71_field_exact (P : SynParsers) (as : List SAttr) (a : InnerAttrs) :
    parseInner P as = some a ↔ ∃ os, FieldSays P as os ∧ FieldMeaning os (DocsOf as) a := by
  have hmean : ∀ os b, Fresh [] (FieldOpt.pairs os) →
      (FieldMeaning os (DocsOf as) b ↔ b = os.foldl FieldOpt.apply (.new (docLines as))) := by
    intro os b hf
    obtain ⟨h1, h4, h5, h6, h7⟩ := foldl_fieldOpt_meaning os (.new (docLines as)) .nil hf
    have hm : FieldMeaning os (DocsOf as) (os.foldl FieldOpt.apply (.new (docLines as))) :=
      ⟨by rw [h1]; simp [InnerAttrs.new], by rw [h4]; simp [InnerAttrs.new],
        h5, by simpa [InnerAttrs.new] using h6, by rw [h7]; exact docLines_eq as⟩
    constructor
    · intro h
      exact h.unique hm Iff.rfl rfl (List.Perm.refl _)
    · rintro rfl; exact hm
  have hnew : (InnerAttrs.new (docLines as)).pairs = [] := rfl
  obtain ⟨hf0, hf1⟩ := reflect_filter as
  unfold parseInner
  split
  · next h =>
    rw [hf0] at h
    simp only [Option.some.injEq]
    constructor
    · rintro rfl
      exact ⟨[], .inl ⟨h, rfl⟩, (hmean [] _ (fresh_nil _)).mpr rfl⟩
    · rintro ⟨os, (⟨_, rfl⟩ | ⟨l, r, ts, rfl, _⟩), hm⟩
      · exact ((hmean [] _ (fresh_nil _)).mp hm).symm
      · exact absurd rfl (h _ (by simp; exact .inr (.inl rfl)))
  · next x h =>
    rw [hf1] at h
    obtain ⟨l, r, has, hx, hn⟩ := h
    have hsays : ∀ os, FieldSays P as os ↔ ∃ ts, x.body = .list ts ∧ Listed (ReadsField P) ts os ∧
        ((FieldOpt.pairs os).map (·.1)).Nodup := by
      intro os
      constructor
      · rintro (⟨h, _⟩ | ⟨l', r', ts, has', hn', hl, hnd⟩)
        · exact absurd hx (h x (by rw [has]; simp))
        · have : x = ⟨["reflect"], .list ts⟩ := by
            have h1 := (hf1 x).mpr ⟨l, r, has, hx, hn⟩
            have h2 := (hf1 _).mpr ⟨l', r', has', rfl, hn'⟩
            rw [h1] at h2
            simpa using h2
          exact ⟨ts, by rw [this], hl, hnd⟩
      · rintro ⟨ts, hb, hl, hnd⟩
        refine .inr ⟨l, r, ts, ?_, hn, hl, hnd⟩
        rw [has]
        obtain ⟨p, b⟩ := x
        simp only at hx hb
        rw [hx, hb]
    have hfresh : ∀ os, Fresh [] (FieldOpt.pairs os) ↔ ((FieldOpt.pairs os).map (·.1)).Nodup := by
      intro os; simp [Fresh]
    cases hb : x.body with
    | list ts =>
      simp only [SAttr.args, hb, Option.bind_some]
      rw [innerLoop_iff P _ ts _ _ (Nat.le_refl _), hnew]
      constructor
      · rintro ⟨os, hl, hf, rfl⟩
        exact ⟨os, (hsays os).mpr ⟨ts, hb, hl, (hfresh os).mp hf⟩, (hmean os _ hf).mpr rfl⟩
      · rintro ⟨os, hs, hm⟩
        obtain ⟨ts', hb', hl, hnd⟩ := (hsays os).mp hs
        rw [hb] at hb'; cases hb'
        have hf := (hfresh os).mpr hnd
        exact ⟨os, hl, hf, (hmean os _ hf).mp hm⟩
    | _ =>
      simp only [SAttr.args, hb, Option.bind_none, reduceCtorEq, false_iff]
      rintro ⟨os, hs, _⟩
      obtain ⟨ts', hb', _⟩ := (hsays os).mp hs
      rw [hb] at hb'; cases hb'
  · next h1 h2 =>
    simp only [reduceCtorEq, false_iff]
    rintro ⟨os, (⟨h, _⟩ | ⟨l, r, ts, has, hn, _⟩), _⟩
    · exact h1 (hf0.mpr h)
    · exact h2 _ ((hf1 _).mpr ⟨l, r, has, rfl, hn⟩)

/-- **C71.** Attributes say one thing at most. -/
theorem C71_item_says_unique (P : SynParsers) (as : List SAttr) (os os' : List ItemOpt)
    (h : ItemSays P as os) (h' : ItemSays P as os') : os = os' := by
  rcases h with ⟨h, rfl⟩ | ⟨l, r, ts, h, hn, hl, _⟩ <;>
    rcases h' with ⟨h', rfl⟩ | ⟨l', r', ts', h', hn', hl', _⟩
  · rfl
  · exact absurd rfl (h ⟨["reflect"], .list ts'⟩ (by rw [h']; simp))
  · exact absurd rfl (h' ⟨["reflect"], .list ts⟩ (by rw [h]; simp))
  · cases reflect_unique h hn h' hn'
    exact hl.unique (readsItem_one P) (readsItem_noComma P)
      (by rintro r (_ | _ | _) <;> simp [ReadsItem]) hl'

/-- **C71.** Attributes say one thing at most. -/
theorem C71_field_says_unique (P : SynParsers) (as : List SAttr) (os os' : List FieldOpt)
    (h : FieldSays P as os) (h' : FieldSays P as os') : os = os' := by
  rcases h with ⟨h, rfl⟩ | ⟨l, r, ts, h, hn, hl, _⟩ <;>
    rcases h' with ⟨h', rfl⟩ | ⟨l', r', ts', h', hn', hl', _⟩
  · rfl
  · exact absurd rfl (h ⟨["reflect"], .list ts'⟩ (by rw [h']; simp))
  · exact absurd rfl (h' ⟨["reflect"], .list ts⟩ (by rw [h]; simp))
  · cases reflect_unique h hn h' hn'
    exact hl.unique (readsField_one P) (readsField_noComma P)
      (by rintro r (_ | _ | _) <;> simp [ReadsField]) hl'

/-- **C71.** The order of options on an item does not matter, as long as `crate_name` is given once at
most. -/
theorem C71_item_order (P : SynParsers) (as as' : List SAttr) (os os' : List ItemOpt)
    (h : ItemSays P as os) (h' : ItemSays P as' os') (hp : os.Perm os')
    (hc : (ItemOpt.crates os).length ≤ 1) (hd : DocsOf as = DocsOf as') :
    parseItem P as = parseItem P as' ∧ ∃ a, parseItem P as = some a := by
  have hex : ∀ {as os}, ItemSays P as os → ∃ a, ItemMeaning os (DocsOf as) a := by
    intro as os h
    have hf : Fresh [] (ItemOpt.pairs os) := by
      rcases h with ⟨_, rfl⟩ | ⟨_, _, _, _, _, _, hn⟩
      · exact fresh_nil _
      · exact ⟨hn, by simp⟩
    obtain ⟨h1, h2, h3, h4, h5, h6, h7⟩ := foldl_itemOpt_meaning os (.new (DocsOf as)) .nil hf
    exact ⟨_, by rw [h1]; simp [ItemAttrs.new], by rw [h2]; simp [ItemAttrs.new],
      by rw [h3]; simp [ItemAttrs.new], h4, h5, by simpa [ItemAttrs.new] using h6, h7⟩
  obtain ⟨a, ha⟩ := hex h
  obtain ⟨b, hb⟩ := hex h'
  have : a = b := by
    rw [hd] at ha
    refine ha.unique hb (fun t => by simp only [hp.mem_iff]) ?_ (hp.flatMap_right _)
    exact congrArg List.getLast? (perm_getLast_le_one (hp.filterMap _) hc)
  subst this
  have e1 := (C71_item_exact P as a).mpr ⟨os, h, ha⟩
  have e2 := (C71_item_exact P as' a).mpr ⟨os', h', hb⟩
  exact ⟨by rw [e1, e2], a, e1⟩

/-- **C71.** The order of options on a variant or field does not matter, as long as `from_reflect_with` is given
once at most. -/
theorem C71_field_order (P : SynParsers) (as as' : List SAttr) (os os' : List FieldOpt)
    (h : FieldSays P as os) (h' : FieldSays P as' os') (hp : os.Perm os')
    (hc : (FieldOpt.withs os).length ≤ 1) (hd : DocsOf as = DocsOf as') :
    parseInner P as = parseInner P as' ∧ ∃ a, parseInner P as = some a := by
  have hex : ∀ {as os}, FieldSays P as os → ∃ a, FieldMeaning os (DocsOf as) a := by
    intro as os h
    have hf : Fresh [] (FieldOpt.pairs os) := by
      rcases h with ⟨_, rfl⟩ | ⟨_, _, _, _, _, _, hn⟩
      · exact fresh_nil _
      · exact ⟨hn, by simp⟩
    obtain ⟨h1, h4, h5, h6, h7⟩ := foldl_fieldOpt_meaning os (.new (DocsOf as)) .nil hf
    exact ⟨_, by rw [h1]; simp [InnerAttrs.new], by rw [h4]; simp [InnerAttrs.new], h5,
      by simpa [InnerAttrs.new] using h6, h7⟩
  obtain ⟨a, ha⟩ := hex h
  obtain ⟨b, hb⟩ := hex h'
  have : a = b := by
    rw [hd] at ha
    refine ha.unique hb hp.mem_iff ?_ (hp.flatMap_right _)
    exact congrArg List.getLast? (perm_getLast_le_one (hp.filterMap _) hc)
  subst this
  have e1 := (C71_field_exact P as a).mpr ⟨os, h, ha⟩
  have e2 := (C71_field_exact P as' a).mpr ⟨os', h', hb⟩
  exact ⟨by rw [e1, e2], a, e1⟩

/-! ## Commas -/

/-- **C71.** Written-out options on an item are accepted with the meaning they are meant to have, whether or
not each of them is followed by a comma, and each trait in `opt_out(..)`, and the last pair of each
`meta(..)`. Only between the pairs of a `meta(..)` are commas assumed, since there an expression might go
on. -/
theorem C71_item_commas_optional (P : SynParsers) (l : List (ItemText × Bool)) (h : ∀ p ∈ l, p.1.Good P)
    (hn : ((ItemOpt.pairs (l.map fun p => p.1.opt)).map (·.1)).Nodup) :
    ∃ a, parseItem P [⟨["reflect"], .list (l.flatMap fun p => p.1.tokens ++ optComma p.2)⟩] = some a ∧
      ItemMeaning (l.map fun p => p.1.opt) [] a := by
  have hs : ItemSays P [⟨["reflect"], .list (l.flatMap fun p => p.1.tokens ++ optComma p.2)⟩]
      (l.map fun p => p.1.opt) :=
    .inr ⟨[], [], _, rfl, by simp, itemText_listed P l h, hn⟩
  obtain ⟨h1, h2, h3, h4, h5, h6, h7⟩ := foldl_itemOpt_meaning (l.map fun p => p.1.opt) (.new []) .nil
    ⟨hn, by simp [ItemAttrs.new]⟩
  have hm : ItemMeaning (l.map fun p => p.1.opt) [] ((l.map fun p => p.1.opt).foldl ItemOpt.apply (.new [])) :=
    ⟨by rw [h1]; simp [ItemAttrs.new], by rw [h2]; simp [ItemAttrs.new],
      by rw [h3]; simp [ItemAttrs.new], h4, h5, by simpa [ItemAttrs.new] using h6, h7⟩
  exact ⟨_, (C71_item_exact _ _ _).mpr ⟨_, hs, hm⟩, hm⟩

/-- **C71.** Written-out options on a variant or field are accepted with the meaning they are meant to have,
whether or not each of them is followed by a comma. -/
theorem C71_field_commas_optional (P : SynParsers) (l : List (FieldText × Bool)) (h : ∀ p ∈ l, p.1.Good P)
    (hn : ((FieldOpt.pairs (l.map fun p => p.1.opt)).map (·.1)).Nodup) :
    ∃ a, parseInner P [⟨["reflect"], .list (l.flatMap fun p => p.1.tokens ++ optComma p.2)⟩] = some a ∧
      FieldMeaning (l.map fun p => p.1.opt) [] a := by
  have hs : FieldSays P [⟨["reflect"], .list (l.flatMap fun p => p.1.tokens ++ optComma p.2)⟩]
      (l.map fun p => p.1.opt) :=
    .inr ⟨[], [], _, rfl, by simp, fieldText_listed P l h, hn⟩
  obtain ⟨h1, h4, h5, h6, h7⟩ := foldl_fieldOpt_meaning (l.map fun p => p.1.opt) (.new []) .nil
    ⟨hn, by simp [InnerAttrs.new]⟩
  have hm : FieldMeaning (l.map fun p => p.1.opt) []
      ((l.map fun p => p.1.opt).foldl FieldOpt.apply (.new [])) :=
    ⟨by rw [h1]; simp [InnerAttrs.new], by rw [h4]; simp [InnerAttrs.new], h5,
      by simpa [InnerAttrs.new] using h6, h7⟩
  exact ⟨_, (C71_field_exact _ _ _).mpr ⟨_, hs, hm⟩, hm⟩

/-! ## What is refused -/

/-- **C71.** Two `#[reflect]` attributes are refused, on items as on variants and fields. -/
theorem C71_two_attributes_refused (P : SynParsers) (l m r : List SAttr) (x y : SAttr)
    (hx : x.path = ["reflect"]) (hy : y.path = ["reflect"]) :
    parseItem P (l ++ x :: (m ++ y :: r)) = none ∧ parseInner P (l ++ x :: (m ++ y :: r)) = none := by
  have hno : ∀ l' r' ts, l ++ x :: (m ++ y :: r) = l' ++ (⟨["reflect"], .list ts⟩ : SAttr) :: r' →
      (∀ a ∈ l' ++ r', a.path ≠ ["reflect"]) → False := by
    intro l' r' ts h hn
    have h1 := ((reflect_filter _).2 _).mpr ⟨l', r', h, rfl, hn⟩
    have h2 := congrArg List.length h1
    simp [List.filter_append, List.filter_cons, SAttr.isIdent, hx, hy] at h2
    omega
  constructor
  · cases h : parseItem P (l ++ x :: (m ++ y :: r)) with
    | none => rfl
    | some a =>
      obtain ⟨os, (⟨h1, _⟩ | ⟨l', r', ts, h1, hn, _⟩), _⟩ := (C71_item_exact _ _ _).mp h
      · exact absurd hx (h1 x (by simp))
      · exact absurd hn (fun hn => hno _ _ _ h1 hn)
  · cases h : parseInner P (l ++ x :: (m ++ y :: r)) with
    | none => rfl
    | some a =>
      obtain ⟨os, (⟨h1, _⟩ | ⟨l', r', ts, h1, hn, _⟩), _⟩ := (C71_field_exact _ _ _).mp h
      · exact absurd hx (h1 x (by simp))
      · exact absurd hn (fun hn => hno _ _ _ h1 hn)

/-- **C71.** A key given twice is refused, also if it is in two `meta(..)`. -/
theorem C71_duplicate_key_refused (P : SynParsers) (ts : List Tok) :
    (∀ os, Listed (ReadsItem P) ts os → ¬ ((ItemOpt.pairs os).map (·.1)).Nodup →
      parseItem P [⟨["reflect"], .list ts⟩] = none) ∧
    (∀ os, Listed (ReadsField P) ts os → ¬ ((FieldOpt.pairs os).map (·.1)).Nodup →
      parseInner P [⟨["reflect"], .list ts⟩] = none) := by
  have hone : ∀ (l' r' : List SAttr) (x y : SAttr), [x] = l' ++ y :: r' → x = y := by
    intro l' r' x y h
    cases l' with
    | nil => simpa using (List.cons.inj h).1
    | cons a l' => simp at h
  constructor
  · intro os hl hn
    cases h : parseItem P [⟨["reflect"], .list ts⟩] with
    | none => rfl
    | some a =>
      obtain ⟨os', (⟨h1, _⟩ | ⟨l', r', ts', h1, _, hl', hn'⟩), _⟩ := (C71_item_exact _ _ _).mp h
      · exact absurd rfl (h1 ⟨["reflect"], .list ts⟩ (by simp))
      · cases hone _ _ _ _ h1
        cases hl.unique (readsItem_one P) (readsItem_noComma P)
          (by rintro r (_ | _ | _) <;> simp [ReadsItem]) hl'
        exact absurd hn' hn
  · intro os hl hn
    cases h : parseInner P [⟨["reflect"], .list ts⟩] with
    | none => rfl
    | some a =>
      obtain ⟨os', (⟨h1, _⟩ | ⟨l', r', ts', h1, _, hl', hn'⟩), _⟩ := (C71_field_exact _ _ _).mp h
      · exact absurd rfl (h1 ⟨["reflect"], .list ts⟩ (by simp))
      · cases hone _ _ _ _ h1
        cases hl.unique (readsField_one P) (readsField_noComma P)
          (by rintro r (_ | _ | _) <;> simp [ReadsField]) hl'
        exact absurd hn' hn

/-! ## Concrete cases -/

/-- A small expression grammar: an expression, and a path, is one token that is no punctuation. -/
def demoParsers : SynParsers where
  reserved s := s == "fn" || s == "crate"
  expr ts := match ts with
    | .ident _ :: _ => some 1
    | .other _ :: _ => some 1
    | _ => none
  useTree ts := match ts with
    | .ident _ :: _ => some 1
    | _ => none

/-- `#[reflect(opt_out(Debug Clone,) meta(a = 1, b = x,), crate_name(crate))]` -/
def demoItemText : List (ItemText × Bool) :=
  [(.optOut [(.debug, false), (.clone, true)], false),
   (.meta [("b", [.other "1"]), ("a", [.ident "x"])] true, true), (.crateName [.ident "crate"], false)]

theorem demoItemText_good : ∀ p ∈ demoItemText, p.1.Good demoParsers := by
  intro p hp
  simp only [demoItemText, List.mem_cons, List.not_mem_nil, or_false] at hp
  rcases hp with rfl | rfl | rfl
  · trivial
  · intro p hp
    simp only [List.mem_cons, List.not_mem_nil, or_false] at hp
    rcases hp with rfl | rfl
    · exact ⟨rfl, rfl, fun _ => rfl⟩
    · exact ⟨rfl, rfl, fun _ => rfl⟩
  · exact rfl

example : ∃ a, parseItem demoParsers [⟨["reflect"],
      .list (demoItemText.flatMap fun p => p.1.tokens ++ optComma p.2)⟩] = some a ∧
    a.debugOptOut = true ∧ a.cloneOptOut = true ∧ a.fromReflectOptOut = false ∧
    a.crateName = [.ident "crate"] := by
  obtain ⟨a, h, hm⟩ := C71_item_commas_optional demoParsers demoItemText demoItemText_good
    (by simp [demoItemText, ItemText.opt, ItemOpt.pairs])
  refine ⟨a, h, ?_, ?_, ?_, ?_⟩
  · exact hm.debug.mpr ⟨_, by simp [demoItemText, ItemText.opt]; rfl, by simp⟩
  · exact hm.clone.mpr ⟨_, by simp [demoItemText, ItemText.opt]; rfl, by simp⟩
  · cases hf : a.fromReflectOptOut with
    | false => rfl
    | true =>
      obtain ⟨l, hl, ht⟩ := hm.fromReflect.mp hf
      simp [demoItemText, ItemText.opt] at hl
      subst hl
      simp at ht
  · rw [hm.crate]; rfl

/-- `#[reflect(skip, from_reflect_with(f,) meta(a = 1))]` -/
example : ∃ a, parseInner demoParsers [⟨["reflect"],
      .list [.ident "skip", .comma, .ident "from_reflect_with", .paren [.ident "f", .comma],
        .ident "meta", .paren [.ident "a", .eq, .other "1"]]⟩] = some a ∧
    a.skip = true ∧ a.fromReflectWith = some "f" := by
  obtain ⟨a, h, hm⟩ := C71_field_commas_optional demoParsers
    [(.skip, true), (.with "f" true, false), (.meta [("a", [.other "1"])] false, false)]
    (by
      intro p hp
      simp only [List.mem_cons, List.not_mem_nil, or_false] at hp
      rcases hp with rfl | rfl | rfl
      · trivial
      · rfl
      · intro p hp
        simp only [List.mem_cons, List.not_mem_nil, or_false] at hp
        subst hp
        exact ⟨rfl, rfl, fun _ => rfl⟩)
    (by simp [FieldText.opt, FieldOpt.pairs])
  exact ⟨a, h, hm.skip.mpr (by simp [FieldText.opt]), by rw [hm.with]; rfl⟩

/-- An unknown option, and `opt_out` where it does not belong, are refused. -/
example : parseItem demoParsers [⟨["reflect"], .list [.ident "skip"]⟩] = none ∧
    parseInner demoParsers [⟨["reflect"], .list [.ident "opt_out", .paren [.ident "Debug"]]⟩] = none := by
  constructor
  · simp [parseItem, SAttr.isIdent, SAttr.args]; rw [itemLoop.eq_def]
  · simp [parseInner, SAttr.isIdent, SAttr.args]; rw [innerLoop.eq_def]; simp

/-- The hypotheses of `C71_duplicate_key_refused`: `meta(a = 1) meta(a = 1)`. -/
example : ∃ os, Listed (ReadsField demoParsers) [.ident "meta", .paren [.ident "a", .eq, .other "1"],
      .ident "meta", .paren [.ident "a", .eq, .other "1"]] os ∧
    ¬ ((FieldOpt.pairs os).map (·.1)).Nodup := by
  refine ⟨[.meta [("a", [.other "1"])], .meta [("a", [.other "1"])]], ?_, by simp [FieldOpt.pairs]⟩
  have hp : Listed (ReadsPair demoParsers) [.ident "a", .eq, .other "1"] [("a", [.other "1"])] :=
    .cons ⟨rfl, [.other "1"], 1, rfl, rfl, rfl, rfl⟩ .nil
  exact .cons ⟨_, rfl, hp⟩ (.cons ⟨_, rfl, hp⟩ .nil)

end Mirror
