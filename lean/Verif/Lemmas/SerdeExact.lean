import Verif.Spec.SerdeExact
import Verif.Props.Serde

set_option linter.unusedSimpArgs false

namespace Mirror

/-! ## Entries gathered in a map -/

section
variable {κ α : Type} {cmp : κ → κ → Ordering}

theorem bmInsert_key_iff (hc : CmpOn (fun _ : κ => True) cmp) {k a : κ} {v : α} : ∀ {l : List (κ × α)},
    BMSorted cmp l → (a ∈ (bmInsert cmp k v l).map (·.1) ↔
      a ∈ l.map (·.1) ∨ (a = k ∧ ∀ p ∈ l, cmp k p.1 ≠ .eq))
  | [], _ => by simp [bmInsert]
  | (k', v') :: r, hs => by
    have hs' := List.pairwise_cons.mp hs
    rw [bmInsert]
    split
    · next he =>
      have : ∀ p ∈ (k', v') :: r, cmp k p.1 ≠ .eq := by
        intro p hp
        rcases List.mem_cons.mp hp with rfl | hp
        · rw [he]; simp
        · rw [hc.lt_trans k k' p.1 trivial trivial trivial he (hs'.1 p hp)]; simp
      constructor
      · intro h
        rcases List.mem_cons.mp h with h | h
        · exact .inr ⟨h, this⟩
        · exact .inl h
      · rintro (h | ⟨rfl, _⟩)
        · exact List.mem_cons_of_mem _ h
        · exact List.mem_cons_self
    · next he =>
      constructor
      · intro h; exact .inl h
      · rintro (h | ⟨rfl, h⟩)
        · exact h
        · exact absurd he (h _ List.mem_cons_self)
    · next he =>
      rw [List.map_cons, List.map_cons, List.mem_cons, List.mem_cons, bmInsert_key_iff hc hs'.2]
      constructor
      · rintro (h | h | ⟨rfl, h⟩)
        · exact .inl (.inl h)
        · exact .inl (.inr h)
        · refine .inr ⟨rfl, fun p hp => ?_⟩
          rcases List.mem_cons.mp hp with rfl | hp
          · rw [he]; simp
          · exact h p hp
      · rintro ((h | h) | ⟨rfl, h⟩)
        · exact .inl h
        · exact .inr (.inl h)
        · exact .inr (.inr ⟨rfl, fun p hp => h p (List.mem_cons_of_mem _ hp)⟩)

theorem ofList_snoc (l : List (κ × α)) (p : κ × α) :
    bmOfList cmp (l ++ [p]) = bmInsert cmp p.1 p.2 (bmOfList cmp l) := by
  simp [bmOfList, List.foldl_append]

theorem ofList_key_iff (hc : CmpOn (fun _ : κ => True) cmp) {a : κ} (l : List (κ × α)) :
    a ∈ (bmOfList cmp l).map (·.1) ↔ ∃ y, l.find? (fun p => cmp a p.1 == .eq) = some (a, y) := by
  induction l using List.reverseRecOn generalizing a with
  | nil => simp [bmOfList]
  | append_singleton l p ih =>
    have hs : BMSorted cmp (bmOfList cmp l) := bmOfList_sorted hc (by simp)
    rw [ofList_snoc, bmInsert_key_iff hc hs, ih]
    have hex : (∀ q ∈ bmOfList cmp l, cmp p.1 q.1 ≠ .eq) ↔ l.find? (fun q => cmp p.1 q.1 == .eq) = none := by
      constructor
      · intro h
        cases hf : l.reverse.find? (fun q => cmp p.1 q.1 == .eq) with
        | none => simpa using hf
        | some w =>
          have hg := bmGet_ofList hc p.1 l
          rw [hf] at hg
          obtain ⟨k', hm, he⟩ := bmGet_mem hg
          exact absurd he (h _ hm)
      · intro h q hq he
        have hg : bmGet cmp p.1 (bmOfList cmp l) = some q.2 :=
          (bmGet_iff hc (by simp) hs trivial).mpr ⟨q.1, hq, he⟩
        rw [bmGet_ofList hc] at hg
        have : l.reverse.find? (fun q => cmp p.1 q.1 == .eq) = none := by simpa using h
        rw [this] at hg
        cases hg
    rw [hex, List.find?_append]
    constructor
    · rintro (⟨y, h⟩ | ⟨rfl, h⟩)
      · exact ⟨y, by rw [h]; rfl⟩
      · exact ⟨p.2, by rw [h]; simp [hc.refl p.1 trivial]⟩
    · rintro ⟨y, h⟩
      cases hf : l.find? (fun p => cmp a p.1 == .eq) with
      | some w => rw [hf] at h; exact .inl ⟨y, by simpa using h⟩
      | none =>
        rw [hf] at h
        simp at h
        obtain ⟨h1, rfl⟩ := h
        exact .inr ⟨rfl, hf⟩

theorem sorted_key_eq (hc : CmpOn (fun _ : κ => True) cmp) {l : List (κ × α)} (hs : BMSorted cmp l) {p q : κ × α}
    (hp : p ∈ l) (hq : q ∈ l) (he : cmp p.1 q.1 = .eq) : p = q := by
  induction l with
  | nil => cases hp
  | cons r l ih =>
    have hs' := List.pairwise_cons.mp hs
    rcases List.mem_cons.mp hp with rfl | hp' <;> rcases List.mem_cons.mp hq with rfl | hq'
    · rfl
    · have := hs'.1 q hq'; rw [he] at this; cases this
    · have h1 := hs'.1 p hp'; rw [hc.eq_symm trivial trivial he] at h1; cases h1
    · exact ih hs'.2 hp' hq'

theorem gathered_ofList (hc : CmpOn (fun _ : κ => True) cmp) (l : List (κ × α)) :
    Gathered cmp l (bmOfList cmp l) := by
  have hs : BMSorted cmp (bmOfList cmp l) := bmOfList_sorted hc (by simp)
  refine ⟨hs, fun k x => ?_⟩
  have hg := bmGet_ofList hc k l
  constructor
  · intro h
    refine ⟨(ofList_key_iff hc l).mp (List.mem_map_of_mem (f := (·.1)) h), ?_⟩
    rw [(bmGet_iff hc (by simp) hs trivial).mpr ⟨k, h, hc.refl k trivial⟩] at hg
    cases hf : l.reverse.find? (fun p => cmp k p.1 == .eq) with
    | none => rw [hf] at hg; cases hg
    | some w => rw [hf] at hg; cases hg; exact ⟨w.1, rfl⟩
  · rintro ⟨h1, k', h2⟩
    rw [h2] at hg
    obtain ⟨k'', hm, he⟩ := bmGet_mem hg
    obtain ⟨⟨a, y⟩, ha, hb⟩ := List.mem_map.mp ((ofList_key_iff hc l).mpr h1)
    simp only at hb
    subst hb
    have := sorted_key_eq hc hs ha hm he
    cases this
    exact hm

theorem gathered_iff (hc : CmpOn (fun _ : κ => True) cmp) {l fs : List (κ × α)} :
    Gathered cmp l fs ↔ fs = bmOfList cmp l := by
  constructor
  · intro h
    have h' := gathered_ofList hc l
    have hmem : ∀ p, p ∈ fs ↔ p ∈ bmOfList cmp l := fun p => (h.2 p.1 p.2).trans (h'.2 p.1 p.2).symm
    have nd : ∀ {m : List (κ × α)}, BMSorted cmp m → m.Nodup := by
      intro m hm
      refine List.Pairwise.imp ?_ hm
      rintro a _ hab rfl
      rw [hc.refl _ trivial] at hab; cases hab
    have hp : fs.Perm (bmOfList cmp l) := (List.perm_ext_iff_of_nodup (nd h.1) (nd h'.1)).mpr hmem
    have h1 := bmOfList_eq_of_perm hc (fun _ _ => trivial) h'.1 hp
    have h2 := bmOfList_self hc (fun _ _ => trivial) h.1
    rw [← h1, h2]
  · rintro rfl; exact gathered_ofList hc l

end

/-! ## One-step readers -/

theorem deStr_iff {d : Data} {s : String} : deStr d = some s ↔ d = .str s := by
  cases d <;> simp [deStr]

theorem deStrs_iff {d : Data} {ns : List String} : deStrs d = some ns ↔ d = .seq (ns.map .str) := by
  constructor
  · intro h
    cases d with
    | seq xs =>
      simp only [deStrs] at h
      congr 1
      induction xs generalizing ns with
      | nil => simp at h; subst h; rfl
      | cons x xs ih =>
        simp only [List.mapM_cons, Option.bind_eq_bind, Option.pure_def, Option.bind_eq_some_iff] at h
        obtain ⟨s, h1, t, h2, h3⟩ := h
        cases h3
        rw [deStr_iff] at h1
        rw [List.map_cons, h1, ← ih h2]
    | _ => cases h
  · rintro rfl; exact deStrs_ser ns

theorem deSeq_iff {d : Data} {xs : List Data} : deSeq d = some xs ↔ d = .seq xs := by
  cases d <;> simp [deSeq]

theorem deMap_iff {d : Data} {xs : List (Data × Data)} : deMap d = some xs ↔ d = .map xs := by
  cases d <;> simp [deMap]

theorem deField_iff {n : String} {x : Data} {fields : List (String × Data)} :
    deField n fields = some x ↔ (n, x) ∈ fields ∧ (fields.map (·.1)).count n = 1 := by
  have hlen : (fields.filter fun p => p.1 == n).length = (fields.map (·.1)).count n := by
    rw [List.count_eq_countP, List.countP_map, List.countP_eq_length_filter]; rfl
  have hmem : ∀ p, p ∈ (fields.filter fun p => p.1 == n) ↔ p ∈ fields ∧ p.1 = n := by
    intro p; simp
  rw [deField, ← hlen]
  generalize fields.filter (fun p => p.1 == n) = fl at hmem
  match fl, hmem with
  | [], _ => simp
  | [p], hmem =>
    have hp := (hmem p).mp (by simp)
    simp only [List.length_singleton, and_true]
    constructor
    · rintro h
      cases h
      obtain ⟨p1, p2⟩ := p
      obtain ⟨h1, h2⟩ := hp
      simp only at h2
      subst h2
      exact h1
    · intro h
      have := (hmem (n, x)).mpr ⟨h, rfl⟩
      simp at this
      rw [← this]
  | p :: q :: r, _ => simp

theorem deFieldsOf_iff {fields : List (String × Data)} : ∀ {names : List String} {ds : List Data},
    deFieldsOf fields names = some ds ↔
      List.Forall₂ (fun n x => (n, x) ∈ fields ∧ (fields.map (·.1)).count n = 1) names ds
  | [], ds => by
    simp only [deFieldsOf]
    constructor
    · intro h; cases h; exact .nil
    · intro h; cases h; rfl
  | n :: ns, ds => by
    simp only [deFieldsOf]
    constructor
    · intro h
      split at h
      · next h1 h2 => cases h; exact .cons (deField_iff.mp h1) (deFieldsOf_iff.mp h2)
      · cases h
    · intro h
      cases h with
      | cons h1 h2 => rw [deField_iff.mpr h1, deFieldsOf_iff.mpr h2]

theorem deStruct_iff {names : List String} {d : Data} {ds : List Data} :
    deStruct names d = some ds ↔ d.Gives names ds := by
  unfold Data.Gives
  cases d with
  | struct fields =>
    simp only [deStruct, deFieldsOf_iff]
    constructor
    · intro h; exact .inl ⟨_, rfl, h⟩
    · rintro (⟨_, h, h'⟩ | ⟨h, _⟩)
      · cases h; exact h'
      · cases h
  | seq xs =>
    simp only [deStruct]
    constructor
    · intro h
      split at h
      · next hl => cases h; exact .inr ⟨rfl, hl⟩
      · cases h
    · rintro (⟨_, h, h'⟩ | ⟨h, h'⟩)
      · cases h
      · cases h; rw [if_pos h']
  | _ => simp [deStruct]

theorem pick_iff {m : VariantId} {names : List String} (hn : names.Nodup) {i : Nat} {n : String} {j : Nat} {v : String}
    (hj : names[j]? = some v) : deEnum.pick m names i n = some j ↔ m.Means names i n v := by
  obtain ⟨hlt, hv⟩ := List.getElem?_eq_some_iff.mp hj
  cases m with
  | byName =>
    simp only [deEnum.pick, VariantId.Means]
    constructor
    · intro h
      obtain ⟨h1, h2, _⟩ := List.findIdx?_eq_some_iff_getElem.mp (show names.findIdx? (· == n) = some j from h)
      simp at h2
      rw [← h2, hv]
    · rintro rfl
      show names.findIdx? (· == n) = some j
      rw [List.findIdx?_eq_some_iff_getElem]
      refine ⟨hlt, by simp [hv], fun k hk => ?_⟩
      simp only [beq_iff_eq, Bool.not_eq_true]
      intro he
      have := (List.Nodup.getElem_inj_iff hn (hi := by omega) (hj := hlt)).mp (he.trans hv.symm)
      omega
  | byIndex =>
    simp only [deEnum.pick, VariantId.Means]
    constructor
    · intro h
      split at h
      · cases h; exact hj
      · cases h
    · intro h
      obtain ⟨hlt', hv'⟩ := List.getElem?_eq_some_iff.mp h
      rw [if_pos hlt']
      exact congrArg some ((List.Nodup.getElem_inj_iff hn (hi := hlt') (hj := hlt)).mp (hv'.trans hv.symm))

theorem pick_lt {m : VariantId} {names : List String} {i : Nat} {n : String} {j : Nat}
    (h : deEnum.pick m names i n = some j) : j < names.length := by
  cases m with
  | byName =>
    simp only [deEnum.pick] at h
    obtain ⟨h1, _⟩ := List.findIdx?_eq_some_iff_getElem.mp (show names.findIdx? (· == n) = some j from h)
    exact h1
  | byIndex =>
    simp only [deEnum.pick] at h
    split at h
    · cases h; assumption
    · cases h

theorem deEnum_newtype_iff {m : VariantId} {names : List String} (hn : names.Nodup) {d c : Data} {j : Nat} {v : String}
    (hj : names[j]? = some v) : deEnum m names d = some (j, some c) ↔
      ∃ i n, d = .newtype i n c ∧ m.Means names i n v := by
  cases d with
  | newtype i n d =>
    simp only [deEnum, Option.map_eq_some_iff]
    constructor
    · rintro ⟨a, h1, h2⟩; cases h2; exact ⟨i, n, rfl, (pick_iff hn hj).mp h1⟩
    · rintro ⟨i', n', h1, h2⟩; cases h1; exact ⟨j, (pick_iff hn hj).mpr h2, rfl⟩
  | _ => simp [deEnum]

theorem deEnum_unit_iff {m : VariantId} {names : List String} (hn : names.Nodup) {d : Data} {j : Nat} {v : String}
    (hj : names[j]? = some v) : deEnum m names d = some (j, none) ↔
      ∃ i n, d = .unit i n ∧ m.Means names i n v := by
  cases d with
  | unit i n =>
    simp only [deEnum, Option.map_eq_some_iff]
    constructor
    · rintro ⟨a, h1, h2⟩; cases h2; exact ⟨i, n, rfl, (pick_iff hn hj).mp h1⟩
    · rintro ⟨i', n', h1, h2⟩; cases h1; exact ⟨j, (pick_iff hn hj).mpr h2, rfl⟩
  | _ => simp [deEnum]

theorem deEnum_lt {m : VariantId} {names : List String} {d : Data} {j : Nat} {o : Option Data}
    (h : deEnum m names d = some (j, o)) : j < names.length := by
  unfold deEnum at h
  split at h
  · obtain ⟨_, h1, h2⟩ := Option.map_eq_some_iff.mp h; cases h2; exact pick_lt h1
  · obtain ⟨_, h1, h2⟩ := Option.map_eq_some_iff.mp h; cases h2; exact pick_lt h1
  · cases h

/-! ## Readers of the containers -/

theorem deValues_zip {m : VariantId} {ds : List Data} {vs : List Value} : deValues m ds = some vs ↔
    ds.length = vs.length ∧ ∀ p ∈ ds.zip vs, Value.de m p.1 = some p.2 := by
  rw [deValues_iff, List.forall₂_iff_zip]
  exact ⟨fun h => ⟨h.1, fun p hp => h.2 hp⟩, fun h => ⟨h.1, fun {a b} hp => h.2 (a, b) hp⟩⟩

theorem dePairs_zip {m : VariantId} {ds : List (Data × Data)} {vs : List (Value × Value)} :
    dePairs m ds = some vs ↔ ds.length = vs.length ∧ (∀ p ∈ ds.zip vs, Value.de m p.1.1 = some p.2.1) ∧
      ∀ p ∈ ds.zip vs, Value.de m p.1.2 = some p.2.2 := by
  rw [dePairs_iff, List.forall₂_iff_zip]
  exact ⟨fun h => ⟨h.1, fun p hp => (h.2 hp).1, fun p hp => (h.2 hp).2⟩,
    fun h => ⟨h.1, fun {a b} hp => ⟨h.2.1 (a, b) hp, h.2.2 (a, b) hp⟩⟩⟩

theorem deFields_zip {m : VariantId} : ∀ {xs : List (Data × Data)} {l : List (String × Value)},
    deFields m xs = some l ↔ ∃ kvs : List (String × Data), xs = kvs.map (fun p => (.str p.1, p.2)) ∧
      l.map (·.1) = kvs.map (·.1) ∧ ∀ p ∈ kvs.zip l, Value.de m p.1.2 = some p.2.2
  | [], l => by
    rw [deFields]
    constructor
    · intro h; cases h; exact ⟨[], rfl, rfl, by simp⟩
    · rintro ⟨kvs, h1, h2, _⟩
      have : kvs = [] := by simpa using h1.symm
      subst this
      simp at h2
      rw [h2]
  | (k, d) :: xs, l => by
    rw [deFields]
    constructor
    · intro h
      split at h
      · next n v vs h1 h2 h3 =>
        cases h
        rw [deStr_iff] at h1
        subst h1
        obtain ⟨kvs, e1, e2, e3⟩ := deFields_zip.mp h3
        refine ⟨(n, d) :: kvs, by rw [e1]; rfl, by simp [e2], ?_⟩
        intro p hp
        rw [List.zip_cons_cons] at hp
        rcases List.mem_cons.mp hp with rfl | hp
        · exact h2
        · exact e3 p hp
      · cases h
    · rintro ⟨kvs, h1, h2, h3⟩
      cases kvs with
      | nil => cases h1
      | cons q kvs =>
        obtain ⟨n, d'⟩ := q
        rw [List.map_cons] at h1
        cases h1
        cases l with
        | nil => cases h2
        | cons r l =>
          obtain ⟨n', v⟩ := r
          simp only [List.map_cons, List.cons.injEq] at h2
          obtain ⟨e, h2⟩ := h2
          subst e
          have hv := h3 ((n', d'), (n', v)) (by simp)
          simp only at hv
          have := deFields_zip (m := m) (l := l) |>.mpr ⟨kvs, rfl, h2, fun p hp => h3 p (by
            rw [List.zip_cons_cons]; exact List.mem_cons_of_mem _ hp)⟩
          rw [hv, this]
          rfl

theorem deTuple_iff {m : VariantId} {d : Data} {vs : List Value} :
    deTupleValue m d = some vs ↔ ∃ ds, d.IsTuple ds ∧ deValues m ds = some vs := by
  constructor
  · intro h
    rw [deTupleValue] at h
    split at h
    · next t h1 =>
      split at h
      · next xs h2 =>
        rw [deSeq_iff] at h2
        subst h2
        exact ⟨xs, deStruct_iff.mp h1, h⟩
      · cases h
    · cases h
  · rintro ⟨ds, h1, h2⟩
    rw [deTupleValue_eq (deStruct_iff.mpr h1) rfl, h2]

theorem deRecord_iff {m : VariantId} {d : Data} {ns : List String} {fs : List (String × Value)} :
    deStructValue m d = some (ns, fs) ↔ ∃ kvs l, d.IsRecord ns kvs ∧ l.map (·.1) = kvs.map (·.1) ∧
      (∀ p ∈ kvs.zip l, Value.de m p.1.2 = some p.2.2) ∧ Gathered strCmp l fs := by
  constructor
  · intro h
    rw [deStructValue] at h
    split at h
    · next a b h1 =>
      split at h
      · next ns' xs h2 h3 =>
        rw [deStrs_iff] at h2
        rw [deMap_iff] at h3
        subst h2
        subst h3
        obtain ⟨l, hl, he⟩ := Option.map_eq_some_iff.mp h
        cases he
        obtain ⟨kvs, e1, e2, e3⟩ := deFields_zip.mp hl
        subst e1
        exact ⟨kvs, l, deStruct_iff.mp h1, e2, e3, (gathered_iff strCmpOn).mpr rfl⟩
      · cases h
    · cases h
  · rintro ⟨kvs, l, h1, h2, h3, h4⟩
    rw [deStructValue_eq (deStruct_iff.mpr h1) (deStrs_ser ns) rfl, deFields_zip.mpr ⟨kvs, rfl, h2, h3⟩,
      (gathered_iff strCmpOn).mp h4]
    rfl

theorem deKind_iff {m : VariantId} {d : Data} {v : Value} :
    deEnumValue m d = some v ↔ ∃ s b, d.Gives ["name", "kind"] [.str s, b] ∧
      ((∃ j w e ns fs, b = .newtype j w e ∧ m.Means ["Struct", "Tuple", "Unit"] j w "Struct" ∧
          deStructValue m e = some (ns, fs) ∧ v = .enumS s ns fs) ∨
        (∃ j w e vs, b = .newtype j w e ∧ m.Means ["Struct", "Tuple", "Unit"] j w "Tuple" ∧
          deTupleValue m e = some vs ∧ v = .enumT s vs) ∨
        (∃ j w, b = .unit j w ∧ m.Means ["Struct", "Tuple", "Unit"] j w "Unit" ∧ v = .enumU s)) := by
  have hn : ["Struct", "Tuple", "Unit"].Nodup := by decide
  constructor
  · intro h
    rw [deEnumValue] at h
    split at h
    · next a b h1 =>
      split at h
      · next s c h2 h3 =>
        rw [deStr_iff] at h2
        subst h2
        obtain ⟨j, w, rfl, hm⟩ := (deEnum_newtype_iff hn (by rfl)).mp h3
        obtain ⟨⟨ns, fs⟩, e1, rfl⟩ := Option.map_eq_some_iff.mp h
        exact ⟨s, _, deStruct_iff.mp h1, .inl ⟨j, w, c, ns, fs, rfl, hm, e1, rfl⟩⟩
      · next s c h2 h3 =>
        rw [deStr_iff] at h2
        subst h2
        obtain ⟨j, w, rfl, hm⟩ := (deEnum_newtype_iff hn (by rfl)).mp h3
        obtain ⟨vs, e1, rfl⟩ := Option.map_eq_some_iff.mp h
        exact ⟨s, _, deStruct_iff.mp h1, .inr (.inl ⟨j, w, c, vs, rfl, hm, e1, rfl⟩)⟩
      · next s h2 h3 =>
        rw [deStr_iff] at h2
        subst h2
        obtain ⟨j, w, rfl, hm⟩ := (deEnum_unit_iff hn (by rfl)).mp h3
        cases h
        exact ⟨s, _, deStruct_iff.mp h1, .inr (.inr ⟨j, w, rfl, hm, rfl⟩)⟩
      · cases h
    · cases h
  · rintro ⟨s, b, h1, ⟨j, w, e, ns, fs, rfl, hm, h2, rfl⟩ | ⟨j, w, e, vs, rfl, hm, h2, rfl⟩ | ⟨j, w, rfl, hm, rfl⟩⟩
    · rw [deEnumValue_eq (deStruct_iff.mpr h1) rfl ((deEnum_newtype_iff hn (j := 0) rfl).mpr ⟨j, w, rfl, hm⟩),
        deKindBody, h2]
      rfl
    · rw [deEnumValue_eq (deStruct_iff.mpr h1) rfl ((deEnum_newtype_iff hn (j := 1) rfl).mpr ⟨j, w, rfl, hm⟩),
        deKindBody, h2]
      rfl
    · rw [deEnumValue_eq (deStruct_iff.mpr h1) rfl ((deEnum_unit_iff hn (j := 2) rfl).mpr ⟨j, w, rfl, hm⟩),
        deKindBody]

/-! ## Scalars -/

/-- The variant of a kind of scalar. -/
def ScalarKind.form : ScalarKind → String
  | .int k => k.rust
  | .bool => "bool" | .char => "char" | .f32 => "f32" | .f64 => "f64" | .string => "String"

theorem form_at (k : ScalarKind) : valueVariants[k.idx]? = some k.form := by
  cases k with
  | int k => cases k <;> rfl
  | _ => rfl

theorem isScalar_iff {w : String} {c : Data} {s : Scalar} :
    Data.IsScalar w c s ↔ ∃ k : ScalarKind, w = k.form ∧ Scalar.de k c = some s := by
  constructor
  · intro h
    cases h with
    | int k w n h => exact ⟨.int k, rfl, by rw [Scalar.de, if_pos h]⟩
    | bool b => exact ⟨.bool, rfl, rfl⟩
    | char b => exact ⟨.char, rfl, rfl⟩
    | f32 b => exact ⟨.f32, rfl, rfl⟩
    | f64 b => exact ⟨.f64, rfl, rfl⟩
    | string b => exact ⟨.string, rfl, rfl⟩
  · rintro ⟨k, rfl, h⟩
    unfold Scalar.de at h
    split at h
    · split at h
      · next hr => cases h; exact .int _ _ _ hr
      · cases h
    · cases h; exact .bool _
    · cases h; exact .char _
    · cases h; exact .f32 _
    · cases h; exact .f64 _
    · cases h; exact .string _
    · cases h

theorem ofIdx_idx {i : Nat} {k : ScalarKind} (h : ScalarKind.ofIdx i = some k) : i = k.idx := by
  unfold ScalarKind.ofIdx at h
  split at h <;> first | (cases h; rfl) | cases h

theorem valueVariants_nodup : valueVariants.Nodup := by decide


/-! ## Values -/

theorem means_value {m : VariantId} {d c : Data} {j : Nat} {v : String} (hj : valueVariants[j]? = some v)
    (h : deEnum m valueVariants d = some (j, some c)) : ∃ i n, d = .newtype i n c ∧ m.Means valueForms i n v :=
  (deEnum_newtype_iff valueVariants_nodup hj).mp h

theorem value_means {m : VariantId} {i : Nat} {n : String} {c : Data} {v : String} (j : Nat)
    (hj : valueVariants[j]? = some v) (h : m.Means valueForms i n v) :
    Value.de m (.newtype i n c) = deVariant m c j :=
  de_eq ((deEnum_newtype_iff valueVariants_nodup hj).mpr ⟨i, n, rfl, h⟩)

theorem denotes_de {m : VariantId} {d : Data} {v : Value} (h : Denotes m d v) : Value.de m d = some v := by
  induction h with
  | scalar i n w c s hm hs =>
    obtain ⟨k, rfl, h⟩ := isScalar_iff.mp hs
    rw [value_means k.idx (form_at k) hm, deVariant_scalar, h]; rfl
  | struct i n c ns kvs l fs hm hr hl _ hg ih =>
    rw [value_means 16 rfl hm, deVariant, deRecord_iff.mpr ⟨kvs, l, hr, hl, ih, hg⟩]; rfl
  | enumS i n c v j w e ns kvs l fs hm hg hk hr hl _ hf ih =>
    rw [value_means 17 rfl hm, deVariant]
    exact deKind_iff.mpr ⟨v, _, hg, .inl ⟨j, w, e, ns, fs, rfl, hk, deRecord_iff.mpr ⟨kvs, l, hr, hl, ih, hf⟩, rfl⟩⟩
  | enumT i n c v j w e ds vs hm hg hk ht hl _ ih =>
    rw [value_means 17 rfl hm, deVariant]
    exact deKind_iff.mpr ⟨v, _, hg, .inr (.inl ⟨j, w, e, vs, rfl, hk,
      deTuple_iff.mpr ⟨ds, ht, deValues_zip.mpr ⟨hl, ih⟩⟩, rfl⟩)⟩
  | enumU i n c v j w hm hg hk =>
    rw [value_means 17 rfl hm, deVariant]
    exact deKind_iff.mpr ⟨v, _, hg, .inr (.inr ⟨j, w, rfl, hk, rfl⟩)⟩
  | tupleStruct i n c e ds vs hm hg ht hl _ ih =>
    rw [value_means 18 rfl hm, deVariant_tupleStruct (deStruct_iff.mpr hg),
      deTuple_iff.mpr ⟨ds, ht, deValues_zip.mpr ⟨hl, ih⟩⟩]; rfl
  | tuple i n c ds vs hm ht hl _ ih =>
    rw [value_means 19 rfl hm, deVariant, deTuple_iff.mpr ⟨ds, ht, deValues_zip.mpr ⟨hl, ih⟩⟩]; rfl
  | list i n ds vs hm hl _ ih =>
    rw [value_means 20 rfl hm, deVariant_list rfl, deValues_zip.mpr ⟨hl, ih⟩]; rfl
  | map i n ds l kvs hm hl _ _ hg ihk ihv =>
    rw [value_means 21 rfl hm, deVariant_map rfl, dePairs_zip.mpr ⟨hl, ihk, ihv⟩,
      (gathered_iff valueCmpOn).mp hg]; rfl

theorem gives_size {names : List String} {d : Data} {ds : List Data} (h : d.Gives names ds) :
    ∀ x ∈ ds, sizeOf x < sizeOf d := deStruct_size (deStruct_iff.mpr h)

theorem zip_left_size {α : Type} {ds : List Data} {vs : List α} {p : Data × α} (h : p ∈ ds.zip vs) :
    sizeOf p.1 < sizeOf ds := List.sizeOf_lt_of_mem (List.of_mem_zip (a := p.1) (b := p.2) h).1

theorem tuple_size {c : Data} {ds : List Data} (h : c.IsTuple ds) : sizeOf ds < sizeOf c := by
  have := gives_size h (.seq ds) (by simp)
  simp only [Data.seq.sizeOf_spec] at this
  omega

theorem record_size {c : Data} {ns : List String} {kvs : List (String × Data)} (h : c.IsRecord ns kvs) {p : String × Data}
    (hp : p ∈ kvs) : sizeOf p.2 < sizeOf c := by
  have h1 := gives_size h (.map (kvs.map fun p => (.str p.1, p.2))) (by simp)
  have h2 : sizeOf ((Data.str p.1, p.2) : Data × Data) < sizeOf (kvs.map fun p => (Data.str p.1, p.2)) :=
    List.sizeOf_lt_of_mem (List.mem_map_of_mem (f := fun p : String × Data => (Data.str p.1, p.2)) hp)
  simp only [Data.map.sizeOf_spec, Prod.mk.sizeOf_spec] at h1 h2
  omega

theorem de_denotes {m : VariantId} : ∀ (n : Nat) {d : Data} {v : Value}, sizeOf d < n → Value.de m d = some v →
    Denotes m d v
  | 0, _, _, hn, _ => absurd hn (Nat.not_lt_zero _)
  | n + 1, d, v, hn, h => by
    have tup : ∀ {c : Data} {vs : List Value}, sizeOf c ≤ n → deTupleValue m c = some vs →
        ∃ ds, c.IsTuple ds ∧ ds.length = vs.length ∧ ∀ p ∈ ds.zip vs, Denotes m p.1 p.2 := by
      intro c vs hc h
      obtain ⟨ds, h1, h2⟩ := deTuple_iff.mp h
      obtain ⟨h3, h4⟩ := deValues_zip.mp h2
      refine ⟨ds, h1, h3, fun p hp => de_denotes n ?_ (h4 p hp)⟩
      have := tuple_size h1
      have := zip_left_size hp
      omega
    have rec' : ∀ {c : Data} {ns : List String} {fs : List (String × Value)}, sizeOf c ≤ n →
        deStructValue m c = some (ns, fs) → ∃ kvs l, c.IsRecord ns kvs ∧ l.map (·.1) = kvs.map (·.1) ∧
          (∀ p ∈ kvs.zip l, Denotes m p.1.2 p.2.2) ∧ Gathered strCmp l fs := by
      intro c ns fs hc h
      obtain ⟨kvs, l, h1, h2, h3, h4⟩ := deRecord_iff.mp h
      refine ⟨kvs, l, h1, h2, fun p hp => de_denotes n ?_ (h3 p hp), h4⟩
      have := record_size h1 (List.of_mem_zip (a := p.1) (b := p.2) hp).1
      omega
    rw [Value.de] at h
    split at h
    · next j c h0 =>
      have hsz := deEnum_size h0
      unfold deVariant at h
      split at h
      · obtain ⟨i, n', rfl, hm⟩ := means_value rfl h0
        obtain ⟨⟨ns, fs⟩, h1, rfl⟩ := Option.map_eq_some_iff.mp h
        obtain ⟨kvs, l, k1, k2, k3, k4⟩ := rec' (by omega) h1
        exact .struct _ _ _ _ _ _ _ hm k1 k2 k3 k4
      · obtain ⟨i, n', rfl, hm⟩ := means_value rfl h0
        obtain ⟨s, b, hg, hb⟩ := deKind_iff.mp h
        have hbs := gives_size hg b (by simp)
        rcases hb with ⟨j, w, e, ns, fs, rfl, hk, h2, rfl⟩ | ⟨j, w, e, vs, rfl, hk, h2, rfl⟩ | ⟨j, w, rfl, hk, rfl⟩
        · simp only [Data.newtype.sizeOf_spec] at hbs
          obtain ⟨kvs, l, k1, k2, k3, k4⟩ := rec' (by omega) h2
          exact .enumS _ _ _ _ _ _ _ _ _ _ _ hm hg hk k1 k2 k3 k4
        · simp only [Data.newtype.sizeOf_spec] at hbs
          obtain ⟨ds, k1, k2, k3⟩ := tup (by omega) h2
          exact .enumT _ _ _ _ _ _ _ _ _ hm hg hk k1 k2 k3
        · exact .enumU _ _ _ _ _ _ hm hg hk
      · obtain ⟨i, n', rfl, hm⟩ := means_value rfl h0
        split at h
        · next t h1 =>
          have hg := deStruct_iff.mp h1
          have hbs := gives_size hg t (by simp)
          obtain ⟨vs, h2, rfl⟩ := Option.map_eq_some_iff.mp h
          obtain ⟨ds, k1, k2, k3⟩ := tup (by omega) h2
          exact .tupleStruct _ _ _ _ _ _ hm hg k1 k2 k3
        · cases h
      · obtain ⟨i, n', rfl, hm⟩ := means_value rfl h0
        obtain ⟨vs, h2, rfl⟩ := Option.map_eq_some_iff.mp h
        obtain ⟨ds, k1, k2, k3⟩ := tup (by omega) h2
        exact .tuple _ _ _ _ _ hm k1 k2 k3
      · obtain ⟨i, n', rfl, hm⟩ := means_value rfl h0
        split at h
        · next xs h1 =>
          rw [deSeq_iff] at h1
          subst h1
          obtain ⟨vs, h2, rfl⟩ := Option.map_eq_some_iff.mp h
          obtain ⟨h3, h4⟩ := deValues_zip.mp h2
          refine .list _ _ _ _ hm h3 fun p hp => de_denotes n ?_ (h4 p hp)
          have := zip_left_size hp
          simp only [Data.seq.sizeOf_spec] at hsz
          omega
        · cases h
      · obtain ⟨i, n', rfl, hm⟩ := means_value rfl h0
        split at h
        · next xs h1 =>
          rw [deMap_iff] at h1
          subst h1
          obtain ⟨l, h2, rfl⟩ := Option.map_eq_some_iff.mp h
          obtain ⟨h3, h4, h5⟩ := dePairs_zip.mp h2
          have hz : ∀ p ∈ xs.zip l, sizeOf p.1.1 < n ∧ sizeOf p.1.2 < n := by
            intro p hp
            have := List.sizeOf_lt_of_mem (List.of_mem_zip (a := p.1) (b := p.2) hp).1
            have e : sizeOf p.1 = 1 + sizeOf p.1.1 + sizeOf p.1.2 := by cases p.1; rfl
            simp only [Data.map.sizeOf_spec] at hsz
            omega
          exact .map _ _ _ _ _ hm h3 (fun p hp => de_denotes n (hz p hp).1 (h4 p hp))
            (fun p hp => de_denotes n (hz p hp).2 (h5 p hp)) ((gathered_iff valueCmpOn).mpr rfl)
        · cases h
      · obtain ⟨k, hk, h1⟩ := Option.bind_eq_some_iff.mp h
        obtain ⟨s, h2, rfl⟩ := Option.map_eq_some_iff.mp h1
        have := ofIdx_idx hk
        subst this
        obtain ⟨i, n', rfl, hm⟩ := means_value (form_at k) h0
        exact .scalar _ _ _ _ _ hm (isScalar_iff.mpr ⟨k, rfl, h2⟩)
    · cases h

theorem de_iff {m : VariantId} {d : Data} {v : Value} : Value.de m d = some v ↔ Denotes m d v :=
  ⟨de_denotes _ (Nat.lt_succ_self _), denotes_de⟩

/-! ## Keys -/

theorem usize_read {d : Data} {k : IntKind} {y : Int} :
    Scalar.de (.int .usize) d = some (.int k y) ↔ ∃ (w : IntKind) (x : Nat), d = .int w x ∧ x < 2 ^ 64 ∧ k = .usize ∧ y = x := by
  constructor
  · intro h
    cases d with
    | int w n =>
      rw [Scalar.de] at h
      split at h
      · next hr =>
        cases h
        simp only [IntKind.InRange, IntKind.signed, IntKind.bits] at hr
        simp only [Bool.false_eq_true, if_false] at hr
        obtain ⟨x, rfl⟩ := Int.eq_ofNat_of_zero_le hr.1
        exact ⟨w, x, rfl, by exact_mod_cast hr.2, rfl, rfl⟩
      · cases h
    | _ => cases h
  · rintro ⟨w, x, rfl, hx, rfl, rfl⟩
    rw [Scalar.de]
    exact if_pos (usize_inRange hx)

theorem keyDe_iff {m : VariantId} {d : Data} {k : Key} : Key.de m d = some k ↔ DenotesKey m d k := by
  have hn : ["Field", "Get", "Variant"].Nodup := by decide
  have hn' : ["Named", "Numbered"].Nodup := by decide
  constructor
  · intro h
    unfold Key.de at h
    split at h
    · next c h0 =>
      obtain ⟨i, n, rfl, hm⟩ := (deEnum_newtype_iff hn (by rfl)).mp h0
      split at h
      · next s h1 =>
        obtain ⟨j, w, rfl, hm'⟩ := (deEnum_newtype_iff hn' (by rfl)).mp h1
        obtain ⟨t, h2, rfl⟩ := Option.map_eq_some_iff.mp h
        rw [deStr_iff] at h2
        subst h2
        exact .named _ _ _ _ _ hm hm'
      · next x h1 =>
        obtain ⟨j, w, rfl, hm'⟩ := (deEnum_newtype_iff hn' (by rfl)).mp h1
        split at h
        · next k' y h2 =>
          obtain ⟨w', x, rfl, hx, rfl, rfl⟩ := usize_read.mp h2
          rw [Int.toNat_natCast] at h
          cases h
          exact .numbered _ _ _ _ _ _ hm hm' hx
        · cases h
      · cases h
    · next c h0 =>
      obtain ⟨i, n, rfl, hm⟩ := (deEnum_newtype_iff hn (by rfl)).mp h0
      obtain ⟨v, h1, rfl⟩ := Option.map_eq_some_iff.mp h
      exact .get _ _ _ _ hm (de_iff.mp h1)
    · next c h0 =>
      obtain ⟨i, n, rfl, hm⟩ := (deEnum_newtype_iff hn (by rfl)).mp h0
      obtain ⟨t, h1, rfl⟩ := Option.map_eq_some_iff.mp h
      rw [deStr_iff] at h1
      subst h1
      exact .variant _ _ _ hm
    · cases h
  · intro h
    cases h with
    | named i n j w s hm hm' =>
      unfold Key.de
      rw [(deEnum_newtype_iff hn (j := 0) rfl).mpr ⟨i, n, rfl, hm⟩]
      simp only
      rw [(deEnum_newtype_iff hn' (j := 0) rfl).mpr ⟨j, w, rfl, hm'⟩]
      rfl
    | numbered i n j w k x hm hm' hx =>
      unfold Key.de
      rw [(deEnum_newtype_iff hn (j := 0) rfl).mpr ⟨i, n, rfl, hm⟩]
      simp only
      rw [(deEnum_newtype_iff hn' (j := 1) rfl).mpr ⟨j, w, rfl, hm'⟩]
      simp only [usize_read.mpr ⟨k, x, rfl, hx, rfl, rfl⟩, Int.toNat_natCast]
    | get i n c v hm hv =>
      unfold Key.de
      rw [(deEnum_newtype_iff hn (j := 1) rfl).mpr ⟨i, n, rfl, hm⟩]
      simp only
      rw [de_iff.mpr hv]
      rfl
    | «variant» i n s hm =>
      unfold Key.de
      rw [(deEnum_newtype_iff hn (j := 2) rfl).mpr ⟨i, n, rfl, hm⟩]
      rfl

theorem mapM_iff_forall₂ {α β : Type} {f : α → Option β} : ∀ {xs : List α} {ys : List β},
    xs.mapM f = some ys ↔ List.Forall₂ (fun x y => f x = some y) xs ys
  | [], ys => by
    simp only [List.mapM_nil, Option.pure_def, Option.some.injEq]
    constructor
    · rintro rfl; exact .nil
    · intro h; cases h; rfl
  | x :: xs, ys => by
    simp only [List.mapM_cons, Option.bind_eq_bind, Option.pure_def, Option.bind_eq_some_iff]
    constructor
    · rintro ⟨y, h1, zs, h2, h3⟩
      cases h3
      exact .cons h1 (mapM_iff_forall₂.mp h2)
    · intro h
      cases h with
      | cons h1 h2 => exact ⟨_, h1, _, mapM_iff_forall₂.mpr h2, rfl⟩

theorem pathDe_iff {m : VariantId} {d : Data} {p : KeyPath} : KeyPath.de m d = some p ↔ DenotesPath m d p := by
  unfold DenotesPath
  constructor
  · intro h
    unfold KeyPath.de at h
    split at h
    · next t h1 =>
      obtain ⟨xs, h2, h3⟩ := Option.bind_eq_some_iff.mp h
      rw [deSeq_iff] at h2
      subst h2
      exact ⟨xs, deStruct_iff.mp h1, (mapM_iff_forall₂.mp h3).imp fun _ _ h => keyDe_iff.mp h⟩
    · cases h
  · rintro ⟨ds, h1, h2⟩
    unfold KeyPath.de
    rw [deStruct_iff.mpr h1]
    simp only [deSeq, Option.bind_some]
    exact mapM_iff_forall₂.mpr (h2.imp fun _ _ h => keyDe_iff.mpr h)


/-! ## Rearranged data -/

theorem forall₂_of_zip {α β : Type} {R : α × β → Prop} {xs : List α} {ys : List β} (hl : xs.length = ys.length)
    (h : ∀ p ∈ xs.zip ys, R p) : List.Forall₂ (fun a b => R (a, b)) xs ys :=
  List.forall₂_iff_zip.mpr ⟨hl, fun {a b} hp => h (a, b) hp⟩

theorem zip_of_forall₂ {α β : Type} {R : α × β → Prop} {xs : List α} {ys : List β}
    (h : List.Forall₂ (fun a b => R (a, b)) xs ys) : xs.length = ys.length ∧ ∀ p ∈ xs.zip ys, R p :=
  ⟨h.length_eq, fun _ hp => (List.forall₂_iff_zip.mp h).2 hp⟩

theorem forall₂_span {α β γ : Type} {P : α → γ → Prop} {R : α → β → Prop} {Q : β → γ → Prop}
    (h : ∀ a b c, P a c → R a b → Q b c) : ∀ {as : List α} {bs : List β} {cs : List γ},
    List.Forall₂ P as cs → List.Forall₂ R as bs → List.Forall₂ Q bs cs
  | [], _, _, .nil, .nil => .nil
  | _ :: _, _, _, .cons p ps, .cons r rs => .cons (h _ _ _ p r) (forall₂_span h ps rs)

theorem rearranged_symm {d e : Data} (h : d.Rearranged e) : e.Rearranged d := by
  induction h with
  | refl d => exact .refl d
  | int k k' n => exact .int k' k n
  | seq xs ys hl _ ih =>
    have h1 := zip_of_forall₂ (R := fun p : Data × Data => Data.Rearranged p.1 p.2) (forall₂_of_zip hl ih).flip
    exact .seq _ _ h1.1 h1.2
  | map xs ys hl _ _ ihk ihv =>
    have h1 := zip_of_forall₂ (R := fun p : (Data × Data) × (Data × Data) => Data.Rearranged p.1.1 p.2.1)
      (forall₂_of_zip hl ihk).flip
    have h2 := zip_of_forall₂ (R := fun p : (Data × Data) × (Data × Data) => Data.Rearranged p.1.2 p.2.2)
      (forall₂_of_zip hl ihv).flip
    exact .map _ _ h1.1 h1.2 h2.2
  | struct fs gs hs hn hr hp ih =>
    have hlen : fs.length = gs.length := by simpa using congrArg List.length hn
    have h1 : List.Forall₂ (fun (g f : String × Data) => g.1 = f.1 ∧ Data.Rearranged g.2 f.2) gs fs := by
      clear hp
      induction fs generalizing gs with
      | nil => cases gs with | nil => exact .nil | cons _ _ => cases hlen
      | cons f fs ihf =>
        cases gs with
        | nil => cases hlen
        | cons g gs =>
          simp only [List.map_cons, List.cons.injEq] at hn
          refine .cons ⟨hn.1.symm, ih (f, g) (by simp)⟩
            (ihf gs hn.2 (fun p hp => ?_) (fun p hp => ?_) (by simpa using hlen))
          · exact hr p (by rw [List.zip_cons_cons]; exact List.mem_cons_of_mem _ hp)
          · exact ih p (by rw [List.zip_cons_cons]; exact List.mem_cons_of_mem _ hp)
    obtain ⟨ms, h2, h3⟩ := List.perm_comp_forall₂ hp.symm h1
    refine .struct hs ms fs ?_ ?_ h3
    · clear h3 h1 hp
      induction h2 with
      | nil => rfl
      | cons h _ ih => simp [h.1, ih]
    · exact (zip_of_forall₂ (R := fun p : (String × Data) × (String × Data) => Data.Rearranged p.1.2 p.2.2)
        (h2.imp fun _ _ h => h.2)).2
  | newtype i n d e _ ih => exact .newtype i n e d ih
  | some d e _ ih => exact .some e d ih

theorem rearr_newtype {i : Nat} {n : String} {c d : Data} (h : Data.Rearranged (.newtype i n c) d) :
    ∃ e, d = .newtype i n e ∧ c.Rearranged e := by
  cases h with
  | refl => exact ⟨c, rfl, .refl c⟩
  | newtype _ _ _ e h => exact ⟨e, rfl, h⟩

theorem rearr_unit {i : Nat} {n : String} {d : Data} (h : Data.Rearranged (.unit i n) d) : d = .unit i n := by
  cases h; rfl

theorem rearr_str {s : String} {d : Data} (h : Data.Rearranged (.str s) d) : d = .str s := by
  cases h; rfl

theorem rearr_seq {xs : List Data} {d : Data} (h : Data.Rearranged (.seq xs) d) :
    ∃ ys, d = .seq ys ∧ List.Forall₂ Data.Rearranged xs ys := by
  cases h with
  | refl => exact ⟨xs, rfl, List.forall₂_same.mpr fun x _ => .refl x⟩
  | seq _ ys hl h => exact ⟨ys, rfl, forall₂_of_zip hl h⟩

theorem rearr_map {xs : List (Data × Data)} {d : Data} (h : Data.Rearranged (.map xs) d) :
    ∃ ys, d = .map ys ∧
      List.Forall₂ (fun (a b : Data × Data) => a.1.Rearranged b.1 ∧ a.2.Rearranged b.2) xs ys := by
  cases h with
  | refl => exact ⟨xs, rfl, List.forall₂_same.mpr fun x _ => ⟨.refl _, .refl _⟩⟩
  | map _ ys hl h h' =>
    exact ⟨ys, rfl, forall₂_of_zip (R := fun p : (Data × Data) × (Data × Data) =>
      p.1.1.Rearranged p.2.1 ∧ p.1.2.Rearranged p.2.2) hl fun p hp => ⟨h p hp, h' p hp⟩⟩

theorem rearr_gives {names : List String} {c d : Data} {ds : List Data} (h : c.Gives names ds)
    (hr : c.Rearranged d) : ∃ es, d.Gives names es ∧ List.Forall₂ Data.Rearranged ds es := by
  cases hr with
  | refl => exact ⟨ds, h, List.forall₂_same.mpr fun x _ => .refl x⟩
  | seq xs ys hl hz =>
    rcases h with ⟨_, h, _⟩ | ⟨h, h'⟩
    · cases h
    · cases h
      exact ⟨ys, .inr ⟨rfl, hl ▸ h'⟩, forall₂_of_zip hl hz⟩
  | struct fs gs hs hn hz hp =>
    rcases h with ⟨_, h, h'⟩ | ⟨h, _⟩
    · cases h
      have hlen : fs.length = gs.length := by simpa using congrArg List.length hn
      have hcount : ∀ n, (hs.map (·.1)).count n = (fs.map (·.1)).count n := by
        intro n; rw [hn]; exact (hp.symm.map _).count_eq n
      have hat : ∀ n x, (n, x) ∈ fs → ∃ y, (n, y) ∈ hs ∧ x.Rearranged y := by
        intro n x hx
        obtain ⟨i, hi⟩ := List.mem_iff_getElem?.mp hx
        have hi' : i < gs.length := by
          have := (List.getElem?_eq_some_iff.mp hi).1; omega
        have e1 := congrArg (fun l => l[i]?) hn
        simp only [List.getElem?_map, hi, List.getElem?_eq_getElem hi', Option.map_some, Option.some.injEq] at e1
        have hm : ((n, x), gs[i]) ∈ fs.zip gs := by
          rw [List.mem_iff_getElem?]
          exact ⟨i, by rw [List.getElem?_zip_eq_some]; exact ⟨hi, List.getElem?_eq_getElem hi'⟩⟩
        refine ⟨gs[i].2, hp.mem_iff.mp ?_, hz _ hm⟩
        have : gs[i] = (n, gs[i].2) := by rw [e1]
        rw [← this]
        exact List.getElem_mem hi'
      have : ∃ es, List.Forall₂ (fun n x => (n, x) ∈ hs ∧ (hs.map (·.1)).count n = 1) names es ∧
          List.Forall₂ Data.Rearranged ds es := by
        induction h' with
        | nil => exact ⟨[], .nil, .nil⟩
        | cons h _ ih =>
          obtain ⟨es, h1, h2⟩ := ih
          obtain ⟨y, hy, hr⟩ := hat _ _ h.1
          exact ⟨y :: es, .cons ⟨hy, (hcount _).trans h.2⟩ h1, .cons hr h2⟩
      obtain ⟨es, h1, h2⟩ := this
      exact ⟨es, .inl ⟨hs, rfl, h1⟩, h2⟩
    · cases h
  | _ =>
    rcases h with ⟨_, h, _⟩ | ⟨h, _⟩ <;> cases h

theorem rearr_tuple {c d : Data} {ds : List Data} (h : c.IsTuple ds) (hr : c.Rearranged d) :
    ∃ es, d.IsTuple es ∧ List.Forall₂ Data.Rearranged ds es := by
  obtain ⟨es, h1, h2⟩ := rearr_gives h hr
  cases h2 with
  | cons h2 h3 =>
    cases h3
    obtain ⟨ys, rfl, h4⟩ := rearr_seq h2
    exact ⟨ys, h1, h4⟩

theorem rearr_strs {ns : List String} {ys : List Data} (h : List.Forall₂ Data.Rearranged (ns.map .str) ys) :
    ys = ns.map .str := by
  induction ns generalizing ys with
  | nil => cases h; rfl
  | cons n ns ih =>
    rw [List.map_cons] at h
    cases h with
    | cons h1 h2 => rw [rearr_str h1, ih h2]; rfl

theorem rearr_record {c d : Data} {ns : List String} {kvs : List (String × Data)} (h : c.IsRecord ns kvs)
    (hr : c.Rearranged d) : ∃ kvs', d.IsRecord ns kvs' ∧
      List.Forall₂ (fun (a b : String × Data) => a.1 = b.1 ∧ a.2.Rearranged b.2) kvs kvs' := by
  obtain ⟨es, h1, h2⟩ := rearr_gives h hr
  cases h2 with
  | cons h2 h3 =>
    cases h3 with
    | cons h3 h4 =>
      cases h4
      obtain ⟨ys, rfl, h5⟩ := rearr_seq h2
      have := rearr_strs h5
      subst this
      obtain ⟨zs, rfl, h6⟩ := rearr_map h3
      have : ∃ kvs' : List (String × Data), zs = kvs'.map (fun p => (.str p.1, p.2)) ∧
          List.Forall₂ (fun (a b : String × Data) => a.1 = b.1 ∧ a.2.Rearranged b.2) kvs kvs' := by
        clear h1 h2 h3 h h5
        induction kvs generalizing zs with
        | nil => cases h6; exact ⟨[], rfl, .nil⟩
        | cons p kvs ih =>
          rw [List.map_cons] at h6
          cases h6 with
          | @cons _ z _ zs h7 h8 =>
            obtain ⟨kvs', rfl, h9⟩ := ih zs h8
            refine ⟨(p.1, z.2) :: kvs', ?_, .cons ⟨rfl, h7.2⟩ h9⟩
            rw [List.map_cons, ← rearr_str h7.1]
      obtain ⟨kvs', rfl, h7⟩ := this
      exact ⟨kvs', h1, h7⟩

theorem rearr_values {m : VariantId} {ds es : List Data} {vs : List Value} (hl : ds.length = vs.length)
    (h : ∀ p ∈ ds.zip vs, ∀ d', p.1.Rearranged d' → Denotes m d' p.2)
    (hr : List.Forall₂ Data.Rearranged ds es) :
    es.length = vs.length ∧ ∀ p ∈ es.zip vs, Denotes m p.1 p.2 :=
  zip_of_forall₂ (R := fun p : Data × Value => Denotes m p.1 p.2)
    (forall₂_span (fun _ b _ hP hR => hP b hR)
      (forall₂_of_zip (R := fun p : Data × Value => ∀ d', p.1.Rearranged d' → Denotes m d' p.2) hl h) hr)

theorem rearr_fields {m : VariantId} {kvs kvs' : List (String × Data)} {l : List (String × Value)}
    (hl : l.map (·.1) = kvs.map (·.1))
    (h : ∀ p ∈ kvs.zip l, ∀ d', p.1.2.Rearranged d' → Denotes m d' p.2.2)
    (hr : List.Forall₂ (fun (a b : String × Data) => a.1 = b.1 ∧ a.2.Rearranged b.2) kvs kvs') :
    l.map (·.1) = kvs'.map (·.1) ∧ ∀ p ∈ kvs'.zip l, Denotes m p.1.2 p.2.2 := by
  have hlen : kvs.length = l.length := by simpa using (congrArg List.length hl).symm
  constructor
  · rw [hl]
    clear h hl hlen
    induction hr with
    | nil => rfl
    | cons h _ ih => simp [h.1, ih]
  · exact (zip_of_forall₂ (R := fun p : (String × Data) × (String × Value) => Denotes m p.1.2 p.2.2)
      (forall₂_span (fun _ b _ hP hR => hP b.2 hR.2)
        (forall₂_of_zip (R := fun p : (String × Data) × (String × Value) =>
          ∀ d', p.1.2.Rearranged d' → Denotes m d' p.2.2) hlen h) hr)).2

theorem rearr_scalar {w : String} {c d : Data} {s : Scalar} (h : Data.IsScalar w c s) (hr : c.Rearranged d) :
    Data.IsScalar w d s := by
  cases h with
  | int k w n h =>
    cases hr with
    | refl => exact .int k w n h
    | int _ k' _ => exact .int k k' n h
  | _ => cases hr; constructor

theorem rearr_denotes {m : VariantId} {d e : Data} {v : Value} (h : Denotes m d v) (hr : d.Rearranged e) :
    Denotes m e v := by
  induction h generalizing e with
  | scalar i n w c s hm hs =>
    obtain ⟨c', rfl, hc⟩ := rearr_newtype hr
    exact .scalar _ _ _ _ _ hm (rearr_scalar hs hc)
  | struct i n c ns kvs l fs hm hrec hl _ hg ih =>
    obtain ⟨c', rfl, hc⟩ := rearr_newtype hr
    obtain ⟨kvs', h1, h2⟩ := rearr_record hrec hc
    obtain ⟨h3, h4⟩ := rearr_fields hl (fun p hp d' hd => ih p hp hd) h2
    exact .struct _ _ _ _ _ _ _ hm h1 h3 h4 hg
  | enumS i n c v j w e ns kvs l fs hm hg hk hrec hl _ hf ih =>
    obtain ⟨c', rfl, hc⟩ := rearr_newtype hr
    obtain ⟨es, g1, g2⟩ := rearr_gives hg hc
    cases g2 with
    | cons g2 g3 =>
      cases g3 with
      | cons g3 g4 =>
        cases g4
        rw [rearr_str g2] at g1
        obtain ⟨e', rfl, he⟩ := rearr_newtype g3
        obtain ⟨kvs', h1, h2⟩ := rearr_record hrec he
        obtain ⟨h3, h4⟩ := rearr_fields hl (fun p hp d' hd => ih p hp hd) h2
        exact .enumS _ _ _ _ _ _ _ _ _ _ _ hm g1 hk h1 h3 h4 hf
  | enumT i n c v j w e ds vs hm hg hk ht hl _ ih =>
    obtain ⟨c', rfl, hc⟩ := rearr_newtype hr
    obtain ⟨es, g1, g2⟩ := rearr_gives hg hc
    cases g2 with
    | cons g2 g3 =>
      cases g3 with
      | cons g3 g4 =>
        cases g4
        rw [rearr_str g2] at g1
        obtain ⟨e', rfl, he⟩ := rearr_newtype g3
        obtain ⟨ds', h1, h2⟩ := rearr_tuple ht he
        obtain ⟨h3, h4⟩ := rearr_values hl (fun p hp d' hd => ih p hp hd) h2
        exact .enumT _ _ _ _ _ _ _ _ _ hm g1 hk h1 h3 h4
  | enumU i n c v j w hm hg hk =>
    obtain ⟨c', rfl, hc⟩ := rearr_newtype hr
    obtain ⟨es, g1, g2⟩ := rearr_gives hg hc
    cases g2 with
    | cons g2 g3 =>
      cases g3 with
      | cons g3 g4 =>
        cases g4
        rw [rearr_str g2, rearr_unit g3] at g1
        exact .enumU _ _ _ _ _ _ hm g1 hk
  | tupleStruct i n c e ds vs hm hg ht hl _ ih =>
    obtain ⟨c', rfl, hc⟩ := rearr_newtype hr
    obtain ⟨es, g1, g2⟩ := rearr_gives hg hc
    cases g2 with
    | cons g2 g3 =>
      cases g3
      obtain ⟨ds', h1, h2⟩ := rearr_tuple ht g2
      obtain ⟨h3, h4⟩ := rearr_values hl (fun p hp d' hd => ih p hp hd) h2
      exact .tupleStruct _ _ _ _ _ _ hm g1 h1 h3 h4
  | tuple i n c ds vs hm ht hl _ ih =>
    obtain ⟨c', rfl, hc⟩ := rearr_newtype hr
    obtain ⟨ds', h1, h2⟩ := rearr_tuple ht hc
    obtain ⟨h3, h4⟩ := rearr_values hl (fun p hp d' hd => ih p hp hd) h2
    exact .tuple _ _ _ _ _ hm h1 h3 h4
  | list i n ds vs hm hl _ ih =>
    obtain ⟨c', rfl, hc⟩ := rearr_newtype hr
    obtain ⟨ds', rfl, h2⟩ := rearr_seq hc
    obtain ⟨h3, h4⟩ := rearr_values hl (fun p hp d' hd => ih p hp hd) h2
    exact .list _ _ _ _ hm h3 h4
  | map i n ds l kvs hm hl _ _ hg ihk ihv =>
    obtain ⟨c', rfl, hc⟩ := rearr_newtype hr
    obtain ⟨ds', rfl, h2⟩ := rearr_map hc
    have h3 := zip_of_forall₂ (R := fun p : (Data × Data) × (Value × Value) =>
        Denotes m p.1.1 p.2.1 ∧ Denotes m p.1.2 p.2.2)
      (forall₂_span (fun _ b _ hP hR => ⟨hP.1 b.1 hR.1, hP.2 b.2 hR.2⟩)
        (forall₂_of_zip (R := fun p : (Data × Data) × (Value × Value) =>
          (∀ d', p.1.1.Rearranged d' → Denotes m d' p.2.1) ∧ ∀ d', p.1.2.Rearranged d' → Denotes m d' p.2.2) hl
          fun p hp => ⟨fun d' hd => ihk p hp hd, fun d' hd => ihv p hp hd⟩) h2)
    exact .map _ _ _ _ _ hm h3.1 (fun p hp => (h3.2 p hp).1) (fun p hp => (h3.2 p hp).2) hg


theorem forall₂_mem_right {α β : Type} {R : α → β → Prop} {l : List α} {m : List β} (h : List.Forall₂ R l m)
    {y : β} (hy : y ∈ m) : ∃ x ∈ l, R x y := by
  induction h with
  | nil => simp at hy
  | cons hb _ ih =>
    rcases List.mem_cons.mp hy with rfl | hy
    · exact ⟨_, List.mem_cons_self, hb⟩
    · obtain ⟨a, h1, h2⟩ := ih hy
      exact ⟨a, List.mem_cons_of_mem _ h1, h2⟩


end Mirror
