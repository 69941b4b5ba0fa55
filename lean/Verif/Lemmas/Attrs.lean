import Verif.Spec.Attrs
import Verif.Lemmas.BTree

set_option linter.unusedSimpArgs false

namespace Mirror

/-! ## Reading lists -/

theorem Listed.step {α : Type} {R : List Tok → List Tok → α → Prop} {ts r : List Tok} {x : α} {xs : List α}
    (h : R ts r x) (hl : Listed R (skipComma r) xs) : Listed R ts (x :: xs) := by
  cases r with
  | nil => exact .cons h hl
  | cons t r =>
    cases t with
    | comma => exact .comma h hl
    | _ => exact .cons h hl

/-- No item begins with a comma. -/
def NoComma {α : Type} (R : List Tok → List Tok → α → Prop) : Prop := ∀ ts rest x, ¬ R (.comma :: ts) rest x

theorem Listed.unstep {α : Type} {R : List Tok → List Tok → α → Prop} (hn : NoComma R) {ts : List Tok}
    {x : α} {xs : List α} (h : Listed R ts (x :: xs)) : ∃ r, R ts r x ∧ Listed R (skipComma r) xs := by
  cases h with
  | @cons _ rest _ _ h hl =>
    refine ⟨_, h, ?_⟩
    cases rest with
    | nil => exact hl
    | cons t r =>
      cases t with
      | comma =>
        cases hl with
        | cons h' _ => exact absurd h' (hn _ _ _)
        | comma h' _ => exact absurd h' (hn _ _ _)
      | _ => exact hl
  | comma h hl => exact ⟨_, h, hl⟩

theorem Listed.nil_iff {α : Type} {R : List Tok → List Tok → α → Prop} (hn : ∀ rest x, ¬ R [] rest x)
    {xs : List α} : Listed R [] xs ↔ xs = [] := by
  constructor
  · intro h
    cases h with
    | nil => rfl
    | cons h _ => exact absurd h (hn _ _)
    | comma h _ => exact absurd h (hn _ _)
  · rintro rfl; exact .nil

theorem readsTrait_noComma : NoComma ReadsTrait := by
  intro ts rest x h; simp [ReadsTrait] at h

theorem readsPair_noComma (P : SynParsers) : NoComma (ReadsPair P) := by
  intro ts rest x h; simp [ReadsPair] at h

theorem readsItem_noComma (P : SynParsers) : NoComma (ReadsItem P) := by
  intro ts rest x h; cases x <;> simp [ReadsItem] at h

theorem readsField_noComma (P : SynParsers) : NoComma (ReadsField P) := by
  intro ts rest x h; cases x <;> simp [ReadsField] at h

/-! ## `opt_out` -/

/-- The effect of opting out. -/
def ItemAttrs.addTraits (l : List OptTrait) (a : ItemAttrs) : ItemAttrs :=
  { a with
    debugOptOut := a.debugOptOut || decide (OptTrait.debug ∈ l)
    cloneOptOut := a.cloneOptOut || decide (OptTrait.clone ∈ l)
    fromReflectOptOut := a.fromReflectOptOut || decide (OptTrait.fromReflect ∈ l) }

theorem optOutLoop_iff : ∀ (n : Nat) (ts : List Tok) (a b : ItemAttrs), ts.length ≤ n →
    (optOutLoop ts a = some b ↔ ∃ l, Listed ReadsTrait ts l ∧ b = a.addTraits l) := by
  intro n
  induction n with
  | zero =>
    intro ts a b h
    have : ts = [] := by cases ts <;> simp at h ⊢
    subst this
    rw [optOutLoop.eq_def]
    simp only [Listed.nil_iff (R := ReadsTrait) (by simp [ReadsTrait]), Option.some.injEq]
    constructor
    · rintro rfl; exact ⟨[], rfl, by simp [ItemAttrs.addTraits]⟩
    · rintro ⟨l, rfl, rfl⟩; simp [ItemAttrs.addTraits]
  | succ n ih =>
    intro ts a b h
    cases ts with
    | nil =>
      rw [optOutLoop.eq_def]
      simp only [Listed.nil_iff (R := ReadsTrait) (by simp [ReadsTrait]), Option.some.injEq]
      constructor
      · rintro rfl; exact ⟨[], rfl, by simp [ItemAttrs.addTraits]⟩
      · rintro ⟨l, rfl, rfl⟩; simp [ItemAttrs.addTraits]
    | cons t r =>
      have hr : (skipComma r).length ≤ n := by have := skipComma_le r; simp at h; omega
      have key : ∀ (tr : OptTrait) (a' : ItemAttrs), (∀ l, a'.addTraits l = a.addTraits (tr :: l)) →
          ((optOutLoop (skipComma r) a' = some b) ↔
            ∃ l, Listed ReadsTrait (.ident tr.spelling :: r) l ∧ b = a.addTraits l) := by
        intro tr a' ha
        rw [ih _ _ _ hr]
        constructor
        · rintro ⟨l, hl, rfl⟩
          exact ⟨tr :: l, Listed.step (by simp [ReadsTrait]) hl, ha l⟩
        · rintro ⟨l, hl, rfl⟩
          cases l with
          | nil => cases hl
          | cons t' l =>
            obtain ⟨r', h1, h2⟩ := Listed.unstep readsTrait_noComma hl
            simp only [ReadsTrait, List.cons.injEq, Tok.ident.injEq] at h1
            obtain ⟨h1, rfl⟩ := h1
            have : t' = tr := by cases tr <;> cases t' <;> simp [OptTrait.spelling] at h1 <;> rfl
            subst this
            exact ⟨l, h2, (ha l).symm⟩
      cases t with
      | ident s =>
        rw [optOutLoop.eq_def]
        simp only
        split
        · next hs => subst hs; exact key .debug _ (by intro l; simp [ItemAttrs.addTraits])
        · split
          · next hs => subst hs; exact key .clone _ (by intro l; simp [ItemAttrs.addTraits])
          · split
            · next hs => subst hs; exact key .fromReflect _ (by intro l; simp [ItemAttrs.addTraits])
            · next h1 h2 h3 =>
              simp only [reduceCtorEq, false_iff]
              rintro ⟨l, hl, _⟩
              cases l with
              | nil => cases hl
              | cons t' l =>
                obtain ⟨r', h1', _⟩ := Listed.unstep readsTrait_noComma hl
                simp only [ReadsTrait, List.cons.injEq, Tok.ident.injEq] at h1'
                cases t' <;> simp_all [OptTrait.spelling]
      | _ =>
        rw [optOutLoop.eq_def]
        simp only [reduceCtorEq, false_iff]
        rintro ⟨l, hl, _⟩
        cases l with
        | nil => cases hl
        | cons t' l =>
          obtain ⟨r', h1', _⟩ := Listed.unstep readsTrait_noComma hl
          simp [ReadsTrait] at h1'

/-! ## `meta` -/

theorem bmGet_none_keys {α} {k : String} {m : List (String × α)} :
    bmGet strCmp k m = none ↔ k ∉ m.map (·.1) := by
  induction m with
  | nil => simp [bmGet]
  | cons p m ih =>
    obtain ⟨k', v⟩ := p
    simp only [bmGet, strCmp_eq_iff, List.map_cons, List.mem_cons, not_or]
    split
    · next h => simp [h]
    · next h => simp [ih, h]

/-- Adding pairs to a map, none of whose keys are there. -/
def addPairs (m ps : List (String × List Tok)) : List (String × List Tok) :=
  ps.foldl (fun m p => bmInsert strCmp p.1 p.2 m) m

theorem addPairs_perm {m ps : List (String × List Tok)} (hp : (ps.map (·.1)).Nodup)
    (hd : ∀ k ∈ ps.map (·.1), k ∉ m.map (·.1)) : (addPairs m ps).Perm (m ++ ps) := by
  induction ps generalizing m with
  | nil => simp [addPairs]
  | cons p ps ih =>
    have h1 : (bmInsert strCmp p.1 p.2 m).Perm ((p.1, p.2) :: m) := by
      refine bmInsert_perm ?_
      intro q hq he
      rw [strCmp_eq_iff] at he
      exact hd p.1 (by simp) (by rw [he]; exact List.mem_map_of_mem hq)
    simp only [List.map_cons, List.nodup_cons] at hp
    have h2 := ih (m := bmInsert strCmp p.1 p.2 m) hp.2 (by
      intro k hk hin
      have := (h1.map (·.1)).mem_iff.mp hin
      simp only [List.map_cons, List.mem_cons] at this
      rcases this with rfl | this
      · exact hp.1 hk
      · exact hd k (by simp [hk]) this)
    simp only [addPairs, List.foldl_cons] at h2 ⊢
    refine h2.trans ?_
    refine (h1.append_right ps).trans ?_
    exact List.perm_middle.symm

theorem addPairs_sorted {m ps : List (String × List Tok)} (hs : BMSorted strCmp m) :
    BMSorted strCmp (addPairs m ps) := by
  induction ps generalizing m with
  | nil => exact hs
  | cons p ps ih => exact ih (bmInsert_sorted strCmpOn trivial (fun _ _ => trivial) hs)

theorem metaLoop_iff (P : SynParsers) : ∀ (n : Nat) (ts : List Tok) (m m' : List (String × List Tok)),
    ts.length ≤ n →
    (metaLoop P ts m = some m' ↔ ∃ ps, Listed (ReadsPair P) ts ps ∧ (ps.map (·.1)).Nodup ∧
      (∀ k ∈ ps.map (·.1), k ∉ m.map (·.1)) ∧ m' = addPairs m ps) := by
  have hnil : ∀ m m' : List (String × List Tok), metaLoop P [] m = some m' ↔
      ∃ ps, Listed (ReadsPair P) [] ps ∧ (ps.map (·.1)).Nodup ∧
      (∀ k ∈ ps.map (·.1), k ∉ m.map (·.1)) ∧ m' = addPairs m ps := by
    intro m m'
    rw [metaLoop.eq_def]
    simp only [Listed.nil_iff (R := ReadsPair P) (by simp [ReadsPair]), Option.some.injEq]
    constructor
    · rintro rfl; exact ⟨[], rfl, by simp, by simp, by simp [addPairs]⟩
    · rintro ⟨l, rfl, _, _, rfl⟩; simp [addPairs]
  intro n
  induction n with
  | zero =>
    intro ts m m' h
    have : ts = [] := by cases ts <;> simp at h ⊢
    subst this; exact hnil m m'
  | succ n ih =>
    intro ts m m' h
    cases ts with
    | nil => exact hnil m m'
    | cons t r =>
      have hbad : (∀ k r', t :: r = .ident k :: .eq :: r' → False) →
          ¬ ∃ ps, Listed (ReadsPair P) (t :: r) ps ∧ (ps.map (·.1)).Nodup ∧
            (∀ k ∈ ps.map (·.1), k ∉ m.map (·.1)) ∧ m' = addPairs m ps := by
        rintro hb ⟨ps, hl, _⟩
        cases ps with
        | nil => cases hl
        | cons p ps =>
          obtain ⟨_, ⟨_, r', _, h1, _⟩, _⟩ := Listed.unstep (readsPair_noComma P) hl
          exact hb _ _ h1
      rw [metaLoop.eq_def]
      split
      · next h1 => cases h1
      · next m0 _ _ k r' h1 =>
        simp only [List.cons.injEq] at h1
        obtain ⟨rfl, rfl⟩ := h1
        have hread : ∀ {p ps}, Listed (ReadsPair P) (.ident k :: .eq :: r') (p :: ps) →
            P.reserved k = false ∧ ∃ n, P.expr r' = some n ∧ p = (k, r'.take n) ∧
              Listed (ReadsPair P) (skipComma (r'.drop n)) ps := by
          intro p ps hl
          obtain ⟨_, ⟨hres, r'', n', h1, h2, h3, h4⟩, h5⟩ := Listed.unstep (readsPair_noComma P) hl
          simp only [List.cons.injEq, Tok.ident.injEq, true_and] at h1
          obtain ⟨h1, rfl⟩ := h1
          rw [← h1] at hres
          subst h4
          exact ⟨hres, n', h2, by rw [← h3, h1], h5⟩
        cases hres : P.reserved k with
        | true =>
          simp only [if_true, reduceCtorEq, false_iff]
          rintro ⟨ps, hl, _⟩
          cases ps with
          | nil => cases hl
          | cons p ps => simpa [hres] using (hread hl).1
        | false =>
          simp only [Bool.false_eq_true, if_false]
          cases he : P.expr r' with
          | none =>
            simp only [reduceCtorEq, false_iff]
            rintro ⟨ps, hl, _⟩
            cases ps with
            | nil => cases hl
            | cons p ps =>
              obtain ⟨_, n', h2, _⟩ := hread hl
              simp [he] at h2
          | some n' =>
            simp only
            have hlen : (skipComma (r'.drop n')).length ≤ n := by
              have := skipComma_le (r'.drop n'); simp at h this ⊢; omega
            cases hg : bmGet strCmp k m0 with
            | some v =>
              simp only [reduceCtorEq, false_iff]
              rintro ⟨ps, hl, _, hd, _⟩
              cases ps with
              | nil => cases hl
              | cons p ps =>
                obtain ⟨_, n'', _, hp, _⟩ := hread hl
                have := hd k (by simp [hp])
                rw [← bmGet_none_keys, hg] at this
                cases this
            | none =>
              have hk := bmGet_none_keys.mp hg
              have hperm : (bmInsert strCmp k (r'.take n') m0).Perm ((k, r'.take n') :: m0) := by
                refine bmInsert_perm ?_
                intro q hq hqe
                rw [strCmp_eq_iff] at hqe
                exact hk (by rw [hqe]; exact List.mem_map_of_mem hq)
              have hkeys : ∀ k', k' ∈ (bmInsert strCmp k (r'.take n') m0).map (·.1) ↔
                  k' = k ∨ k' ∈ m0.map (·.1) := by
                intro k'
                have := (hperm.map (·.1)).mem_iff (a := k')
                simpa only [List.map_cons, List.mem_cons] using this
              simp only
              rw [ih _ _ _ hlen]
              constructor
              · rintro ⟨ps, hl, hn, hd, rfl⟩
                refine ⟨(k, r'.take n') :: ps, Listed.step ⟨hres, r', n', rfl, he, rfl, rfl⟩ hl, ?_, ?_, rfl⟩
                · simp only [List.map_cons, List.nodup_cons]
                  exact ⟨fun hin => hd k hin ((hkeys k).mpr (.inl rfl)), hn⟩
                · intro k' hk'
                  simp only [List.map_cons, List.mem_cons] at hk'
                  rcases hk' with rfl | hk'
                  · exact hk
                  · exact fun h' => hd k' hk' ((hkeys k').mpr (.inr h'))
              · rintro ⟨ps, hl, hn, hd, rfl⟩
                cases ps with
                | nil => cases hl
                | cons p ps =>
                  obtain ⟨_, n'', h2, rfl, h5⟩ := hread hl
                  rw [he] at h2; cases h2
                  simp only [List.map_cons, List.nodup_cons] at hn
                  refine ⟨ps, h5, hn.2, ?_, rfl⟩
                  intro k' hk' h'
                  rcases (hkeys k').mp h' with rfl | h'
                  · exact hn.1 hk'
                  · exact hd k' (by simp [hk']) h'
      · next h1 h2 =>
        simp only [reduceCtorEq, false_iff]
        exact hbad (fun k r' h => by
          simp only [List.cons.injEq] at h
          obtain ⟨rfl, rfl⟩ := h
          simp only [List.cons.injEq] at h2
          exact h1 k r' h2.1.symm h2.2.symm)

/-! ## The options of an item -/

/-- The effect of an option. -/
def ItemOpt.apply (a : ItemAttrs) : ItemOpt → ItemAttrs
  | .optOut l => a.addTraits l
  | .meta ps => { a with pairs := addPairs a.pairs ps }
  | .crateName p => { a with crateName := p }

/-- The pairs can be added. -/
def Fresh (m ps : List (String × List Tok)) : Prop :=
  (ps.map (·.1)).Nodup ∧ ∀ k ∈ ps.map (·.1), k ∉ m.map (·.1)

theorem fresh_nil (m : List (String × List Tok)) : Fresh m [] := by simp [Fresh]

theorem fresh_append {m ps qs : List (String × List Tok)} :
    Fresh m (ps ++ qs) ↔ Fresh m ps ∧ Fresh (addPairs m ps) qs := by
  constructor
  · rintro ⟨h1, h2⟩
    rw [List.map_append, List.nodup_append] at h1
    have hp : Fresh m ps := ⟨h1.1, fun k hk => h2 k (by simp at hk ⊢; exact .inl hk)⟩
    refine ⟨hp, h1.2.1, ?_⟩
    intro k hk hin
    have := ((addPairs_perm hp.1 hp.2).map (·.1)).mem_iff.mp hin
    rw [List.map_append, List.mem_append] at this
    rcases this with h | h
    · exact h2 k (by rw [List.map_append, List.mem_append]; exact .inr hk) h
    · exact h1.2.2 k h k hk rfl
  · rintro ⟨hp, h1, h2⟩
    have hmem : ∀ k, k ∈ (addPairs m ps).map (·.1) ↔ k ∈ m.map (·.1) ∨ k ∈ ps.map (·.1) := by
      intro k
      have := ((addPairs_perm hp.1 hp.2).map (·.1)).mem_iff (a := k)
      rwa [List.map_append, List.mem_append] at this
    refine ⟨?_, ?_⟩
    · rw [List.map_append, List.nodup_append]
      refine ⟨hp.1, h1, ?_⟩
      rintro k hk k' hk' rfl
      exact h2 k hk' ((hmem k).mpr (.inr hk))
    · intro k hk hin
      rw [List.map_append, List.mem_append] at hk
      rcases hk with hk | hk
      · exact hp.2 k hk hin
      · exact h2 k hk ((hmem k).mpr (.inl hin))

theorem metaLoop_iff' (P : SynParsers) (ts : List Tok) (m m' : List (String × List Tok)) :
    metaLoop P ts m = some m' ↔ ∃ ps, Listed (ReadsPair P) ts ps ∧ Fresh m ps ∧ m' = addPairs m ps := by
  rw [metaLoop_iff P _ ts m m' (Nat.le_refl _)]
  simp only [Fresh, and_assoc]

theorem itemLoop_iff (P : SynParsers) : ∀ (n : Nat) (ts : List Tok) (a b : ItemAttrs), ts.length ≤ n →
    (itemLoop P ts a = some b ↔ ∃ os, Listed (ReadsItem P) ts os ∧ Fresh a.pairs (ItemOpt.pairs os) ∧
      b = os.foldl ItemOpt.apply a) := by
  have hnil : ∀ a b : ItemAttrs, itemLoop P [] a = some b ↔ ∃ os, Listed (ReadsItem P) [] os ∧
      Fresh a.pairs (ItemOpt.pairs os) ∧ b = os.foldl ItemOpt.apply a := by
    intro a b
    rw [itemLoop.eq_def]
    simp only [Listed.nil_iff (R := ReadsItem P) (by rintro r (_ | _ | _) <;> simp [ReadsItem]),
      Option.some.injEq]
    constructor
    · rintro rfl; exact ⟨[], rfl, fresh_nil _, rfl⟩
    · rintro ⟨l, rfl, _, rfl⟩; rfl
  intro n
  induction n with
  | zero =>
    intro ts a b h
    have : ts = [] := by cases ts <;> simp at h ⊢
    subst this; exact hnil a b
  | succ n ih =>
    intro ts a b h
    by_cases hts : ts = []
    · subst hts; exact hnil a b
    by_cases hsh : ∃ s c r, ts = .ident s :: .paren c :: r
    · obtain ⟨s, c, r, rfl⟩ := hsh
      have hr : (skipComma r).length ≤ n := by have := skipComma_le r; simp at h; omega
      have hread : ∀ {o os}, Listed (ReadsItem P) (.ident s :: .paren c :: r) (o :: os) →
          ReadsItem P (.ident s :: .paren c :: r) r o ∧ Listed (ReadsItem P) (skipComma r) os := by
        intro o os hl
        obtain ⟨r', h1, h2⟩ := Listed.unstep (readsItem_noComma P) hl
        have : r' = r := by
          cases o <;> simp only [ReadsItem] at h1
          · obtain ⟨_, h1, _⟩ := h1; simp at h1; exact h1.2.2.symm
          · obtain ⟨_, h1, _⟩ := h1; simp at h1; exact h1.2.2.symm
          · obtain ⟨_, _, h1, _⟩ := h1; simp at h1; exact h1.2.2.symm
        subst this
        exact ⟨h1, h2⟩
      have key : ∀ (a' : ItemAttrs),
          (∀ o os, Listed (ReadsItem P) (.ident s :: .paren c :: r) (o :: os) →
            Fresh a.pairs (ItemOpt.pairs (o :: os)) →
            Fresh a'.pairs (ItemOpt.pairs os) ∧ ItemOpt.apply a o = a') →
          (∃ o, ReadsItem P (.ident s :: .paren c :: r) r o ∧ a' = ItemOpt.apply a o ∧
            ∀ os, Fresh a'.pairs (ItemOpt.pairs os) → Fresh a.pairs (ItemOpt.pairs (o :: os))) →
          (itemLoop P (skipComma r) a' = some b ↔ ∃ os, Listed (ReadsItem P) (.ident s :: .paren c :: r) os ∧
            Fresh a.pairs (ItemOpt.pairs os) ∧ b = os.foldl ItemOpt.apply a) := by
        intro a' hall hex
        rw [ih _ _ _ hr]
        constructor
        · rintro ⟨os, hl, hf, rfl⟩
          obtain ⟨o, ho, rfl, hf'⟩ := hex
          exact ⟨o :: os, Listed.step ho hl, hf' os hf, rfl⟩
        · rintro ⟨os, hl, hf, rfl⟩
          cases os with
          | nil => cases hl
          | cons o os =>
            obtain ⟨h1, h2⟩ := hall o os hl hf
            exact ⟨os, (hread hl).2, h1, by rw [List.foldl_cons, h2]⟩
      have none_ : (∀ o os, Listed (ReadsItem P) (.ident s :: .paren c :: r) (o :: os) →
            Fresh a.pairs (ItemOpt.pairs (o :: os)) → False) →
          ((none : Option ItemAttrs) = some b ↔ ∃ os, Listed (ReadsItem P) (.ident s :: .paren c :: r) os ∧
            Fresh a.pairs (ItemOpt.pairs os) ∧ b = os.foldl ItemOpt.apply a) := by
        intro hno
        simp only [reduceCtorEq, false_iff]
        rintro ⟨os, hl, hf, _⟩
        cases os with
        | nil => cases hl
        | cons o os => exact hno o os hl hf
      rw [itemLoop.eq_def]
      simp only
      by_cases hs : s = "opt_out"
      · subst hs
        simp only [if_true]
        have hcase : ∀ {o os}, Listed (ReadsItem P) (.ident "opt_out" :: .paren c :: r) (o :: os) →
            ∃ l, o = .optOut l ∧ Listed ReadsTrait c l := by
          intro o os hl
          have := (hread hl).1
          cases o <;> simp [ReadsItem] at this
          exact ⟨_, rfl, this⟩
        cases ho : optOutLoop c a with
        | none =>
          refine none_ ?_
          intro o os hl _
          obtain ⟨l, rfl, hl'⟩ := hcase hl
          have := (optOutLoop_iff _ c a _ (Nat.le_refl _)).mpr ⟨l, hl', rfl⟩
          rw [ho] at this; cases this
        | some a' =>
          refine key a' ?_ ?_
          · intro o os hl hf
            obtain ⟨l, rfl, hl'⟩ := hcase hl
            have := (optOutLoop_iff _ c a _ (Nat.le_refl _)).mpr ⟨l, hl', rfl⟩
            rw [ho] at this; cases this
            exact ⟨by simpa [ItemOpt.pairs, ItemAttrs.addTraits] using hf, rfl⟩
          · obtain ⟨l, hl, rfl⟩ := (optOutLoop_iff _ c a _ (Nat.le_refl _)).mp ho
            refine ⟨.optOut l, ⟨c, rfl, hl⟩, rfl, ?_⟩
            intro os hf
            simpa [ItemOpt.pairs, ItemAttrs.addTraits] using hf
      by_cases hs2 : s = "meta"
      · subst hs2
        simp only [if_neg hs, if_true]
        have hcase : ∀ {o os}, Listed (ReadsItem P) (.ident "meta" :: .paren c :: r) (o :: os) →
            ∃ l, o = .meta l ∧ Listed (ReadsPair P) c l := by
          intro o os hl
          have := (hread hl).1
          cases o <;> simp [ReadsItem] at this
          exact ⟨_, rfl, this⟩
        have hsplit : ∀ l os, ItemOpt.pairs (.meta l :: os) = l ++ ItemOpt.pairs os := by
          intro l os; simp [ItemOpt.pairs]
        cases ho : metaLoop P c a.pairs with
        | none =>
          refine none_ ?_
          intro o os hl hf
          obtain ⟨l, rfl, hl'⟩ := hcase hl
          rw [hsplit, fresh_append] at hf
          have := (metaLoop_iff' P c a.pairs _).mpr ⟨l, hl', hf.1, rfl⟩
          rw [ho] at this; cases this
        | some m =>
          refine key _ ?_ ?_
          · intro o os hl hf
            obtain ⟨l, rfl, hl'⟩ := hcase hl
            rw [hsplit, fresh_append] at hf
            have := (metaLoop_iff' P c a.pairs _).mpr ⟨l, hl', hf.1, rfl⟩
            rw [ho] at this; cases this
            exact ⟨hf.2, rfl⟩
          · obtain ⟨l, hl, hfr, rfl⟩ := (metaLoop_iff' P c a.pairs _).mp ho
            refine ⟨.meta l, ⟨c, rfl, hl⟩, rfl, ?_⟩
            intro os hf
            rw [hsplit, fresh_append]
            exact ⟨hfr, hf⟩
      by_cases hs3 : s = "crate_name"
      · subst hs3
        simp only [if_neg hs, if_neg hs2, if_true]
        have hcase : ∀ {o os}, Listed (ReadsItem P) (.ident "crate_name" :: .paren c :: r) (o :: os) →
            ∃ n, o = .crateName c ∧ P.useTree c = some n ∧ c.length ≤ n := by
          intro o os hl
          have := (hread hl).1
          cases o <;> simp only [ReadsItem, List.cons.injEq, Tok.ident.injEq, String.reduceEq, false_and,
            exists_false] at this
          obtain ⟨c', n, ⟨_, h0, _⟩, h1, h2, rfl⟩ := this
          cases h0
          exact ⟨n, rfl, h1, h2⟩
        cases hu : P.useTree c with
        | none =>
          refine none_ ?_
          intro o os hl _
          obtain ⟨n, _, h1, _⟩ := hcase hl
          rw [hu] at h1; cases h1
        | some k =>
          simp only
          by_cases hd : c.drop k = []
          · rw [if_pos hd]
            rw [List.drop_eq_nil_iff] at hd
            rw [List.take_of_length_le hd]
            refine key _ ?_ ?_
            · intro o os hl hf
              obtain ⟨n, rfl, h1, _⟩ := hcase hl
              exact ⟨by simpa [ItemOpt.pairs] using hf, rfl⟩
            · refine ⟨.crateName c, ⟨c, k, rfl, hu, hd, rfl⟩, rfl, ?_⟩
              intro os hf
              simpa [ItemOpt.pairs] using hf
          · rw [if_neg hd]
            refine none_ ?_
            intro o os hl _
            obtain ⟨n, _, h1, h2⟩ := hcase hl
            rw [hu] at h1; cases h1
            exact hd (List.drop_eq_nil_iff.mpr h2)
      · simp only [if_neg hs, if_neg hs2, if_neg hs3]
        refine none_ ?_
        intro o os hl _
        have := (hread hl).1
        cases o <;> simp [ReadsItem, hs, hs2, hs3] at this
    · have hno : itemLoop P ts a = none := by
        rw [itemLoop.eq_def]
        split
        · exact absurd rfl hts
        · exact absurd ⟨_, _, _, rfl⟩ hsh
        · rfl
      rw [hno]
      simp only [reduceCtorEq, false_iff]
      rintro ⟨os, hl, _⟩
      cases os with
      | nil => cases hl; exact hts rfl
      | cons o os =>
        obtain ⟨r', h1, _⟩ := Listed.unstep (readsItem_noComma P) hl
        cases o <;> simp only [ReadsItem] at h1
        · obtain ⟨c, h1, _⟩ := h1; exact hsh ⟨_, _, _, h1⟩
        · obtain ⟨c, h1, _⟩ := h1; exact hsh ⟨_, _, _, h1⟩
        · obtain ⟨c, _, h1, _⟩ := h1; exact hsh ⟨_, _, _, h1⟩

/-! ## The options of a variant or field -/

/-- The effect of an option. -/
def FieldOpt.apply (a : InnerAttrs) : FieldOpt → InnerAttrs
  | .skip => { a with skip := true }
  | .meta ps => { a with pairs := addPairs a.pairs ps }
  | .with f => { a with fromReflectWith := some f }

theorem withContent_iff (P : SynParsers) (c : List Tok) (f : String) :
    withContent P c = some f ↔ P.reserved f = false ∧ (c = [.ident f] ∨ c = [.ident f, .comma]) := by
  have hsk : ∀ r, skipComma r = [] ↔ r = [] ∨ r = [.comma] := by
    intro r; unfold skipComma; split
    · next r' => simp
    · next r' h =>
      constructor
      · exact .inl
      · rintro (h' | h')
        · exact h'
        · subst h'; exact absurd rfl (h [])
  cases c with
  | nil => simp [withContent]
  | cons t r =>
    cases t with
    | ident g =>
      simp only [withContent]
      by_cases hres : P.reserved g = true
      · rw [if_pos hres]
        simp only [reduceCtorEq, List.cons.injEq, Tok.ident.injEq, false_iff]
        rintro ⟨h, ⟨rfl, _⟩ | ⟨rfl, _⟩⟩ <;> simp [hres] at h
      · rw [if_neg hres]
        by_cases hr : skipComma r = []
        · rw [if_pos hr]
          simp only [Option.some.injEq, List.cons.injEq, Tok.ident.injEq]
          constructor
          · rintro rfl
            refine ⟨by simpa using hres, ?_⟩
            rcases (hsk r).mp hr with h | h
            · exact .inl ⟨rfl, h⟩
            · exact .inr ⟨rfl, h⟩
          · rintro ⟨_, ⟨h, _⟩ | ⟨h, _⟩⟩ <;> exact h
        · rw [if_neg hr]
          simp only [reduceCtorEq, List.cons.injEq, Tok.ident.injEq, false_iff]
          rintro ⟨_, ⟨_, h⟩ | ⟨_, h⟩⟩
          · exact hr ((hsk r).mpr (.inl h))
          · exact hr ((hsk r).mpr (.inr h))
    | _ => simp [withContent]

theorem innerLoop_iff (P : SynParsers) : ∀ (n : Nat) (ts : List Tok) (a b : InnerAttrs), ts.length ≤ n →
    (innerLoop P ts a = some b ↔ ∃ os, Listed (ReadsField P) ts os ∧ Fresh a.pairs (FieldOpt.pairs os) ∧
      b = os.foldl FieldOpt.apply a) := by
  have hnil : ∀ a b : InnerAttrs, innerLoop P [] a = some b ↔ ∃ os, Listed (ReadsField P) [] os ∧
      Fresh a.pairs (FieldOpt.pairs os) ∧ b = os.foldl FieldOpt.apply a := by
    intro a b
    rw [innerLoop.eq_def]
    simp only [Listed.nil_iff (R := ReadsField P) (by rintro r (_ | _ | _) <;> simp [ReadsField]),
      Option.some.injEq]
    constructor
    · rintro rfl; exact ⟨[], rfl, fresh_nil _, rfl⟩
    · rintro ⟨l, rfl, _, rfl⟩; rfl
  intro n
  induction n with
  | zero =>
    intro ts a b h
    have : ts = [] := by cases ts <;> simp at h ⊢
    subst this; exact hnil a b
  | succ n ih =>
    intro ts a b h
    have key : ∀ (r : List Tok) (a' : InnerAttrs), (skipComma r).length ≤ n →
        (∀ o os r', ReadsField P ts r' o → Fresh a.pairs (FieldOpt.pairs (o :: os)) →
          r' = r ∧ Fresh a'.pairs (FieldOpt.pairs os) ∧ FieldOpt.apply a o = a') →
        (∃ o, ReadsField P ts r o ∧ a' = FieldOpt.apply a o ∧
          ∀ os, Fresh a'.pairs (FieldOpt.pairs os) → Fresh a.pairs (FieldOpt.pairs (o :: os))) → ts ≠ [] →
        (innerLoop P (skipComma r) a' = some b ↔ ∃ os, Listed (ReadsField P) ts os ∧
          Fresh a.pairs (FieldOpt.pairs os) ∧ b = os.foldl FieldOpt.apply a) := by
      intro r a' hr hall hex hne
      rw [ih _ _ _ hr]
      constructor
      · rintro ⟨os, hl, hf, rfl⟩
        obtain ⟨o, ho, rfl, hf'⟩ := hex
        exact ⟨o :: os, Listed.step ho hl, hf' os hf, rfl⟩
      · rintro ⟨os, hl, hf, rfl⟩
        cases os with
        | nil => cases hl; exact absurd rfl hne
        | cons o os =>
          obtain ⟨r', hrd, hl'⟩ := Listed.unstep (readsField_noComma P) hl
          obtain ⟨rfl, h1, h2⟩ := hall o os r' hrd hf
          exact ⟨os, hl', h1, by rw [List.foldl_cons, h2]⟩
    have none_ : ts ≠ [] → (∀ o os r', ReadsField P ts r' o → Fresh a.pairs (FieldOpt.pairs (o :: os)) → False) →
        ((none : Option InnerAttrs) = some b ↔ ∃ os, Listed (ReadsField P) ts os ∧
          Fresh a.pairs (FieldOpt.pairs os) ∧ b = os.foldl FieldOpt.apply a) := by
      intro hne hno
      simp only [reduceCtorEq, false_iff]
      rintro ⟨os, hl, hf, _⟩
      cases os with
      | nil => cases hl; exact hne rfl
      | cons o os =>
        obtain ⟨r', hrd, _⟩ := Listed.unstep (readsField_noComma P) hl
        exact hno o os r' hrd hf
    cases ts with
    | nil => exact hnil a b
    | cons t r =>
      cases t with
      | ident s =>
        rw [innerLoop.eq_def]
        simp only
        by_cases hs : s = "skip"
        · subst hs
          rw [if_pos rfl]
          refine key r _ (by have := skipComma_le r; simp at h; omega) ?_ ?_ (by simp)
          · intro o os r' hrd hf
            cases o <;> simp [ReadsField] at hrd
            exact ⟨hrd.symm, by simpa [FieldOpt.pairs] using hf, rfl⟩
          · exact ⟨.skip, rfl, rfl, fun os hf => by simpa [FieldOpt.pairs] using hf⟩
        rw [if_neg hs]
        by_cases hc : ∃ c r', r = .paren c :: r'
        · obtain ⟨c, r', rfl⟩ := hc
          have hlen : (skipComma r').length ≤ n := by have := skipComma_le r'; simp at h; omega
          simp only
          by_cases hs2 : s = "meta"
          · subst hs2
            simp only [if_true]
            have hsplit : ∀ l os, FieldOpt.pairs (.meta l :: os) = l ++ FieldOpt.pairs os := by
              intro l os; simp [FieldOpt.pairs]
            have hcase : ∀ {o r''}, ReadsField P (.ident "meta" :: .paren c :: r') r'' o →
                r'' = r' ∧ ∃ l, o = .meta l ∧ Listed (ReadsPair P) c l := by
              intro o r'' hrd
              cases o <;> simp only [ReadsField, List.cons.injEq, Tok.ident.injEq, String.reduceEq, false_and,
                exists_false, or_self, and_false] at hrd
              obtain ⟨c', ⟨_, h0, rfl⟩, hl⟩ := hrd
              cases h0
              exact ⟨rfl, _, rfl, hl⟩
            cases ho : metaLoop P c a.pairs with
            | none =>
              refine none_ (by simp) ?_
              intro o os r'' hrd hf
              obtain ⟨_, l, rfl, hl'⟩ := hcase hrd
              rw [hsplit, fresh_append] at hf
              have := (metaLoop_iff' P c a.pairs _).mpr ⟨l, hl', hf.1, rfl⟩
              rw [ho] at this; cases this
            | some m =>
              refine key r' _ hlen ?_ ?_ (by simp)
              · intro o os r'' hrd hf
                obtain ⟨rfl, l, rfl, hl'⟩ := hcase hrd
                rw [hsplit, fresh_append] at hf
                have := (metaLoop_iff' P c a.pairs _).mpr ⟨l, hl', hf.1, rfl⟩
                rw [ho] at this; cases this
                exact ⟨rfl, hf.2, rfl⟩
              · obtain ⟨l, hl, hfr, rfl⟩ := (metaLoop_iff' P c a.pairs _).mp ho
                refine ⟨.meta l, ⟨c, rfl, hl⟩, rfl, ?_⟩
                intro os hf
                rw [hsplit, fresh_append]
                exact ⟨hfr, hf⟩
          rw [if_neg hs2]
          by_cases hs3 : s = "from_reflect_with"
          · subst hs3
            simp only [if_true]
            have hcase : ∀ {o r''}, ReadsField P (.ident "from_reflect_with" :: .paren c :: r') r'' o →
                r'' = r' ∧ ∃ f, o = .with f ∧ withContent P c = some f := by
              intro o r'' hrd
              cases o <;> simp [ReadsField] at hrd
              obtain ⟨hres, ⟨rfl, rfl⟩ | ⟨rfl, rfl⟩⟩ := hrd
              · exact ⟨rfl, _, rfl, (withContent_iff _ _ _).mpr ⟨hres, .inl rfl⟩⟩
              · exact ⟨rfl, _, rfl, (withContent_iff _ _ _).mpr ⟨hres, .inr rfl⟩⟩
            cases ho : withContent P c with
            | none =>
              refine none_ (by simp) ?_
              intro o os r'' hrd hf
              obtain ⟨_, f, rfl, h1⟩ := hcase hrd
              rw [ho] at h1; cases h1
            | some f =>
              refine key r' _ hlen ?_ ?_ (by simp)
              · intro o os r'' hrd hf
                obtain ⟨rfl, g, rfl, h1⟩ := hcase hrd
                rw [ho] at h1; cases h1
                exact ⟨rfl, by simpa [FieldOpt.pairs] using hf, rfl⟩
              · obtain ⟨hres, h1⟩ := (withContent_iff _ _ _).mp ho
                refine ⟨.with f, ⟨hres, ?_⟩, rfl, fun os hf => by simpa [FieldOpt.pairs] using hf⟩
                rcases h1 with rfl | rfl
                · exact .inl rfl
                · exact .inr rfl
          · rw [if_neg hs3]
            refine none_ (by simp) ?_
            intro o os r'' hrd hf
            cases o <;> simp [ReadsField, hs, hs2, hs3] at hrd
        · split
          · exact absurd ⟨_, _, rfl⟩ hc
          · refine none_ (by simp) ?_
            intro o os r'' hrd hf
            cases o <;> simp [ReadsField, hs] at hrd
            · obtain ⟨c, ⟨_, h1⟩, _⟩ := hrd; exact hc ⟨_, _, h1⟩
            · obtain ⟨_, ⟨_, h1⟩ | ⟨_, h1⟩⟩ := hrd
              · exact hc ⟨_, _, h1⟩
              · exact hc ⟨_, _, h1⟩
      | _ =>
        rw [innerLoop.eq_def]
        simp only
        refine none_ (by simp) ?_
        intro o os r'' hrd hf
        cases o <;> simp [ReadsField] at hrd

/-! ## What the options amount to -/

theorem foldl_itemOpt_meaning (os : List ItemOpt) (a : ItemAttrs) (hs : BMSorted strCmp a.pairs)
    (hf : Fresh a.pairs (ItemOpt.pairs os)) :
    ((os.foldl ItemOpt.apply a).debugOptOut = true ↔
      a.debugOptOut = true ∨ ∃ l, .optOut l ∈ os ∧ .debug ∈ l) ∧
    ((os.foldl ItemOpt.apply a).cloneOptOut = true ↔
      a.cloneOptOut = true ∨ ∃ l, .optOut l ∈ os ∧ .clone ∈ l) ∧
    ((os.foldl ItemOpt.apply a).fromReflectOptOut = true ↔
      a.fromReflectOptOut = true ∨ ∃ l, .optOut l ∈ os ∧ .fromReflect ∈ l) ∧
    (os.foldl ItemOpt.apply a).crateName = (ItemOpt.crates os).getLast?.getD a.crateName ∧
    BMSorted strCmp (os.foldl ItemOpt.apply a).pairs ∧
    (os.foldl ItemOpt.apply a).pairs.Perm (a.pairs ++ ItemOpt.pairs os) ∧
    (os.foldl ItemOpt.apply a).docs = a.docs := by
  induction os generalizing a with
  | nil => simp [ItemOpt.pairs, ItemOpt.crates, hs]
  | cons o os ih =>
    cases o with
    | optOut l =>
      obtain ⟨h1, h2, h3, h4, h5, h6, h7⟩ := ih (a.addTraits l) hs
        (by simpa [ItemOpt.pairs, ItemAttrs.addTraits] using hf)
      simp only [List.foldl_cons, ItemOpt.apply]
      refine ⟨?_, ?_, ?_, ?_, h5, ?_, h7⟩
      · rw [h1]; simp [ItemAttrs.addTraits, or_assoc]
      · rw [h2]; simp [ItemAttrs.addTraits, or_assoc]
      · rw [h3]; simp [ItemAttrs.addTraits, or_assoc]
      · rw [h4]; simp [ItemAttrs.addTraits, ItemOpt.crates]
      · simpa [ItemAttrs.addTraits, ItemOpt.pairs] using h6
    | «meta» ps =>
      have hsplit : ItemOpt.pairs (.meta ps :: os) = ps ++ ItemOpt.pairs os := by simp [ItemOpt.pairs]
      rw [hsplit, fresh_append] at hf
      obtain ⟨h1, h2, h3, h4, h5, h6, h7⟩ := ih { a with pairs := addPairs a.pairs ps }
        (addPairs_sorted hs) hf.2
      simp only [List.foldl_cons, ItemOpt.apply]
      refine ⟨?_, ?_, ?_, ?_, h5, ?_, h7⟩
      · rw [h1]; simp
      · rw [h2]; simp
      · rw [h3]; simp
      · rw [h4]; simp [ItemOpt.crates]
      · rw [hsplit, ← List.append_assoc]
        exact h6.trans ((addPairs_perm hf.1.1 hf.1.2).append_right _)
    | crateName p =>
      obtain ⟨h1, h2, h3, h4, h5, h6, h7⟩ := ih { a with crateName := p } hs
        (by simpa [ItemOpt.pairs] using hf)
      simp only [List.foldl_cons, ItemOpt.apply]
      refine ⟨?_, ?_, ?_, ?_, h5, ?_, h7⟩
      · rw [h1]; simp
      · rw [h2]; simp
      · rw [h3]; simp
      · rw [h4]; simp [ItemOpt.crates, List.getLast?_cons]
      · simpa [ItemOpt.pairs] using h6

theorem foldl_fieldOpt_meaning (os : List FieldOpt) (a : InnerAttrs) (hs : BMSorted strCmp a.pairs)
    (hf : Fresh a.pairs (FieldOpt.pairs os)) :
    ((os.foldl FieldOpt.apply a).skip = true ↔ a.skip = true ∨ .skip ∈ os) ∧
    (os.foldl FieldOpt.apply a).fromReflectWith = (FieldOpt.withs os).getLast?.or a.fromReflectWith ∧
    BMSorted strCmp (os.foldl FieldOpt.apply a).pairs ∧
    (os.foldl FieldOpt.apply a).pairs.Perm (a.pairs ++ FieldOpt.pairs os) ∧
    (os.foldl FieldOpt.apply a).docs = a.docs := by
  induction os generalizing a with
  | nil => simp [FieldOpt.pairs, FieldOpt.withs, hs]
  | cons o os ih =>
    cases o with
    | skip =>
      obtain ⟨h1, h4, h5, h6, h7⟩ := ih { a with skip := true } hs (by simpa [FieldOpt.pairs] using hf)
      simp only [List.foldl_cons, FieldOpt.apply]
      refine ⟨?_, ?_, h5, ?_, h7⟩
      · rw [h1]; simp
      · rw [h4]; simp [FieldOpt.withs]
      · simpa [FieldOpt.pairs] using h6
    | «meta» ps =>
      have hsplit : FieldOpt.pairs (.meta ps :: os) = ps ++ FieldOpt.pairs os := by simp [FieldOpt.pairs]
      rw [hsplit, fresh_append] at hf
      obtain ⟨h1, h4, h5, h6, h7⟩ := ih { a with pairs := addPairs a.pairs ps }
        (addPairs_sorted hs) hf.2
      simp only [List.foldl_cons, FieldOpt.apply]
      refine ⟨?_, ?_, h5, ?_, h7⟩
      · rw [h1]; simp
      · rw [h4]; simp [FieldOpt.withs]
      · rw [hsplit, ← List.append_assoc]
        exact h6.trans ((addPairs_perm hf.1.1 hf.1.2).append_right _)
    | «with» f =>
      obtain ⟨h1, h4, h5, h6, h7⟩ := ih { a with fromReflectWith := some f } hs
        (by simpa [FieldOpt.pairs] using hf)
      simp only [List.foldl_cons, FieldOpt.apply]
      refine ⟨?_, ?_, h5, ?_, h7⟩
      · rw [h1]; simp
      · rw [h4]; simp [FieldOpt.withs, List.getLast?_cons]
      · simpa [FieldOpt.pairs] using h6

theorem sorted_perm_eq {m m' : List (String × List Tok)} (hs : BMSorted strCmp m) (hs' : BMSorted strCmp m')
    (hp : m.Perm m') : m = m' := by
  have h1 := bmOfList_eq_of_perm strCmpOn (fun _ _ => trivial) hs' hp
  have h2 := bmOfList_self strCmpOn (fun _ _ => trivial) hs
  rw [← h1, h2]

theorem bool_eq_of_iff {a b : Bool} (h : a = true ↔ b = true) : a = b := by
  cases a <;> cases b <;> simp_all

theorem ItemMeaning.unique {os os' docs a b} (h : ItemMeaning os docs a) (h' : ItemMeaning os' docs b)
    (ht : ∀ t : OptTrait, (∃ l, .optOut l ∈ os ∧ t ∈ l) ↔ (∃ l, .optOut l ∈ os' ∧ t ∈ l))
    (hc : (ItemOpt.crates os).getLast? = (ItemOpt.crates os').getLast?)
    (hp : (ItemOpt.pairs os).Perm (ItemOpt.pairs os')) : a = b := by
  obtain ⟨a1, a2, a3, a4, a5, a6⟩ := a
  obtain ⟨b1, b2, b3, b4, b5, b6⟩ := b
  have e1 : a1 = b1 := bool_eq_of_iff ((h.debug.trans (ht _)).trans h'.debug.symm)
  have e2 : a2 = b2 := bool_eq_of_iff ((h.clone.trans (ht _)).trans h'.clone.symm)
  have e3 : a3 = b3 := bool_eq_of_iff ((h.fromReflect.trans (ht _)).trans h'.fromReflect.symm)
  have e4 : a4 = b4 := by have := h.crate; have h2 := h'.crate; simp only at this h2; rw [this, h2, hc]
  have e5 : a5 = b5 := sorted_perm_eq h.sorted h'.sorted ((h.pairs.trans hp).trans h'.pairs.symm)
  have e6 : a6 = b6 := by have := h.docs; have h2 := h'.docs; simp only at this h2; rw [this, h2]
  rw [e1, e2, e3, e4, e5, e6]

theorem FieldMeaning.unique {os os' docs a b} (h : FieldMeaning os docs a) (h' : FieldMeaning os' docs b)
    (ht : .skip ∈ os ↔ .skip ∈ os')
    (hc : (FieldOpt.withs os).getLast? = (FieldOpt.withs os').getLast?)
    (hp : (FieldOpt.pairs os).Perm (FieldOpt.pairs os')) : a = b := by
  obtain ⟨a1, a2, a3, a4⟩ := a
  obtain ⟨b1, b2, b3, b4⟩ := b
  have e1 : a1 = b1 := bool_eq_of_iff ((h.skip.trans ht).trans h'.skip.symm)
  have e2 : a2 = b2 := sorted_perm_eq h.sorted h'.sorted ((h.pairs.trans hp).trans h'.pairs.symm)
  have e3 : a3 = b3 := by have := h.docs; have h2 := h'.docs; simp only at this h2; rw [this, h2]
  have e4 : a4 = b4 := by have := h.with; have h2 := h'.with; simp only at this h2; rw [this, h2, hc]
  rw [e1, e2, e3, e4]

theorem docLines_eq (as : List SAttr) : docLines as = DocsOf as := by
  induction as with
  | nil => rfl
  | cons a as ih =>
    have hd : docLines (a :: as) = (if a.isIdent "doc" then
        (match a.body with | .text s => [s] | _ => []) else []) ++ docLines as := by
      simp only [docLines, List.filter_cons]
      split
      · simp only [List.filterMap_cons]
        cases a.body <;> simp
      · simp
    rw [hd, ih]
    obtain ⟨p, b⟩ := a
    by_cases hp : p = ["doc"]
    · subst hp
      cases b <;> simp [SAttr.isIdent, DocsOf]
    · have : DocsOf (⟨p, b⟩ :: as) = DocsOf as := by
        rw [DocsOf.eq_def]
        split
        · next h => cases h
        · next h => cases h; exact absurd rfl hp
        · next h => cases h; rfl
      simp [SAttr.isIdent, hp, this]

/-- The attributes called `reflect`: none, one, or more. -/
theorem reflect_filter (as : List SAttr) :
    ((as.filter fun a => a.isIdent "reflect") = [] ↔ ∀ a ∈ as, a.path ≠ ["reflect"]) ∧
    ∀ x, ((as.filter fun a => a.isIdent "reflect") = [x] ↔
      ∃ l r, as = l ++ x :: r ∧ x.path = ["reflect"] ∧ ∀ a ∈ l ++ r, a.path ≠ ["reflect"]) := by
  constructor
  · simp [List.filter_eq_nil_iff, SAttr.isIdent]
  · intro x
    constructor
    · intro h
      have hx : x ∈ as.filter fun a => a.isIdent "reflect" := by rw [h]; simp
      rw [List.mem_filter] at hx
      obtain ⟨hx, hp⟩ := hx
      obtain ⟨l, r, rfl⟩ := List.append_of_mem hx
      rw [List.filter_append, List.filter_cons, if_pos hp] at h
      have hlen := congrArg List.length h
      simp only [List.length_append, List.length_cons, List.length_nil] at hlen
      have hl : (l.filter fun a => a.isIdent "reflect") = [] := by
        rw [← List.length_eq_zero_iff]; omega
      have hr : (r.filter fun a => a.isIdent "reflect") = [] := by
        rw [← List.length_eq_zero_iff]; omega
      rw [List.filter_eq_nil_iff] at hl hr
      refine ⟨l, r, rfl, by simpa [SAttr.isIdent] using hp, ?_⟩
      intro a ha
      rw [List.mem_append] at ha
      rcases ha with ha | ha
      · simpa [SAttr.isIdent] using hl a ha
      · simpa [SAttr.isIdent] using hr a ha
    · rintro ⟨l, r, rfl, hp, hn⟩
      have hl : (l.filter fun a => a.isIdent "reflect") = [] := by
        rw [List.filter_eq_nil_iff]; intro a ha; simpa [SAttr.isIdent] using hn a (by simp [ha])
      have hr : (r.filter fun a => a.isIdent "reflect") = [] := by
        rw [List.filter_eq_nil_iff]; intro a ha; simpa [SAttr.isIdent] using hn a (by simp [ha])
      rw [List.filter_append, List.filter_cons, hl, hr, if_pos (by simp [SAttr.isIdent, hp])]
      rfl

/-! ## Uniqueness -/

/-- Reading is a function of the stream. -/
def ReadsOne {α : Type} (R : List Tok → List Tok → α → Prop) : Prop :=
  ∀ ts r r' x x', R ts r x → R ts r' x' → x = x' ∧ r = r'

theorem Listed.unique {α : Type} {R : List Tok → List Tok → α → Prop} (hR : ReadsOne R) (hn : NoComma R)
    (h0 : ∀ rest x, ¬ R [] rest x) {ts : List Tok} {xs ys : List α} (hx : Listed R ts xs)
    (hy : Listed R ts ys) : xs = ys := by
  induction xs generalizing ts ys with
  | nil =>
    cases hx
    exact ((Listed.nil_iff h0).mp hy).symm
  | cons x xs ih =>
    obtain ⟨r, h1, h2⟩ := Listed.unstep hn hx
    cases ys with
    | nil => cases hy; exact absurd h1 (h0 _ _)
    | cons y ys =>
      obtain ⟨r', h1', h2'⟩ := Listed.unstep hn hy
      obtain ⟨rfl, rfl⟩ := hR _ _ _ _ _ h1 h1'
      rw [ih h2 h2']

theorem readsTrait_one : ReadsOne ReadsTrait := by
  intro ts r r' x x' h h'
  simp only [ReadsTrait] at h h'
  rw [h] at h'
  simp only [List.cons.injEq, Tok.ident.injEq] at h'
  refine ⟨?_, h'.2⟩
  cases x <;> cases x' <;> simp [OptTrait.spelling] at h' <;> rfl

theorem readsPair_one (P : SynParsers) : ReadsOne (ReadsPair P) := by
  rintro ts r r' ⟨k, e⟩ ⟨k', e'⟩ ⟨_, r1, n1, h1, h2, h3, h4⟩ ⟨_, r2, n2, h5, h6, h7, h8⟩
  rw [h1] at h5
  simp only [List.cons.injEq, Tok.ident.injEq, true_and] at h5
  obtain ⟨hk, rfl⟩ := h5
  rw [h2] at h6; cases h6
  simp only at h3 h7 hk
  exact ⟨by rw [hk, h3, h7], by rw [h4, h8]⟩

theorem traits_unique {ts : List Tok} {l l' : List OptTrait} (h : Listed ReadsTrait ts l)
    (h' : Listed ReadsTrait ts l') : l = l' :=
  h.unique readsTrait_one readsTrait_noComma (by simp [ReadsTrait]) h'

theorem pairs_unique {P : SynParsers} {ts : List Tok} {l l' : List (String × List Tok)}
    (h : Listed (ReadsPair P) ts l) (h' : Listed (ReadsPair P) ts l') : l = l' :=
  h.unique (readsPair_one P) (readsPair_noComma P) (by simp [ReadsPair]) h'

theorem readsItem_one (P : SynParsers) : ReadsOne (ReadsItem P) := by
  intro ts r r' x x' h h'
  cases x <;> cases x' <;> simp only [ReadsItem] at h h'
  · obtain ⟨c, rfl, h⟩ := h
    obtain ⟨c', h1, h'⟩ := h'
    simp only [List.cons.injEq, Tok.paren.injEq, true_and] at h1
    obtain ⟨rfl, rfl⟩ := h1
    exact ⟨by rw [traits_unique h h'], rfl⟩
  · obtain ⟨c, rfl, h⟩ := h; obtain ⟨c', h1, h'⟩ := h'; simp at h1
  · obtain ⟨c, rfl, h⟩ := h; obtain ⟨c', _, h1, h'⟩ := h'; simp at h1
  · obtain ⟨c, rfl, h⟩ := h; obtain ⟨c', h1, h'⟩ := h'; simp at h1
  · obtain ⟨c, rfl, h⟩ := h
    obtain ⟨c', h1, h'⟩ := h'
    simp only [List.cons.injEq, Tok.paren.injEq, true_and] at h1
    obtain ⟨rfl, rfl⟩ := h1
    exact ⟨by rw [pairs_unique h h'], rfl⟩
  · obtain ⟨c, rfl, h⟩ := h; obtain ⟨c', _, h1, h'⟩ := h'; simp at h1
  · obtain ⟨c, _, rfl, h⟩ := h; obtain ⟨c', h1, h'⟩ := h'; simp at h1
  · obtain ⟨c, _, rfl, h⟩ := h; obtain ⟨c', h1, h'⟩ := h'; simp at h1
  · obtain ⟨c, _, rfl, _, _, rfl⟩ := h
    obtain ⟨c', _, h1, _, _, rfl⟩ := h'
    simp only [List.cons.injEq, Tok.paren.injEq, true_and] at h1
    obtain ⟨rfl, rfl⟩ := h1
    exact ⟨rfl, rfl⟩

theorem readsField_one (P : SynParsers) : ReadsOne (ReadsField P) := by
  intro ts r r' x x' h h'
  cases x <;> cases x' <;> simp only [ReadsField] at h h'
  · subst h; simp only [List.cons.injEq, true_and] at h'; exact ⟨rfl, h'⟩
  · subst h; obtain ⟨c', h1, h'⟩ := h'; simp at h1
  · subst h; rcases h' with ⟨_, h1 | h1⟩ <;> simp at h1
  · subst h'; obtain ⟨c', h1, h'⟩ := h; simp at h1
  · obtain ⟨c, rfl, h⟩ := h
    obtain ⟨c', h1, h'⟩ := h'
    simp only [List.cons.injEq, Tok.paren.injEq, true_and] at h1
    obtain ⟨rfl, rfl⟩ := h1
    exact ⟨by rw [pairs_unique h h'], rfl⟩
  · obtain ⟨c, rfl, h⟩ := h; rcases h' with ⟨_, h1 | h1⟩ <;> simp at h1
  · subst h'; rcases h with ⟨_, h1 | h1⟩ <;> simp at h1
  · obtain ⟨c, rfl, _⟩ := h'; rcases h with ⟨_, h1 | h1⟩ <;> simp at h1
  · rcases h with ⟨_, rfl | rfl⟩ <;> rcases h' with ⟨_, h1 | h1⟩ <;> simp at h1 <;> simp [h1]

theorem reflect_unique {as l r l' r' : List SAttr} {ts ts' : List Tok}
    (h : as = l ++ ⟨["reflect"], .list ts⟩ :: r) (hn : ∀ a ∈ l ++ r, a.path ≠ ["reflect"])
    (h' : as = l' ++ ⟨["reflect"], .list ts'⟩ :: r') (hn' : ∀ a ∈ l' ++ r', a.path ≠ ["reflect"]) :
    ts = ts' := by
  have h1 := ((reflect_filter as).2 _).mpr ⟨l, r, h, rfl, hn⟩
  have h2 := ((reflect_filter as).2 _).mpr ⟨l', r', h', rfl, hn'⟩
  rw [h1] at h2
  simpa using h2

theorem perm_getLast_le_one {α : Type} {l m : List α} (h : l.Perm m) (hl : l.length ≤ 1) : l = m := by
  match l, m, h, hl with
  | [], m, h, _ => exact (List.nil_perm.mp h).symm
  | [x], m, h, _ => exact List.singleton_perm.mp h
  | _ :: _ :: _, _, _, h => simp at h

/-! ## Written-out options -/

theorem listed_flat {α β : Type} {R : List Tok → List Tok → β → Prop} (f : α → List Tok) (g : α → β)
    (hR : ∀ x rest, R (f x ++ rest) rest (g x)) (l : List (α × Bool)) :
    Listed R (l.flatMap fun p => f p.1 ++ optComma p.2) (l.map fun p => g p.1) := by
  induction l with
  | nil => exact .nil
  | cons p l ih =>
    obtain ⟨x, b⟩ := p
    simp only [List.flatMap_cons, List.map_cons, List.append_assoc]
    cases b
    · exact .cons (hR x _) ih
    · exact .comma (hR x _) ih

theorem pairsText_listed (P : SynParsers) (tr : Bool) (ps : List (String × List Tok))
    (h : ∀ p ∈ ps, P.reserved p.1 = false ∧ IsExpr P p.2) : Listed (ReadsPair P) (pairsText tr ps) ps := by
  induction ps with
  | nil => exact .nil
  | cons p ps ih =>
    obtain ⟨hres, he, hc⟩ := h p (by simp)
    cases ps with
    | nil =>
      simp only [pairsText]
      cases tr
      · simp only [optComma, Bool.false_eq_true, if_false, List.append_nil]
        exact .cons ⟨hres, p.2, _, rfl, he, by simp, by simp⟩ .nil
      · simp only [optComma, if_true]
        exact .comma (rest := []) ⟨hres, p.2 ++ [.comma], _, rfl, hc [], by simp, by simp⟩ .nil
    | cons q r =>
      simp only [pairsText]
      exact .comma (rest := pairsText tr (q :: r)) ⟨hres, _, _, rfl, hc _, by simp, by simp⟩
        (ih fun p hp => h p (by simp [hp]))

theorem itemText_listed (P : SynParsers) (l : List (ItemText × Bool)) (h : ∀ p ∈ l, p.1.Good P) :
    Listed (ReadsItem P) (l.flatMap fun p => p.1.tokens ++ optComma p.2) (l.map fun p => p.1.opt) := by
  induction l with
  | nil => exact .nil
  | cons p l ih =>
    obtain ⟨x, b⟩ := p
    have hx := h (x, b) (by simp)
    have hread : ∀ rest, ReadsItem P (x.tokens ++ rest) rest x.opt := by
      intro rest
      cases x with
      | optOut t =>
        refine ⟨_, rfl, ?_⟩
        exact listed_flat (fun t : OptTrait => [.ident t.spelling]) id (by intro x rest; rfl) t
      | «meta» ps tr => exact ⟨_, rfl, pairsText_listed P tr ps hx⟩
      | crateName p => exact ⟨_, _, rfl, hx, Nat.le_refl _, rfl⟩
    have ih := ih fun p hp => h p (by simp [hp])
    simp only [List.flatMap_cons, List.map_cons, List.append_assoc]
    cases b
    · exact .cons (hread _) ih
    · exact .comma (hread _) ih

theorem fieldText_listed (P : SynParsers) (l : List (FieldText × Bool)) (h : ∀ p ∈ l, p.1.Good P) :
    Listed (ReadsField P) (l.flatMap fun p => p.1.tokens ++ optComma p.2) (l.map fun p => p.1.opt) := by
  induction l with
  | nil => exact .nil
  | cons p l ih =>
    obtain ⟨x, b⟩ := p
    have hx := h (x, b) (by simp)
    have hread : ∀ rest, ReadsField P (x.tokens ++ rest) rest x.opt := by
      intro rest
      cases x with
      | skip => rfl
      | «meta» ps tr => exact ⟨_, rfl, pairsText_listed P tr ps hx⟩
      | «with» f tr =>
        refine ⟨hx, ?_⟩
        cases tr
        · exact .inl rfl
        · exact .inr rfl
    have ih := ih fun p hp => h p (by simp [hp])
    simp only [List.flatMap_cons, List.map_cons, List.append_assoc]
    cases b
    · exact .cons (hread _) ih
    · exact .comma (hread _) ih

end Mirror
