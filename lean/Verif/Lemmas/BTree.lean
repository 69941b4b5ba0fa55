import Verif.Lemmas.Order
import Verif.Model.Obj

/-!
# Lemmas about sorted association lists
-/

namespace Mirror

/-- `cmp` is a total order on the keys satisfying `P`. -/
structure CmpOn {κ : Type} (P : κ → Prop) (cmp : κ → κ → Ordering) : Prop where
  refl : ∀ a, P a → cmp a a = .eq
  swap : ∀ a b, P a → P b → cmp b a = (cmp a b).swap
  lt_trans : ∀ a b c, P a → P b → P c → cmp a b = .lt → cmp b c = .lt → cmp a c = .lt
  eq_trans : ∀ a b c, P a → P b → P c → cmp a b = .eq → cmp a c = cmp b c

section
variable {κ α : Type} {P : κ → Prop} {cmp : κ → κ → Ordering}

theorem CmpOn.gt_iff (h : CmpOn P cmp) {a b : κ} (ha : P a) (hb : P b) :
    cmp a b = .gt ↔ cmp b a = .lt := by
  rw [h.swap a b ha hb]; cases cmp a b <;> simp

theorem CmpOn.eq_symm (h : CmpOn P cmp) {a b : κ} (ha : P a) (hb : P b) (he : cmp a b = .eq) :
    cmp b a = .eq := by rw [h.swap a b ha hb, he]; rfl

theorem CmpOn.eq_trans_right (h : CmpOn P cmp) {a b c : κ} (ha : P a) (hb : P b) (hc : P c)
    (he : cmp a b = .eq) : cmp c a = cmp c b := by
  rw [h.swap a c ha hc, h.swap b c hb hc, h.eq_trans a b c ha hb hc he]

theorem valueCmpOn : CmpOn (fun _ : Value => True) Value.cmp where
  refl a _ := Value.cmp_self a
  swap a b _ _ := Value.cmp_swap a b
  lt_trans _ _ _ _ _ _ h h' := Value.cmp_lt_trans h h'
  eq_trans a b c _ _ _ h := by
    rw [Value.cmp_eq_iff] at h; rw [Value.cmp_enc, Value.cmp_enc, h]

theorem strCmpOn : CmpOn (fun _ : String => True) strCmp where
  refl a _ := (strCmp_eq_iff a a).mpr rfl
  swap a b _ _ := strCmp_swap a b
  lt_trans _ _ _ _ _ _ h h' := strCmp_lt_trans h h'
  eq_trans a b c _ _ _ h := by rw [strCmp_eq_iff] at h; rw [h]

/-- Keys of the entries of a map after an insertion. -/
theorem bmInsert_mem {k : κ} {v : α} {l : List (κ × α)} {p : κ × α}
    (h : p ∈ bmInsert cmp k v l) :
    p ∈ l ∨ p = (k, v) ∨ ∃ k' v', (k', v') ∈ l ∧ cmp k k' = .eq ∧ p = (k', v) := by
  induction l with
  | nil => simp [bmInsert] at h; simp [h]
  | cons q r ih =>
    obtain ⟨k', v'⟩ := q
    simp only [bmInsert] at h
    split at h
    · rcases List.mem_cons.mp h with h | h
      · exact .inr (.inl h)
      · exact .inl h
    · next heq =>
      rcases List.mem_cons.mp h with h | h
      · exact .inr (.inr ⟨k', v', by simp, heq, h⟩)
      · exact .inl (by simp [h])
    · rcases List.mem_cons.mp h with h | h
      · exact .inl (by simp [h])
      · rcases ih h with h | h | ⟨k'', v'', hm, he, hp⟩
        · exact .inl (by simp [h])
        · exact .inr (.inl h)
        · exact .inr (.inr ⟨k'', v'', by simp [hm], he, hp⟩)

theorem bmInsert_keys {k : κ} {v : α} {l : List (κ × α)} (hP : P k) (hl : ∀ p ∈ l, P p.1) :
    ∀ p ∈ bmInsert cmp k v l, P p.1 := by
  intro p hp
  rcases bmInsert_mem hp with h | h | ⟨k', v', hm, _, rfl⟩
  · exact hl p h
  · rw [h]; exact hP
  · exact hl (k', v') hm

theorem bmInsert_vals {Q : α → Prop} {k : κ} {v : α} {l : List (κ × α)} (hQ : Q v)
    (hl : ∀ p ∈ l, Q p.2) : ∀ p ∈ bmInsert cmp k v l, Q p.2 := by
  intro p hp
  rcases bmInsert_mem hp with h | h | ⟨k', v', hm, _, rfl⟩
  · exact hl p h
  · rw [h]; exact hQ
  · exact hQ

theorem bmInsert_sorted (hc : CmpOn P cmp) {k : κ} {v : α} {l : List (κ × α)} (hP : P k)
    (hl : ∀ p ∈ l, P p.1) (hs : BMSorted cmp l) : BMSorted cmp (bmInsert cmp k v l) := by
  induction l with
  | nil => simp [bmInsert, BMSorted]
  | cons q r ih =>
    obtain ⟨k', v'⟩ := q
    have hk' : P k' := hl (k', v') (by simp)
    have hr : ∀ p ∈ r, P p.1 := fun p hp => hl p (by simp [hp])
    simp only [BMSorted, List.pairwise_cons] at hs
    simp only [bmInsert]
    split
    · next h =>
      simp only [BMSorted, List.pairwise_cons]
      refine ⟨?_, hs.1, hs.2⟩
      intro p hp
      rcases List.mem_cons.mp hp with rfl | hp
      · exact h
      · exact hc.lt_trans _ _ _ hP hk' (hr p hp) h (hs.1 p hp)
    · next h =>
      simp only [BMSorted, List.pairwise_cons]
      exact ⟨hs.1, hs.2⟩
    · next h =>
      simp only [BMSorted, List.pairwise_cons]
      refine ⟨?_, ih hr hs.2⟩
      intro p hp
      rcases bmInsert_mem hp with h' | h' | ⟨k'', v'', hm, _, rfl⟩
      · exact hs.1 p h'
      · rw [h']; exact (hc.gt_iff hP hk').mp h
      · exact hs.1 (k'', v'') hm

theorem foldl_bmInsert_sorted (hc : CmpOn P cmp) (l : List (κ × α)) : ∀ (m : List (κ × α)),
    (∀ p ∈ l, P p.1) → (∀ p ∈ m, P p.1) → BMSorted cmp m →
    BMSorted cmp (l.foldl (fun m p => bmInsert cmp p.1 p.2 m) m) ∧
    ∀ p ∈ l.foldl (fun m p => bmInsert cmp p.1 p.2 m) m, P p.1 := by
  induction l with
  | nil => intro m _ hm hs; exact ⟨hs, hm⟩
  | cons q r ih =>
    intro m hl hm hs
    exact ih _ (fun p hp => hl p (by simp [hp])) (bmInsert_keys (hl q (by simp)) hm)
      (bmInsert_sorted hc (hl q (by simp)) hm hs)

theorem bmOfList_sorted (hc : CmpOn P cmp) {l : List (κ × α)} (hl : ∀ p ∈ l, P p.1) :
    BMSorted cmp (bmOfList cmp l) :=
  (foldl_bmInsert_sorted hc l [] hl (by simp) (by simp [BMSorted])).1

theorem bmOfList_keys (hc : CmpOn P cmp) {l : List (κ × α)} (hl : ∀ p ∈ l, P p.1) :
    ∀ p ∈ bmOfList cmp l, P p.1 :=
  (foldl_bmInsert_sorted hc l [] hl (by simp) (by simp [BMSorted])).2

theorem foldl_bmInsert_vals {Q : α → Prop} (l : List (κ × α)) : ∀ (m : List (κ × α)),
    (∀ p ∈ l, Q p.2) → (∀ p ∈ m, Q p.2) →
    ∀ p ∈ l.foldl (fun m p => bmInsert cmp p.1 p.2 m) m, Q p.2 := by
  induction l with
  | nil => intro m _ hm; exact hm
  | cons q r ih =>
    intro m hl hm
    exact ih _ (fun p hp => hl p (by simp [hp])) (bmInsert_vals (hl q (by simp)) hm)

theorem bmOfList_vals {Q : α → Prop} {l : List (κ × α)} (hl : ∀ p ∈ l, Q p.2) :
    ∀ p ∈ bmOfList cmp l, Q p.2 :=
  foldl_bmInsert_vals l [] hl (by simp)

/-- Inserting a key not yet present only adds an entry. -/
theorem bmInsert_perm {k : κ} {v : α} {l : List (κ × α)} (h : ∀ p ∈ l, cmp k p.1 ≠ .eq) :
    (bmInsert cmp k v l).Perm ((k, v) :: l) := by
  induction l with
  | nil => simp [bmInsert]
  | cons q r ih =>
    obtain ⟨k', v'⟩ := q
    simp only [bmInsert]
    split
    · exact List.Perm.refl _
    · next h' => exact absurd h' (h (k', v') (by simp))
    · exact ((ih fun p hp => h p (by simp [hp])).cons _).trans (List.Perm.swap _ _ _)

theorem foldl_bmInsert_perm (l : List (κ × α)) : ∀ (m : List (κ × α)),
    l.Pairwise (fun p q => cmp q.1 p.1 ≠ .eq) → (∀ p ∈ l, ∀ q ∈ m, cmp p.1 q.1 ≠ .eq) →
    (l.foldl (fun m p => bmInsert cmp p.1 p.2 m) m).Perm (l ++ m) := by
  induction l with
  | nil => intro m _ _; exact List.Perm.refl _
  | cons q r ih =>
    intro m hl hm
    simp only [List.pairwise_cons] at hl
    have hp := bmInsert_perm (v := q.2) (hm q (by simp))
    refine (ih _ hl.2 ?_).trans ?_
    · intro p hp' q' hq'
      rcases List.mem_cons.mp (hp.subset hq') with rfl | hq'
      · exact hl.1 p hp'
      · exact hm p (by simp [hp']) q' hq'
    · exact (hp.append_left r).trans List.perm_middle

theorem bmOfList_perm {l : List (κ × α)} (h : l.Pairwise fun p q => cmp q.1 p.1 ≠ .eq) :
    (bmOfList cmp l).Perm l := by
  simpa [bmOfList] using foldl_bmInsert_perm l [] h (by simp)

/-- A list that is sorted is what its entries in any order build up. -/
theorem bmOfList_eq_of_perm (hc : CmpOn P cmp) {l m : List (κ × α)} (hP : ∀ p ∈ m, P p.1)
    (hs : BMSorted cmp m) (hp : l.Perm m) : bmOfList cmp l = m := by
  have hl : ∀ p ∈ l, P p.1 := fun p h => hP p (hp.subset h)
  have hne : l.Pairwise fun p q => cmp q.1 p.1 ≠ .eq := by
    have hm : m.Pairwise fun p q => cmp q.1 p.1 ≠ .eq ∧ cmp p.1 q.1 ≠ .eq := by
      have : m.Pairwise fun p q => P p.1 ∧ P q.1 := by
        rw [List.pairwise_iff_getElem]
        intro i j hi hj _
        exact ⟨hP _ (List.getElem_mem hi), hP _ (List.getElem_mem hj)⟩
      refine (hs.and this).imp ?_
      rintro p q ⟨h, hp, hq⟩
      rw [hc.swap _ _ hp hq, h]; simp
    have := hp.symm.pairwise hm (fun h => ⟨h.2, h.1⟩)
    exact this.imp fun h => h.1
  have h1 := bmOfList_perm hne
  have h2 := bmOfList_sorted hc hl
  refine List.Perm.eq_of_pairwise (le := fun p q : κ × α => cmp p.1 q.1 = .lt) ?_ h2 hs (h1.trans hp)
  intro a b ha hb h h'
  have hPa := hP a ((h1.trans hp).subset ha)
  have hPb := hP b hb
  rw [hc.swap _ _ hPa hPb, h] at h'; simp at h'

/-! ### `collect` -/

theorem bmPut_mem {k : κ} {v : α} {l : List (κ × α)} {p : κ × α} (h : p ∈ bmPut cmp k v l) :
    p ∈ l ∨ p = (k, v) := by
  induction l with
  | nil => simp [bmPut] at h; simp [h]
  | cons q r ih =>
    obtain ⟨k', v'⟩ := q
    simp only [bmPut] at h
    split at h
    · rcases List.mem_cons.mp h with h | h
      · exact .inr h
      · exact .inl h
    · rcases List.mem_cons.mp h with h | h
      · exact .inr h
      · exact .inl (by simp [h])
    · rcases List.mem_cons.mp h with h | h
      · exact .inl (by simp [h])
      · rcases ih h with h | h
        · exact .inl (by simp [h])
        · exact .inr h

theorem bmPut_sorted (hc : CmpOn P cmp) {k : κ} {v : α} {l : List (κ × α)} (hP : P k)
    (hl : ∀ p ∈ l, P p.1) (hs : BMSorted cmp l) : BMSorted cmp (bmPut cmp k v l) := by
  induction l with
  | nil => simp [bmPut, BMSorted]
  | cons q r ih =>
    obtain ⟨k', v'⟩ := q
    have hk' : P k' := hl (k', v') (by simp)
    have hr : ∀ p ∈ r, P p.1 := fun p hp => hl p (by simp [hp])
    simp only [BMSorted, List.pairwise_cons] at hs
    simp only [bmPut]
    split
    · next h =>
      simp only [BMSorted, List.pairwise_cons]
      refine ⟨?_, hs.1, hs.2⟩
      intro p hp
      rcases List.mem_cons.mp hp with rfl | hp
      · exact h
      · exact hc.lt_trans _ _ _ hP hk' (hr p hp) h (hs.1 p hp)
    · next h =>
      simp only [BMSorted, List.pairwise_cons]
      refine ⟨fun p hp => ?_, hs.2⟩
      rw [hc.eq_trans _ _ _ hP hk' (hr p hp) h]; exact hs.1 p hp
    · next h =>
      simp only [BMSorted, List.pairwise_cons]
      refine ⟨?_, ih hr hs.2⟩
      intro p hp
      rcases bmPut_mem hp with h' | h'
      · exact hs.1 p h'
      · rw [h']; exact (hc.gt_iff hP hk').mp h

theorem foldl_bmPut_sorted (hc : CmpOn P cmp) (l : List (κ × α)) : ∀ (m : List (κ × α)),
    (∀ p ∈ l, P p.1) → (∀ p ∈ m, P p.1) → BMSorted cmp m →
    BMSorted cmp (l.foldl (fun m p => bmPut cmp p.1 p.2 m) m) := by
  induction l with
  | nil => intro m _ hm hs; exact hs
  | cons q r ih =>
    intro m hl hm hs
    refine ih _ (fun p hp => hl p (by simp [hp])) (fun p hp => ?_) (bmPut_sorted hc (hl q (by simp)) hm hs)
    rcases bmPut_mem hp with h | h
    · exact hm p h
    · rw [h]; exact hl q (by simp)

theorem foldl_bmPut_mem (l : List (κ × α)) : ∀ (m : List (κ × α)) (p : κ × α),
    p ∈ l.foldl (fun m p => bmPut cmp p.1 p.2 m) m → p ∈ l ∨ p ∈ m := by
  induction l with
  | nil => intro m p h; exact .inr h
  | cons q r ih =>
    intro m p h
    rcases ih _ p h with h | h
    · exact .inl (by simp [h])
    · rcases bmPut_mem h with h | rfl
      · exact .inr h
      · exact .inl (by simp)

theorem bmCollect_sorted (hc : CmpOn P cmp) {l : List (κ × α)} (hl : ∀ p ∈ l, P p.1) :
    BMSorted cmp (bmCollect cmp l) :=
  foldl_bmPut_sorted hc l [] hl (by simp) (by simp [BMSorted])

/-- Collecting adds nothing. -/
theorem bmCollect_mem {l : List (κ × α)} {p : κ × α} (h : p ∈ bmCollect cmp l) : p ∈ l := by
  simpa using foldl_bmPut_mem l [] p h

theorem bmPut_eq_insert {k : κ} {v : α} {l : List (κ × α)} (h : ∀ p ∈ l, cmp k p.1 ≠ .eq) :
    bmPut cmp k v l = bmInsert cmp k v l := by
  induction l with
  | nil => rfl
  | cons q r ih =>
    obtain ⟨k', v'⟩ := q
    simp only [bmPut, bmInsert]
    split
    · rfl
    · next h' => exact absurd h' (h (k', v') (by simp))
    · rw [ih fun p hp => h p (by simp [hp])]

theorem foldl_bmPut_eq (l : List (κ × α)) : ∀ (m : List (κ × α)),
    l.Pairwise (fun p q => cmp q.1 p.1 ≠ .eq) → (∀ p ∈ l, ∀ q ∈ m, cmp p.1 q.1 ≠ .eq) →
    l.foldl (fun m p => bmPut cmp p.1 p.2 m) m = l.foldl (fun m p => bmInsert cmp p.1 p.2 m) m := by
  induction l with
  | nil => intro m _ _; rfl
  | cons q r ih =>
    intro m hl hm
    simp only [List.pairwise_cons] at hl
    have hp := bmInsert_perm (v := q.2) (hm q (by simp))
    rw [List.foldl_cons, List.foldl_cons, bmPut_eq_insert (hm q (by simp))]
    refine ih _ hl.2 ?_
    intro p hp' q' hq'
    rcases List.mem_cons.mp (hp.subset hq') with rfl | hq'
    · exact hl.1 p hp'
    · exact hm p (by simp [hp']) q' hq'

/-- Without equal keys, collecting is inserting one by one. -/
theorem bmCollect_eq_ofList {l : List (κ × α)} (h : l.Pairwise fun p q => cmp q.1 p.1 ≠ .eq) :
    bmCollect cmp l = bmOfList cmp l :=
  foldl_bmPut_eq l [] h (by simp)

theorem bmCollect_perm {l : List (κ × α)} (h : l.Pairwise fun p q => cmp q.1 p.1 ≠ .eq) :
    (bmCollect cmp l).Perm l := by
  rw [bmCollect_eq_ofList h]; exact bmOfList_perm h

/-- A list that is sorted is what collecting its entries in any order gives. -/
theorem bmCollect_eq_of_perm (hc : CmpOn P cmp) {l m : List (κ × α)} (hP : ∀ p ∈ m, P p.1)
    (hs : BMSorted cmp m) (hp : l.Perm m) : bmCollect cmp l = m := by
  have hne : l.Pairwise fun p q => cmp q.1 p.1 ≠ .eq := by
    have hm : m.Pairwise fun p q => cmp q.1 p.1 ≠ .eq ∧ cmp p.1 q.1 ≠ .eq := by
      have : m.Pairwise fun p q => P p.1 ∧ P q.1 := by
        rw [List.pairwise_iff_getElem]
        intro i j hi hj _
        exact ⟨hP _ (List.getElem_mem hi), hP _ (List.getElem_mem hj)⟩
      refine (hs.and this).imp ?_
      rintro p q ⟨h, hp, hq⟩
      rw [hc.swap _ _ hp hq, h]; simp
    have := hp.symm.pairwise hm (fun h => ⟨h.2, h.1⟩)
    exact this.imp fun h => h.1
  rw [bmCollect_eq_ofList hne]; exact bmOfList_eq_of_perm hc hP hs hp

theorem bmCollect_self (hc : CmpOn P cmp) {m : List (κ × α)} (hP : ∀ p ∈ m, P p.1)
    (hs : BMSorted cmp m) : bmCollect cmp m = m :=
  bmCollect_eq_of_perm hc hP hs (List.Perm.refl _)

theorem bmOfList_self (hc : CmpOn P cmp) {m : List (κ × α)} (hP : ∀ p ∈ m, P p.1)
    (hs : BMSorted cmp m) : bmOfList cmp m = m :=
  bmOfList_eq_of_perm hc hP hs (List.Perm.refl _)

end

/-! ## `StructValue` builder -/

theorem svOfList_eq_aux (l : List (String × Value)) : ∀ s,
    l.foldl (fun s p => svSet s p.1 p.2) s =
      (s.1 ++ l.map (·.1), l.foldl (fun m p => bmInsert strCmp p.1 p.2 m) s.2) := by
  induction l with
  | nil => intro s; simp
  | cons p r ih => intro s; rw [List.foldl_cons, ih]; simp [svSet]

theorem svOfList_eq (l : List (String × Value)) :
    svOfList l = (l.map (·.1), bmOfList strCmp l) := by
  simp only [svOfList, svOfList_eq_aux, bmOfList]; simp

theorem strSorted_nodup {α} {l : List (String × α)} (h : BMSorted strCmp l) :
    (l.map (·.1)).Nodup := by
  rw [List.Nodup, List.pairwise_map]
  refine h.imp ?_
  intro p q h he
  rw [he, (strCmp_eq_iff _ _).mpr rfl] at h; simp at h

theorem nodup_pairwise_ne {α} {l : List (String × α)} (h : (l.map (·.1)).Nodup) :
    l.Pairwise fun p q => strCmp q.1 p.1 ≠ .eq := by
  rw [List.Nodup, List.pairwise_map] at h
  refine h.imp ?_
  intro p q h he
  exact h ((strCmp_eq_iff _ _).mp he).symm

theorem bmOfList_str_perm {α} {l : List (String × α)} (h : (l.map (·.1)).Nodup) :
    (bmOfList strCmp l).Perm l :=
  bmOfList_perm (nodup_pairwise_ne h)

/-! ## `lookup` -/

theorem lookup_of_mem_nodup {α} {l : List (String × α)} (h : (l.map (·.1)).Nodup) {n : String}
    {x : α} (hm : (n, x) ∈ l) : lookup n l = some x := by
  induction l with
  | nil => simp at hm
  | cons p r ih =>
    obtain ⟨m, y⟩ := p
    simp only [List.map_cons, List.nodup_cons] at h
    simp only [lookup]
    rcases List.mem_cons.mp hm with hm | hm
    · simp_all
    · have : m ≠ n := by
        rintro rfl
        exact h.1 (List.mem_map.mpr ⟨_, hm, rfl⟩)
      simp [this, ih h.2 hm]

theorem lookup_none_iff {α} {l : List (String × α)} {n : String} :
    lookup n l = none ↔ n ∉ l.map (·.1) := by
  induction l with
  | nil => simp [lookup]
  | cons p r ih =>
    obtain ⟨m, y⟩ := p
    simp only [lookup]
    split
    · next h => simp [h]
    · next h => rw [ih]; simp; exact fun _ he => h he.symm

theorem lookup_perm {α} {l m : List (String × α)} (hp : l.Perm m) (h : (l.map (·.1)).Nodup)
    (n : String) : lookup n l = lookup n m := by
  have hm : (m.map (·.1)).Nodup := (hp.map _).nodup_iff.mp h
  cases hl : lookup n l with
  | none =>
    rw [lookup_none_iff] at hl
    exact (lookup_none_iff.mpr fun h' => hl ((hp.map _).mem_iff.mpr h')).symm
  | some x => exact (lookup_of_mem_nodup hm (hp.subset (lookup_mem hl))).symm

theorem lookup_map {α β} (f : α → β) (l : List (String × α)) (n : String) :
    lookup n (l.map fun p => (p.1, f p.2)) = (lookup n l).map f := by
  induction l with
  | nil => rfl
  | cons p r ih =>
    obtain ⟨m, y⟩ := p
    simp only [List.map_cons, lookup, ih]
    split <;> rfl

end Mirror
