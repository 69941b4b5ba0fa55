import Verif.Lemmas.Cache

set_option linter.unusedSimpArgs false

/-!
# The descriptor cache when metadata expressions panic or call `type_descriptor`
-/

namespace Mirror

/-- The lock is poisoned. -/
def CacheState.Poisoned (s : CacheState) : Prop := ∃ l, s.shared.cell = some l ∧ l.poisoned = true

/-- Past a successful `unwrap` of a guard. -/
def CachePC.working : CachePC → Bool
  | .reading _ | .hit _ _ | .miss _ | .writing _ | .building _ | .wrote _ _ | .stuck _ => true
  | _ => false

/-- Unwinding with a guard from a poisoned lock. -/
def CachePC.erring : CachePC → Bool
  | .readErr _ | .writeErr _ => true
  | _ => false

/-- The invariant about poisoning. -/
structure PoisonInv (fault : Ty → Option BuildFault) (prog : Nat → List Ty) (s : CacheState) : Prop where
  idle : s.Poisoned → ∀ i, (s.thr i).pc.working = false
  err : ∀ i, (s.thr i).pc.erring = true → s.Poisoned
  log : ∀ i t, (t, none) ∈ (s.thr i).log → s.Poisoned
  blame : s.Poisoned → ∃ i, ∃ u ∈ prog i, fault u.unbox = some .panic
  built : ∀ e ∈ s.shared.heap, fault e.1 = none

theorem poisonInv {E : Env} {fault} {pref : Prop} {prog s} (h : CacheReach E fault pref prog s) :
    PoisonInv fault prog s := by
  induction h with
  | init =>
    refine ⟨?_, ?_, ?_, ?_, ?_⟩ <;> simp [CacheState.init, CacheState.Poisoned, CachePC.erring]
  | step s i s' hr hs ih =>
    have I := cacheInv hr
    have hc := @CacheReach.current_mem _ _ _ _ _ hr i
    obtain ⟨sh, th, hs, rfl⟩ := hs
    obtain ⟨⟨cell, heap⟩, thr⟩ := s
    obtain ⟨h1, h2, h3, h4, h5⟩ := ih
    obtain ⟨Il, In, _⟩ := I
    simp only [CacheState.Poisoned] at hs h1 h2 h3 h4 h5 hc Il ⊢
    generalize hth : thr i = th0 at hs hc
    -- a step that does not touch the flag and does not start working
    have quiet : ∀ {c : Option CacheLock} {hp : List (Ty × TypeDescriptor)} {th' : CacheThread},
        ((∃ l, c = some l ∧ l.poisoned = true) ↔ ∃ l, cell = some l ∧ l.poisoned = true) →
        ((∃ l, cell = some l ∧ l.poisoned = true) → th0.pc.working = false → th'.pc.working = false) →
        (th'.pc.erring = true → ∃ l, cell = some l ∧ l.poisoned = true) →
        (∀ t, (t, none) ∈ th'.log → (t, none) ∈ th0.log ∨ ∃ l, cell = some l ∧ l.poisoned = true) →
        (∀ e ∈ hp, fault e.1 = none) →
        PoisonInv fault prog ⟨⟨c, hp⟩, fun j => if j = i then th' else thr j⟩ := by
      intro c hp th' e1 e2 e3 e4 e5
      refine ⟨?_, ?_, ?_, ?_, e5⟩ <;> simp only [CacheState.Poisoned, e1]
      · intro hp j
        by_cases hj : j = i
        · simp only [hj, if_true]; exact e2 hp (hth ▸ h1 hp i)
        · simp only [hj, if_false]; exact h1 hp j
      · intro j
        by_cases hj : j = i
        · simp only [hj, if_true]; exact e3
        · simp only [hj, if_false]; exact h2 j
      · intro j t
        by_cases hj : j = i
        · simp only [hj, if_true]
          intro ht
          rcases e4 t ht with ht | ht
          · exact h3 i t (hth ▸ ht)
          · exact ht
        · simp only [hj, if_false]; exact h3 j t
      · exact h4
    cases hs with
    | call t r log =>
      exact quiet Iff.rfl (fun _ _ => rfl) (by simp [CachePC.erring]) (fun _ h => .inl h) h5
    | loadSome l _ td t log =>
      exact quiet Iff.rfl (fun _ _ => rfl) (by simp [CachePC.erring]) (fun _ h => .inl h) h5
    | loadNone _ td t log =>
      exact quiet Iff.rfl (fun _ _ => rfl) (by simp [CachePC.erring]) (fun _ h => .inl h) h5
    | installWin _ td t log =>
      exact quiet (by simp) (fun _ _ => rfl) (by simp [CachePC.erring]) (fun _ h => .inl h) h5
    | installLose l _ td t log =>
      exact quiet Iff.rfl (fun _ _ => rfl) (by simp [CachePC.erring]) (fun _ h => .inl h) h5
    | lockRead m rs _ td t log hpol =>
      exact quiet (by simp) (by simp) (by simp [CachePC.erring]) (fun _ h => .inl h) h5
    | lockReadErr m rs _ td t log hpol =>
      exact quiet (by simp) (fun _ _ => rfl) (by simp) (fun _ h => .inl h) h5
    | unwindRead m rs w b _ td t log =>
      have hb := h2 i (by rw [hth]; rfl)
      exact quiet (by simp) (fun _ _ => rfl) (by simp [CachePC.erring]) (fun _ _ => .inr hb) h5
    | getSome l _ td t p log hm =>
      exact quiet Iff.rfl (by simp [CachePC.working]) (by simp [CachePC.erring]) (fun _ h => .inl h) h5
    | getNone l _ td t log hm =>
      exact quiet Iff.rfl (by simp [CachePC.working]) (by simp [CachePC.erring]) (fun _ h => .inl h) h5
    | returnHit m rs w b _ td t p log =>
      exact quiet (by simp) (fun _ _ => rfl) (by simp [CachePC.erring]) (by simp +contextual) h5
    | dropRead m rs w b _ td t log =>
      exact quiet (by simp) (fun _ _ => rfl) (by simp [CachePC.erring]) (fun _ h => .inl h) h5
    | lockWrite m _ td t log =>
      exact quiet (by simp) (by simp) (by simp [CachePC.erring]) (fun _ h => .inl h) h5
    | lockWriteErr m _ td t log =>
      exact quiet (by simp) (fun _ _ => rfl) (by simp) (fun _ h => .inl h) h5
    | unwindWrite m rs w b _ td t log =>
      obtain ⟨l, hl, hb⟩ := h2 i (by rw [hth]; rfl)
      cases hl
      simp only at hb
      subst hb
      exact quiet (by simp) (fun _ _ => rfl) (by simp [CachePC.erring]) (fun _ _ => .inr ⟨_, rfl, rfl⟩) h5
    | occupied l _ td t p log hm =>
      exact quiet Iff.rfl (by simp [CachePC.working]) (by simp [CachePC.erring]) (fun _ h => .inl h) h5
    | vacant l _ td t log hm =>
      exact quiet Iff.rfl (by simp [CachePC.working]) (by simp [CachePC.erring]) (fun _ h => .inl h) h5
    | build m rs w b _ td t log fuel d hf hd =>
      refine quiet (by simp) (by simp [CachePC.working]) (by simp [CachePC.erring]) (fun _ h => .inl h) ?_
      intro e he
      rcases List.mem_append.mp he with he | he
      · exact h5 e he
      · simp only [List.mem_singleton] at he; subst he; exact hf
    | buildReenter td t log hf =>
      exact quiet Iff.rfl (by simp [CachePC.working]) (by simp [CachePC.erring]) (fun _ h => .inl h) h5
    | returnWrite m rs w b _ td t p log =>
      exact quiet (by simp) (fun _ _ => rfl) (by simp [CachePC.erring]) (by simp +contextual) h5
    | buildPanic m rs w b _ td t log hf =>
      have L := Il _ rfl
      have hwi := (L.writer i).mpr (by rw [hth]; rfl)
      have hrs := L.excl i hwi
      refine ⟨?_, ?_, ?_, ?_, h5⟩
      · intro _ j
        by_cases hj : j = i
        · simp only [hj, if_true]; rfl
        · simp only [hj, if_false]
          have hr : (thr j).pc.holdsRead = false := by
            cases hb : (thr j).pc.holdsRead with
            | false => rfl
            | true =>
              have := (L.readers j).mpr hb
              rw [hrs] at this; simp at this
          have hw : (thr j).pc.holdsWrite = false := by
            cases hb : (thr j).pc.holdsWrite with
            | false => rfl
            | true =>
              have := (L.writer j).mpr hb
              rw [hwi] at this
              exact absurd (Option.some.inj this).symm hj
          cases hp : (thr j).pc <;> simp_all [CachePC.working, CachePC.holdsRead, CachePC.holdsWrite]
      · intro _ _; exact ⟨_, rfl, rfl⟩
      · intro _ _ _; exact ⟨_, rfl, rfl⟩
      · intro _
        obtain ⟨u, hu, rfl⟩ := hc (t := t) (by simp [CachePC.current])
        exact ⟨i, u, hu, hf⟩

theorem panicked_poisoned {E : Env} {fault} {pref : Prop} {prog s} (h : CacheReach E fault pref prog s)
    {i : Nat} {t : Ty} (ht : (t, none) ∈ (s.thr i).log) : s.Poisoned := (poisonInv h).log i t ht

theorem poisoned_blame {E : Env} {fault} {pref : Prop} {prog s} (h : CacheReach E fault pref prog s)
    (hp : s.Poisoned) : ∃ i, ∃ u ∈ prog i, fault u.unbox = some .panic := (poisonInv h).blame hp

theorem poisoned_step {E : Env} {fault} {pref : Prop} {prog s i s'} (h : CacheReach E fault pref prog s)
    (hp : s.Poisoned) (hs : CacheStep E fault pref s i s') :
    s'.Poisoned ∧ ∀ j, ∃ new, (s'.thr j).log = (s.thr j).log ++ new ∧ ∀ e ∈ new, e.2 = none := by
  have hw := (poisonInv h).idle hp i
  obtain ⟨sh, th, hs, rfl⟩ := hs
  obtain ⟨⟨cell, heap⟩, thr⟩ := s
  obtain ⟨l, hl, hb⟩ := hp
  simp only at hl hw hs
  subst hl
  suffices H : (∃ l, sh.cell = some l ∧ l.poisoned = true) ∧
      ∃ new, th.log = (thr i).log ++ new ∧ ∀ e ∈ new, e.2 = none by
    refine ⟨H.1, fun j => ?_⟩
    by_cases hj : j = i
    · subst hj; simp only [if_true]; exact H.2
    · simp only [hj, if_false]; exact ⟨[], by simp, by simp⟩
  generalize thr i = th0 at hs hw
  cases hs <;> simp_all [CachePC.working]

theorem stuck_step {E : Env} {fault} {pref : Prop} {prog s i j s' t} (h : CacheReach E fault pref prog s)
    (hi : (s.thr i).pc = .stuck t) (hs : CacheStep E fault pref s j s') :
    (s'.thr i).pc = .stuck t ∧ ∀ k, (s'.thr k).log = (s.thr k).log := by
  have I := cacheInv h
  obtain ⟨sh, th, hs, rfl⟩ := hs
  obtain ⟨⟨cell, heap⟩, thr⟩ := s
  simp only at hi hs
  cases cell with
  | none =>
    have := ((I.none rfl).2 i).1
    simp only [hi, CachePC.inited] at this; cases this
  | some l =>
    have L := I.lock l rfl
    simp only at L
    have hwi := (L.writer i).mpr (by rw [hi]; rfl)
    have hrs := L.excl i hwi
    have hij : j ≠ i := by
      rintro rfl
      generalize thr j = th0 at hs hi
      cases hs <;> simp_all
    have hr : (thr j).pc.holdsRead = false := by
      cases hb : (thr j).pc.holdsRead with
      | false => rfl
      | true =>
        have := (L.readers j).mpr hb
        rw [hrs] at this; simp at this
    have hw : (thr j).pc.holdsWrite = false := by
      cases hb : (thr j).pc.holdsWrite with
      | false => rfl
      | true =>
        have := (L.writer j).mpr hb
        rw [hwi] at this
        exact absurd (Option.some.inj this).symm hij
    have hlog : th.log = (thr j).log := by
      generalize thr j = th0 at hs hr hw
      cases hs <;> simp_all [CachePC.holdsRead, CachePC.holdsWrite]
    refine ⟨by simp only [hij.symm, if_false]; exact hi, fun k => ?_⟩
    by_cases hk : k = j
    · subst hk; simp only [if_true]; exact hlog
    · simp only [hk, if_false]

theorem poisoned_run {E : Env} {fault} {pref : Prop} {prog n s s'} (h : CacheReach E fault pref prog s)
    (hp : s.Poisoned) (hr : CacheRun E fault pref n s s') :
    s'.Poisoned ∧ ∀ j, ∃ new, (s'.thr j).log = (s.thr j).log ++ new ∧ ∀ e ∈ new, e.2 = none := by
  induction hr with
  | nil s => exact ⟨hp, fun _ => ⟨[], by simp, by simp⟩⟩
  | cons n s i s1 s2 hs _ ih =>
    obtain ⟨h1, h2⟩ := poisoned_step h hp hs
    obtain ⟨h3, h4⟩ := ih (.step _ _ _ h hs) h1
    refine ⟨h3, fun j => ?_⟩
    obtain ⟨n1, e1, a1⟩ := h2 j
    obtain ⟨n2, e2, a2⟩ := h4 j
    refine ⟨n1 ++ n2, by rw [e2, e1, List.append_assoc], ?_⟩
    intro e he
    rcases List.mem_append.mp he with he | he
    · exact a1 e he
    · exact a2 e he

theorem stuck_run {E : Env} {fault} {pref : Prop} {prog n s s' i t} (h : CacheReach E fault pref prog s)
    (hi : (s.thr i).pc = .stuck t) (hr : CacheRun E fault pref n s s') :
    (s'.thr i).pc = .stuck t ∧ ∀ k, (s'.thr k).log = (s.thr k).log := by
  induction hr with
  | nil s => exact ⟨hi, fun _ => rfl⟩
  | cons n s j s1 s2 hs _ ih =>
    obtain ⟨h1, h2⟩ := stuck_step h hi hs
    obtain ⟨h3, h4⟩ := ih (.step _ _ _ h hs) h1
    exact ⟨h3, fun k => (h4 k).trans (h2 k)⟩

end Mirror
