import Verif.Model.Cache
import Verif.Lemmas.TypeInfo

set_option linter.unusedSimpArgs false

/-!
# Invariants of the descriptor cache
-/

namespace Mirror

/-- Holding the read guard. -/
def CachePC.holdsRead : CachePC → Bool
  | .reading _ | .hit _ _ | .miss _ | .readErr _ => true
  | _ => false

/-- Holding the write guard. -/
def CachePC.holdsWrite : CachePC → Bool
  | .writing _ | .building _ | .wrote _ _ | .writeErr _ | .stuck _ => true
  | _ => false

/-- `INFO` is initialised. -/
def CachePC.inited : CachePC → Bool
  | .idle | .start _ | .install _ => false
  | _ => true

/-- The invariant about the lock `l`. -/
structure LockInv (l : CacheLock) (h : List (Ty × TypeDescriptor)) (thr : Nat → CacheThread) : Prop where
  nodup : l.readers.Nodup
  readers : ∀ i, i ∈ l.readers ↔ (thr i).pc.holdsRead = true
  writer : ∀ i, l.writer = some i ↔ (thr i).pc.holdsWrite = true
  excl : ∀ i, l.writer = some i → l.readers = []
  map : ∀ t p, l.map t = some p ↔ ∃ d, h[p]? = some (t, d)
  building : ∀ i t, (thr i).pc = .building t → l.map t = none
  hit : ∀ i t p, (thr i).pc = .hit t p → l.map t = some p
  wrote : ∀ i t p, (thr i).pc = .wrote t p → l.map t = some p
  log : ∀ i, ∀ e ∈ (thr i).log, ∀ p, e.2 = some p → l.map e.1 = some p

/-- The invariant. -/
structure CacheInv (E : Env) (s : CacheState) : Prop where
  lock : ∀ l, s.shared.cell = some l → LockInv l s.shared.heap s.thr
  none : s.shared.cell = none → s.shared.heap = [] ∧ ∀ i, (s.thr i).pc.inited = false ∧ (s.thr i).log = []
  heap : ∀ e ∈ s.shared.heap, ∃ fuel, describe E fuel e.1 = some e.2

theorem cacheInv_init (E : Env) (prog) : CacheInv E (.init prog) where
  lock l h := by simp [CacheState.init] at h
  none _ := ⟨rfl, fun i => ⟨rfl, rfl⟩⟩
  heap e h := by simp [CacheState.init] at h

/-- A step that leaves the shared state alone. -/
theorem LockInv.local {l h thr i} {th : CacheThread} (H : LockInv l h thr)
    (hr : th.pc.holdsRead = (thr i).pc.holdsRead) (hw : th.pc.holdsWrite = (thr i).pc.holdsWrite)
    (hb : ∀ t, th.pc = .building t → l.map t = none)
    (hh : ∀ t p, th.pc = .hit t p → l.map t = some p)
    (hwr : ∀ t p, th.pc = .wrote t p → l.map t = some p)
    (hl : ∀ e ∈ th.log, ∀ p, e.2 = some p → l.map e.1 = some p) :
    LockInv l h (fun j => if j = i then th else thr j) where
  nodup := H.nodup
  readers j := by
    by_cases hj : j = i
    · subst hj; simp only [if_true, hr]; exact H.readers j
    · simp only [hj, if_false]; exact H.readers j
  writer j := by
    by_cases hj : j = i
    · subst hj; simp only [if_true, hw]; exact H.writer j
    · simp only [hj, if_false]; exact H.writer j
  excl := H.excl
  map := H.map
  building j t := by
    by_cases hj : j = i
    · subst hj; simp only [if_true]; exact hb t
    · simp only [hj, if_false]; exact H.building j t
  hit j t p := by
    by_cases hj : j = i
    · subst hj; simp only [if_true]; exact hh t p
    · simp only [hj, if_false]; exact H.hit j t p
  wrote j t p := by
    by_cases hj : j = i
    · subst hj; simp only [if_true]; exact hwr t p
    · simp only [hj, if_false]; exact H.wrote j t p
  log j := by
    by_cases hj : j = i
    · subst hj; simp only [if_true]; exact hl
    · simp only [hj, if_false]; exact H.log j

theorem LockInv.acquireRead {m rs b h thr i} {th : CacheThread} (H : LockInv ⟨m, rs, none, b⟩ h thr)
    (ho : (thr i).pc.holdsRead = false) (hr : th.pc.holdsRead = true) (hw : th.pc.holdsWrite = false)
    (hh : ∀ t p, th.pc ≠ .hit t p) (hl : th.log = (thr i).log) :
    LockInv ⟨m, i :: rs, none, b⟩ h (fun j => if j = i then th else thr j) where
  nodup := by
    refine List.nodup_cons.mpr ⟨?_, H.nodup⟩
    intro hm; rw [(H.readers i).mp hm] at ho; simp at ho
  readers j := by
    by_cases hj : j = i
    · subst hj; simp [hr]
    · simp only [hj, if_false, List.mem_cons, false_or]; exact H.readers j
  writer j := by
    by_cases hj : j = i
    · subst hj; simp [hw]
    · simp only [hj, if_false]; exact H.writer j
  excl j hj := by simp at hj
  map := H.map
  building j t := by
    by_cases hj : j = i
    · subst hj; simp only [if_true]; intro he; simp [he, CachePC.holdsRead] at hr
    · simp only [hj, if_false]; exact H.building j t
  hit j t p := by
    by_cases hj : j = i
    · subst hj; simp only [if_true]; intro he; exact absurd he (hh t p)
    · simp only [hj, if_false]; exact H.hit j t p
  wrote j t p := by
    by_cases hj : j = i
    · subst hj; simp only [if_true]; intro he; simp [he, CachePC.holdsRead] at hr
    · simp only [hj, if_false]; exact H.wrote j t p
  log j := by
    by_cases hj : j = i
    · subst hj; simp only [if_true, hl]; exact H.log j
    · simp only [hj, if_false]; exact H.log j

theorem LockInv.releaseRead {m rs w b h thr i} {th : CacheThread} (H : LockInv ⟨m, rs, w, b⟩ h thr)
    (ho : (thr i).pc.holdsWrite = false)
    (hr : th.pc.holdsRead = false) (hw : th.pc.holdsWrite = false)
    (hl : ∀ e ∈ th.log, ∀ p, e.2 = some p → m e.1 = some p) :
    LockInv ⟨m, rs.erase i, w, b⟩ h (fun j => if j = i then th else thr j) where
  nodup := H.nodup.erase i
  readers j := by
    simp only [H.nodup.mem_erase_iff]
    by_cases hj : j = i
    · subst hj; simp [hr]
    · simp only [hj, if_false, ne_eq, not_false_eq_true, true_and]; exact H.readers j
  writer j := by
    by_cases hj : j = i
    · subst hj; simp only [if_true, hw]; rw [← ho]; exact H.writer j
    · simp only [hj, if_false]; exact H.writer j
  excl j hj := by have := H.excl j hj; simp only at this; simp [this]
  map := H.map
  building j t := by
    by_cases hj : j = i
    · subst hj; simp only [if_true]; intro he; simp [he, CachePC.holdsWrite] at hw
    · simp only [hj, if_false]; exact H.building j t
  hit j t p := by
    by_cases hj : j = i
    · subst hj; simp only [if_true]; intro he; simp [he, CachePC.holdsRead] at hr
    · simp only [hj, if_false]; exact H.hit j t p
  wrote j t p := by
    by_cases hj : j = i
    · subst hj; simp only [if_true]; intro he; simp [he, CachePC.holdsWrite] at hw
    · simp only [hj, if_false]; exact H.wrote j t p
  log j := by
    by_cases hj : j = i
    · subst hj; simp only [if_true]; exact hl
    · simp only [hj, if_false]; exact H.log j

theorem LockInv.acquireWrite {m b h thr i} {th : CacheThread} (H : LockInv ⟨m, [], none, b⟩ h thr)
    {t : Ty} (hp : th.pc = .writing t ∨ th.pc = .writeErr t) (hl : th.log = (thr i).log) :
    LockInv ⟨m, [], some i, b⟩ h (fun j => if j = i then th else thr j) where
  nodup := by simp
  readers j := by
    by_cases hj : j = i
    · subst hj; rcases hp with hp | hp <;> simp [hp, CachePC.holdsRead]
    · simp only [hj, if_false]; exact H.readers j
  writer j := by
    by_cases hj : j = i
    · subst hj; rcases hp with hp | hp <;> simp [hp, CachePC.holdsWrite]
    · simp only [hj, if_false, Option.some.injEq]
      have := (H.writer j).mpr
      simp only [reduceCtorEq, imp_false] at this
      constructor
      · intro he; exact absurd he.symm hj
      · intro he; exact absurd he this
  excl j hj := rfl
  map := H.map
  building j t' := by
    by_cases hj : j = i
    · subst hj; rcases hp with hp | hp <;> simp [hp]
    · simp only [hj, if_false]; exact H.building j t'
  hit j t' p := by
    by_cases hj : j = i
    · subst hj; rcases hp with hp | hp <;> simp [hp]
    · simp only [hj, if_false]; exact H.hit j t' p
  wrote j t' p := by
    by_cases hj : j = i
    · subst hj; rcases hp with hp | hp <;> simp [hp]
    · simp only [hj, if_false]; exact H.wrote j t' p
  log j := by
    by_cases hj : j = i
    · subst hj; simp only [if_true, hl]; exact H.log j
    · simp only [hj, if_false]; exact H.log j

theorem LockInv.releaseWrite {m rs w b b' h thr i} {th : CacheThread} (H : LockInv ⟨m, rs, w, b⟩ h thr)
    (ho : (thr i).pc.holdsWrite = true) (hr : th.pc.holdsRead = false)
    (hw : th.pc.holdsWrite = false) (hl : ∀ e ∈ th.log, ∀ p, e.2 = some p → m e.1 = some p) :
    LockInv ⟨m, rs, none, b'⟩ h (fun j => if j = i then th else thr j) := by
  have hwi : w = some i := (H.writer i).mpr ho
  have hrs : rs = [] := H.excl i hwi
  subst hrs
  have hno : ∀ j, j ≠ i → (thr j).pc.holdsWrite = false := by
    intro j hj
    cases hb : (thr j).pc.holdsWrite with
    | false => rfl
    | true =>
      have := (H.writer j).mpr hb
      simp only [hwi, Option.some.injEq] at this
      exact absurd this.symm hj
  refine ⟨by simp, ?_, ?_, fun j hj => rfl, H.map, ?_, ?_, ?_, ?_⟩
  · intro j
    by_cases hj : j = i
    · subst hj; simp [hr]
    · simp only [hj, if_false]; exact H.readers j
  · intro j
    by_cases hj : j = i
    · subst hj; simp [hw]
    · simp only [hj, if_false, reduceCtorEq, hno j hj]
  · intro j t
    by_cases hj : j = i
    · subst hj; simp only [if_true]; intro he; simp [he, CachePC.holdsWrite] at hw
    · simp only [hj, if_false]; exact H.building j t
  · intro j t p
    by_cases hj : j = i
    · subst hj; simp only [if_true]; intro he; simp [he, CachePC.holdsRead] at hr
    · simp only [hj, if_false]; exact H.hit j t p
  · intro j t p
    by_cases hj : j = i
    · subst hj; simp only [if_true]; intro he; simp [he, CachePC.holdsWrite] at hw
    · simp only [hj, if_false]; exact H.wrote j t p
  · intro j
    by_cases hj : j = i
    · subst hj; simp only [if_true]; exact hl
    · simp only [hj, if_false]; exact H.log j

theorem LockInv.insert {m rs w b h thr i} {th : CacheThread} (H : LockInv ⟨m, rs, w, b⟩ h thr) {t : Ty} {d}
    (hpc : (thr i).pc = .building t) (hp : th.pc = .wrote t h.length) (hl : th.log = (thr i).log) :
    LockInv ⟨fun u => if u = t then some h.length else m u, rs, w, b⟩ (h ++ [(t, d)])
      (fun j => if j = i then th else thr j) := by
  have hm : m t = none := H.building i t hpc
  have hold : ∀ u p, m u = some p → (if u = t then some h.length else m u) = some p := by
    intro u p hu
    by_cases hut : u = t
    · subst hut; rw [hm] at hu; simp at hu
    · simp [hut, hu]
  have ho : (thr i).pc.holdsWrite = true := by simp [hpc, CachePC.holdsWrite]
  have hwi : w = some i := (H.writer i).mpr ho
  refine ⟨H.nodup, ?_, ?_, H.excl, ?_, ?_, ?_, ?_, ?_⟩
  · intro j
    by_cases hj : j = i
    · subst hj
      have := H.readers j
      simp only [if_true, hp, CachePC.holdsRead] at this ⊢
      rw [hpc] at this; exact this
    · simp only [hj, if_false]; exact H.readers j
  · intro j
    by_cases hj : j = i
    · subst hj; simp [hp, CachePC.holdsWrite, hwi]
    · simp only [hj, if_false]; exact H.writer j
  · intro u p
    have hmu := H.map u p
    simp only at hmu ⊢
    by_cases hut : u = t
    · subst hut
      simp only [if_true, Option.some.injEq]
      constructor
      · rintro rfl; exact ⟨d, by simp⟩
      · rintro ⟨d', hd'⟩
        by_cases hlt : p < h.length
        · rw [List.getElem?_append_left hlt] at hd'
          rw [hm] at hmu
          exact absurd (hmu.mpr ⟨d', hd'⟩) (by simp)
        · have : p < (h ++ [(u, d)]).length := (List.getElem?_eq_some_iff.mp hd').1
          simp at this; omega
    · simp only [hut, if_false, hmu]
      constructor
      · rintro ⟨d', hd'⟩
        have := (List.getElem?_eq_some_iff.mp hd').1
        exact ⟨d', by rw [List.getElem?_append_left this]; exact hd'⟩
      · rintro ⟨d', hd'⟩
        by_cases hlt : p < h.length
        · rw [List.getElem?_append_left hlt] at hd'; exact ⟨d', hd'⟩
        · have : p < (h ++ [(t, d)]).length := (List.getElem?_eq_some_iff.mp hd').1
          have hpl : p = h.length := by simp at this; omega
          subst hpl
          simp at hd'
          exact absurd hd'.1.symm hut
  · intro j u
    by_cases hj : j = i
    · subst hj; simp [hp]
    · simp only [hj, if_false]
      intro hb
      have h1 := (H.writer j).mpr (by simp [hb, CachePC.holdsWrite])
      simp only [hwi, Option.some.injEq] at h1
      exact absurd h1.symm hj
  · intro j u p
    by_cases hj : j = i
    · subst hj; simp [hp]
    · simp only [hj, if_false]; exact fun hb => hold u p (H.hit j u p hb)
  · intro j u p
    by_cases hj : j = i
    · subst hj; simp only [if_true, hp, CachePC.wrote.injEq]; rintro ⟨rfl, rfl⟩; simp
    · simp only [hj, if_false]; exact fun hb => hold u p (H.wrote j u p hb)
  · intro j e
    by_cases hj : j = i
    · subst hj; simp only [if_true, hl]; exact fun he p hp => hold _ _ (H.log j e he p hp)
    · simp only [hj, if_false]; exact fun he p hp => hold _ _ (H.log j e he p hp)

theorem cacheInv_step {E : Env} {fault} {pref : Prop} {s i s'} (H : CacheInv E s) (h : CacheStep E fault pref s i s') :
    CacheInv E s' := by
  obtain ⟨sh, th, hs, rfl⟩ := h
  obtain ⟨⟨cell, heap⟩, thr⟩ := s
  simp only at hs
  generalize hth : thr i = th0 at hs
  obtain ⟨Hl, Hn, Hh⟩ := H
  simp only at Hl Hn Hh
  cases hs with
  | call t r log =>
    refine ⟨?_, ?_, Hh⟩
    · intro l hl
      have L := Hl l hl
      refine L.local (by simp [hth, CachePC.holdsRead]) (by simp [hth, CachePC.holdsWrite]) (by simp)
        (by simp) (by simp) ?_
      have := L.log i; rw [hth] at this; exact this
    · intro hc
      obtain ⟨h1, h2⟩ := Hn hc
      refine ⟨h1, fun j => ?_⟩
      by_cases hj : j = i
      · have := (h2 i).2; rw [hth] at this
        simp only [hj, if_true, CachePC.inited, true_and]; exact this
      · simp only [hj, if_false]; exact h2 j
  | loadSome l _ td t log =>
    refine ⟨?_, by simp, Hh⟩
    intro l' hl
    simp only [Option.some.injEq] at hl; subst hl
    have L := Hl l rfl
    refine L.local (by simp [hth, CachePC.holdsRead]) (by simp [hth, CachePC.holdsWrite]) (by simp)
        (by simp) (by simp) ?_
    have := L.log i; rw [hth] at this; exact this
  | loadNone _ td t log =>
    refine ⟨by simp, fun _ => ?_, Hh⟩
    obtain ⟨h1, h2⟩ := Hn rfl
    refine ⟨h1, fun j => ?_⟩
    by_cases hj : j = i
    · have := (h2 i).2; rw [hth] at this
      simp only [hj, if_true, CachePC.inited, true_and]; exact this
    · simp only [hj, if_false]; exact h2 j
  | installWin _ td t log =>
    obtain ⟨h1, h2⟩ := Hn rfl
    refine ⟨?_, by simp, Hh⟩
    intro l' hl
    simp only [Option.some.injEq] at hl; subst hl
    simp only at h1 ⊢
    subst h1
    have hr : ∀ j, (thr j).pc.holdsRead = false := by
      intro j; have := (h2 j).1; cases hp : (thr j).pc <;> simp_all [CachePC.inited, CachePC.holdsRead]
    have hw : ∀ j, (thr j).pc.holdsWrite = false := by
      intro j; have := (h2 j).1; cases hp : (thr j).pc <;> simp_all [CachePC.inited, CachePC.holdsWrite]
    have base : LockInv ⟨fun _ => none, [], none, false⟩ [] thr := by
      refine ⟨by simp, by simp [hr], by simp [hw], by simp, by simp, by simp, ?_, ?_, ?_⟩
      · intro j u p hp; have := hr j; simp [hp, CachePC.holdsRead] at this
      · intro j u p hp; have := hw j; simp [hp, CachePC.holdsWrite] at this
      · intro j e he; rw [(h2 j).2] at he; simp at he
    refine base.local (by simp [hth, CachePC.holdsRead]) (by simp [hth, CachePC.holdsWrite]) (by simp)
        (by simp) (by simp) ?_
    have := base.log i; rw [hth] at this; exact this
  | installLose l _ td t log =>
    refine ⟨?_, by simp, Hh⟩
    intro l' hl
    simp only [Option.some.injEq] at hl; subst hl
    have L := Hl l rfl
    refine L.local (by simp [hth, CachePC.holdsRead]) (by simp [hth, CachePC.holdsWrite]) (by simp)
        (by simp) (by simp) ?_
    have := L.log i; rw [hth] at this; exact this
  | lockRead m rs _ td t log hpol =>
    refine ⟨?_, by simp, Hh⟩
    intro l' hl
    simp only [Option.some.injEq] at hl; subst hl
    exact (Hl _ rfl).acquireRead (by simp [hth, CachePC.holdsRead]) rfl rfl (by simp) (by simp [hth])
  | lockReadErr m rs _ td t log hpol =>
    refine ⟨?_, by simp, Hh⟩
    intro l' hl
    simp only [Option.some.injEq] at hl; subst hl
    exact (Hl _ rfl).acquireRead (by simp [hth, CachePC.holdsRead]) rfl rfl (by simp) (by simp [hth])
  | unwindRead m rs w b _ td t log =>
    refine ⟨?_, by simp, Hh⟩
    intro l' hl
    simp only [Option.some.injEq] at hl; subst hl
    have L := Hl _ rfl
    refine L.releaseRead (by simp [hth, CachePC.holdsWrite]) rfl rfl ?_
    intro e he
    rcases List.mem_append.mp he with he | he
    · have := L.log i e; rw [hth] at this; exact this he
    · simp only [List.mem_singleton] at he; subst he
      intro p hp; cases hp
  | getSome l _ td t p log hm =>
    refine ⟨?_, by simp, Hh⟩
    intro l' hl
    simp only [Option.some.injEq] at hl; subst hl
    have L := Hl l rfl
    refine L.local (by simp [hth, CachePC.holdsRead]) (by simp [hth, CachePC.holdsWrite]) (by simp)
        (by simp; exact hm) (by simp) ?_
    have := L.log i; rw [hth] at this; exact this
  | getNone l _ td t log hm =>
    refine ⟨?_, by simp, Hh⟩
    intro l' hl
    simp only [Option.some.injEq] at hl; subst hl
    have L := Hl l rfl
    refine L.local (by simp [hth, CachePC.holdsRead]) (by simp [hth, CachePC.holdsWrite]) (by simp)
        (by simp) (by simp) ?_
    have := L.log i; rw [hth] at this; exact this
  | returnHit m rs w b _ td t p log =>
    refine ⟨?_, by simp, Hh⟩
    intro l' hl
    simp only [Option.some.injEq] at hl; subst hl
    have L := Hl _ rfl
    refine L.releaseRead (by simp [hth, CachePC.holdsWrite]) rfl rfl ?_
    intro e he
    rcases List.mem_append.mp he with he | he
    · have := L.log i e; rw [hth] at this; exact this he
    · simp only [List.mem_singleton] at he; subst he
      intro q hq; cases hq
      exact L.hit i t p (by rw [hth])
  | dropRead m rs w b _ td t log =>
    refine ⟨?_, by simp, Hh⟩
    intro l' hl
    simp only [Option.some.injEq] at hl; subst hl
    have L := Hl _ rfl
    refine L.releaseRead (by simp [hth, CachePC.holdsWrite]) rfl rfl ?_
    have := L.log i; rw [hth] at this; exact this
  | lockWrite m _ td t log =>
    refine ⟨?_, by simp, Hh⟩
    intro l' hl
    simp only [Option.some.injEq] at hl; subst hl
    exact (Hl _ rfl).acquireWrite (.inl rfl) (by simp [hth])
  | lockWriteErr m _ td t log =>
    refine ⟨?_, by simp, Hh⟩
    intro l' hl
    simp only [Option.some.injEq] at hl; subst hl
    exact (Hl _ rfl).acquireWrite (.inr rfl) (by simp [hth])
  | unwindWrite m rs w b _ td t log =>
    refine ⟨?_, by simp, Hh⟩
    intro l' hl
    simp only [Option.some.injEq] at hl; subst hl
    have L := Hl _ rfl
    refine L.releaseWrite (by simp [hth, CachePC.holdsWrite]) rfl rfl ?_
    intro e he
    rcases List.mem_append.mp he with he | he
    · have := L.log i e; rw [hth] at this; exact this he
    · simp only [List.mem_singleton] at he; subst he
      intro p hp; cases hp
  | buildPanic m rs w b _ td t log =>
    refine ⟨?_, by simp, Hh⟩
    intro l' hl
    simp only [Option.some.injEq] at hl; subst hl
    have L := Hl _ rfl
    refine L.releaseWrite (by simp [hth, CachePC.holdsWrite]) rfl rfl ?_
    intro e he
    rcases List.mem_append.mp he with he | he
    · have := L.log i e; rw [hth] at this; exact this he
    · simp only [List.mem_singleton] at he; subst he
      intro p hp; cases hp
  | buildReenter td t log hf =>
    refine ⟨?_, ?_, Hh⟩
    · intro l hl
      have L := Hl l hl
      refine L.local (by simp [hth, CachePC.holdsRead]) (by simp [hth, CachePC.holdsWrite]) (by simp)
        (by simp) (by simp) ?_
      have := L.log i; rw [hth] at this; exact this
    · intro hc
      have := ((Hn hc).2 i).1
      rw [hth] at this; simp [CachePC.inited] at this
  | occupied l _ td t p log hm =>
    refine ⟨?_, by simp, Hh⟩
    intro l' hl
    simp only [Option.some.injEq] at hl; subst hl
    have L := Hl l rfl
    refine L.local (by simp [hth, CachePC.holdsRead]) (by simp [hth, CachePC.holdsWrite]) (by simp)
        (by simp) (by simp; exact hm) ?_
    have := L.log i; rw [hth] at this; exact this
  | vacant l _ td t log hm =>
    refine ⟨?_, by simp, Hh⟩
    intro l' hl
    simp only [Option.some.injEq] at hl; subst hl
    have L := Hl l rfl
    refine L.local (by simp [hth, CachePC.holdsRead]) (by simp [hth, CachePC.holdsWrite])
        (by simp; exact hm) (by simp) (by simp) ?_
    have := L.log i; rw [hth] at this; exact this
  | build m rs w b _ td t log fuel d hf hd =>
    refine ⟨?_, by simp, ?_⟩
    · intro l' hl
      simp only [Option.some.injEq] at hl; subst hl
      exact (Hl _ rfl).insert (by rw [hth]) rfl (by simp [hth])
    · intro e he
      rcases List.mem_append.mp he with he | he
      · exact Hh e he
      · simp only [List.mem_singleton] at he; subst he; exact ⟨fuel, hd⟩
  | returnWrite m rs w b _ td t p log =>
    refine ⟨?_, by simp, Hh⟩
    intro l' hl
    simp only [Option.some.injEq] at hl; subst hl
    have L := Hl _ rfl
    refine L.releaseWrite (by simp [hth, CachePC.holdsWrite]) rfl rfl ?_
    intro e he
    rcases List.mem_append.mp he with he | he
    · have := L.log i e; rw [hth] at this; exact this he
    · simp only [List.mem_singleton] at he; subst he
      intro q hq; cases hq
      exact L.wrote i t p (by rw [hth])

theorem cacheInv {E : Env} {fault} {pref : Prop} {prog s} (h : CacheReach E fault pref prog s) : CacheInv E s := by
  induction h with
  | init => exact cacheInv_init E prog
  | step s i s' _ hs ih => exact cacheInv_step ih hs

/-! ## Which calls a thread has made -/

/-- The call a thread is in. -/
def CachePC.current : CachePC → List Ty
  | .idle => []
  | .start t | .install t | .wantRead t | .reading t | .hit t _ | .miss t | .wantWrite t | .writing t
  | .building t | .wrote t _ | .readErr t | .writeErr t | .stuck t => [t]

theorem cacheCalls_step {E : Env} {fault} {pref nw : Prop} {i sh th sh' th'}
    (h : ThreadStep E fault pref nw i sh th sh' th') :
    th'.log.map (·.1) ++ th'.pc.current ++ th'.todo.map Ty.unbox =
      th.log.map (·.1) ++ th.pc.current ++ th.todo.map Ty.unbox := by
  cases h <;> simp [CachePC.current]

theorem cacheCalls {E : Env} {fault} {pref : Prop} {prog s} (h : CacheReach E fault pref prog s) (i : Nat) :
    (s.thr i).log.map (·.1) ++ (s.thr i).pc.current ++ (s.thr i).todo.map Ty.unbox =
      (prog i).map Ty.unbox := by
  induction h with
  | init => simp [CacheState.init, CachePC.current]
  | step s j s' _ hs ih =>
    obtain ⟨sh, th, hs, rfl⟩ := hs
    by_cases hj : i = j
    · subst hj
      simp only [if_true]
      rw [cacheCalls_step hs, ih]
    · simp only [hj, if_false]; exact ih

/-! ## Progress -/

theorem describe_unbox {E : Env} {t : Ty} : ∀ {fuel d}, describe E fuel t = some d →
    ∃ fuel', describe E fuel' t.unbox = some d := by
  induction t using Ty.unbox.induct with
  | case1 t ih =>
    intro fuel d h
    cases fuel with
    | zero => simp [describe, build] at h
    | succ fuel => exact ih (fuel := fuel) h
  | case2 t hn =>
    intro fuel d h
    rw [Ty.unbox]
    · exact ⟨fuel, h⟩
    · exact hn

/-- All types a program describes can be described. -/
def Describable (E : Env) (prog : Nat → List Ty) : Prop :=
  ∀ i, ∀ t ∈ prog i, ∃ fuel d, describe E fuel t = some d

theorem CacheStep.of_thread {E : Env} {fault} {pref : Prop} {s : CacheState} {i sh th}
    (h : ThreadStep E fault pref s.NoWriters i s.shared (s.thr i) sh th) : ∃ s', CacheStep E fault pref s i s' :=
  ⟨_, sh, th, h, rfl⟩

/-- No metadata expression that the program runs calls `type_descriptor`. -/
def NoReentry (fault : Ty → Option BuildFault) (prog : Nat → List Ty) : Prop :=
  ∀ i, ∀ t ∈ prog i, fault t.unbox ≠ some .reenter

theorem stuck_fault {E : Env} {fault} {pref : Prop} {prog s} (h : CacheReach E fault pref prog s)
    {i : Nat} {t : Ty} (hs : (s.thr i).pc = .stuck t) : fault t = some .reenter := by
  induction h with
  | init => simp [CacheState.init] at hs
  | step s j s' _ hj ih =>
    obtain ⟨sh, th, hj, rfl⟩ := hj
    by_cases hij : i = j
    · subst hij
      simp only [if_true] at hs
      generalize s.thr i = th0 at hj ih
      generalize s.shared = sh0 at hj
      cases hj <;> simp_all
    · simp only [hij, if_false] at hs
      exact ih hs

theorem CacheReach.current_mem {E : Env} {fault} {pref : Prop} {prog s}
    (h : CacheReach E fault pref prog s) {i : Nat} {t : Ty} (ht : t ∈ (s.thr i).pc.current) :
    ∃ u ∈ prog i, u.unbox = t := by
  have hc := cacheCalls h i
  have : t ∈ (prog i).map Ty.unbox := by
    rw [← hc]; exact List.mem_append_left _ (List.mem_append_right _ ht)
  obtain ⟨u, hu, rfl⟩ := List.mem_map.mp this
  exact ⟨u, hu, rfl⟩

theorem holder_steps {E : Env} {fault} {pref : Prop} {prog s} (hp : Describable E prog)
    (hre : NoReentry fault prog)
    (h : CacheReach E fault pref prog s) {l} (hl : s.shared.cell = some l) {i}
    (hi : (s.thr i).pc.holdsRead = true ∨ (s.thr i).pc.holdsWrite = true) :
    ∃ s', CacheStep E fault pref s i s' := by
  have hc := @CacheReach.current_mem _ _ _ _ _ h i
  have hst := @stuck_fault _ _ _ _ _ h i
  obtain ⟨⟨cell, heap⟩, thr⟩ := s
  simp only at hl hi hc hst
  subst hl
  obtain ⟨m, rs, w, b⟩ := l
  suffices H : ∃ sh th, ThreadStep E fault pref
      (CacheState.NoWriters ⟨⟨some ⟨m, rs, w, b⟩, heap⟩, thr⟩) i
      ⟨some ⟨m, rs, w, b⟩, heap⟩ (thr i) sh th by
    obtain ⟨sh, th, H⟩ := H
    exact CacheStep.of_thread H
  generalize thr i = th at hi hc hst
  obtain ⟨td, pc, log⟩ := th
  simp only at hi hc hst
  cases pc with
  | reading t =>
    cases hm : m t with
    | none => exact ⟨_, _, .getNone _ _ _ _ _ hm⟩
    | some p => exact ⟨_, _, .getSome _ _ _ _ _ _ hm⟩
  | hit t p => exact ⟨_, _, .returnHit _ _ _ _ _ _ _ _ _⟩
  | miss t => exact ⟨_, _, .dropRead _ _ _ _ _ _ _ _⟩
  | writing t =>
    cases hm : m t with
    | none => exact ⟨_, _, .vacant _ _ _ _ _ hm⟩
    | some p => exact ⟨_, _, .occupied _ _ _ _ _ _ hm⟩
  | building t =>
    obtain ⟨u, hu, rfl⟩ := hc (t := t) (by simp [CachePC.current])
    obtain ⟨fuel, d, hd⟩ := hp i u hu
    obtain ⟨fuel', hd'⟩ := describe_unbox hd
    cases hf : fault u.unbox with
    | none => exact ⟨_, _, .build _ _ _ _ _ _ _ _ fuel' d hf hd'⟩
    | some f =>
      cases f with
      | panic => exact ⟨_, _, .buildPanic _ _ _ _ _ _ _ _ hf⟩
      | reenter => exact absurd hf (hre i u hu)
  | wrote t p => exact ⟨_, _, .returnWrite _ _ _ _ _ _ _ _ _⟩
  | readErr t => exact ⟨_, _, .unwindRead _ _ _ _ _ _ _ _⟩
  | writeErr t => exact ⟨_, _, .unwindWrite _ _ _ _ _ _ _ _⟩
  | stuck t =>
    obtain ⟨u, hu, rfl⟩ := hc (t := t) (by simp [CachePC.current])
    exact absurd (hst rfl) (hre i u hu)
  | _ => simp [CachePC.holdsRead, CachePC.holdsWrite] at hi

theorem cache_progress {E : Env} {fault} {pref : Prop} {prog s} (hp : Describable E prog)
    (hre : NoReentry fault prog)
    (h : CacheReach E fault pref prog s) {i} (hi : (s.thr i).pc ≠ .idle ∨ (s.thr i).todo ≠ []) :
    ∃ j s', CacheStep E fault pref s j s' := by
  have I := cacheInv h
  -- somebody waits for the lock
  have waiting : ∀ l t, s.shared.cell = some l →
      ((s.thr i).pc = .wantRead t ∨ (s.thr i).pc = .wantWrite t) → ∃ j s', CacheStep E fault pref s j s' := by
    intro l t hl hw
    have L := I.lock l hl
    have hs := @holder_steps _ _ _ _ _ hp hre h _ hl
    obtain ⟨⟨cell, heap⟩, thr⟩ := s
    simp only at hl hw L hs
    subst hl
    obtain ⟨m, rs, w, b⟩ := l
    cases w with
    | some j => exact ⟨j, hs (.inr ((L.writer j).mp rfl))⟩
    | none =>
      cases rs with
      | cons j rs => exact ⟨j, hs (.inl ((L.readers j).mp (by simp)))⟩
      | nil =>
        have lockW : ∀ j t, (thr j).pc = .wantWrite t →
            ∃ s', CacheStep E fault pref ⟨⟨some ⟨m, [], none, b⟩, heap⟩, thr⟩ j s' := by
          intro j t hj
          have : thr j = ⟨(thr j).todo, .wantWrite t, (thr j).log⟩ := by rw [← hj]
          cases b with
          | false => exact CacheStep.of_thread (by simp only; rw [this]; exact .lockWrite _ _ _ _ _)
          | true => exact CacheStep.of_thread (by simp only; rw [this]; exact .lockWriteErr _ _ _ _ _)
        rcases hw with hw | hw
        · by_cases hn : CacheState.NoWriters ⟨⟨some ⟨m, [], none, b⟩, heap⟩, thr⟩
          · refine ⟨i, ?_⟩
            have : thr i = ⟨(thr i).todo, .wantRead t, (thr i).log⟩ := by rw [← hw]
            cases b with
            | false =>
              exact CacheStep.of_thread (by simp only; rw [this]; exact .lockRead _ _ _ _ _ _ fun _ => hn)
            | true =>
              exact CacheStep.of_thread (by simp only; rw [this]; exact .lockReadErr _ _ _ _ _ _ fun _ => hn)
          · simp only [CacheState.NoWriters, not_forall, ne_eq, not_not] at hn
            obtain ⟨j, u, hj⟩ := hn
            exact ⟨j, lockW j u hj⟩
        · exact ⟨i, lockW i t hw⟩
  have inited : (s.thr i).pc.inited = true → ∃ l, s.shared.cell = some l := by
    intro hin
    cases hc : s.shared.cell with
    | some l => exact ⟨l, rfl⟩
    | none => have := ((I.none hc).2 i).1; rw [hin] at this; simp at this
  cases hpc : (s.thr i).pc with
  | idle =>
    rw [hpc] at hi
    simp only [ne_eq, not_true_eq_false, false_or] at hi
    obtain ⟨t, r, htr⟩ := List.exists_cons_of_ne_nil hi
    refine ⟨i, CacheStep.of_thread (sh := s.shared) (th := ⟨r, .start t.unbox, (s.thr i).log⟩) ?_⟩
    have : s.thr i = ⟨t :: r, .idle, (s.thr i).log⟩ := by rw [← hpc, ← htr]
    rw [this]
    exact .call _ _ _ _
  | start t =>
    have e : s.thr i = ⟨(s.thr i).todo, .start t, (s.thr i).log⟩ := by rw [← hpc]
    obtain ⟨⟨cell, heap⟩, thr⟩ := s
    simp only at e
    cases cell with
    | none => exact ⟨i, CacheStep.of_thread (by simp only; rw [e]; exact .loadNone _ _ _ _)⟩
    | some l => exact ⟨i, CacheStep.of_thread (by simp only; rw [e]; exact .loadSome _ _ _ _ _)⟩
  | install t =>
    have e : s.thr i = ⟨(s.thr i).todo, .install t, (s.thr i).log⟩ := by rw [← hpc]
    obtain ⟨⟨cell, heap⟩, thr⟩ := s
    simp only at e
    cases cell with
    | none => exact ⟨i, CacheStep.of_thread (by simp only; rw [e]; exact .installWin _ _ _ _)⟩
    | some l => exact ⟨i, CacheStep.of_thread (by simp only; rw [e]; exact .installLose _ _ _ _ _)⟩
  | wantRead t =>
    obtain ⟨l, hl⟩ := inited (by simp [hpc, CachePC.inited])
    exact waiting l t hl (.inl hpc)
  | wantWrite t =>
    obtain ⟨l, hl⟩ := inited (by simp [hpc, CachePC.inited])
    exact waiting l t hl (.inr hpc)
  | reading t =>
    obtain ⟨l, hl⟩ := inited (by simp [hpc, CachePC.inited])
    exact ⟨i, holder_steps hp hre h hl (by simp [hpc, CachePC.holdsRead])⟩
  | hit t p =>
    obtain ⟨l, hl⟩ := inited (by simp [hpc, CachePC.inited])
    exact ⟨i, holder_steps hp hre h hl (by simp [hpc, CachePC.holdsRead])⟩
  | miss t =>
    obtain ⟨l, hl⟩ := inited (by simp [hpc, CachePC.inited])
    exact ⟨i, holder_steps hp hre h hl (by simp [hpc, CachePC.holdsRead])⟩
  | writing t =>
    obtain ⟨l, hl⟩ := inited (by simp [hpc, CachePC.inited])
    exact ⟨i, holder_steps hp hre h hl (by simp [hpc, CachePC.holdsWrite])⟩
  | building t =>
    obtain ⟨l, hl⟩ := inited (by simp [hpc, CachePC.inited])
    exact ⟨i, holder_steps hp hre h hl (by simp [hpc, CachePC.holdsWrite])⟩
  | wrote t p =>
    obtain ⟨l, hl⟩ := inited (by simp [hpc, CachePC.inited])
    exact ⟨i, holder_steps hp hre h hl (by simp [hpc, CachePC.holdsWrite])⟩
  | readErr t =>
    obtain ⟨l, hl⟩ := inited (by simp [hpc, CachePC.inited])
    exact ⟨i, holder_steps hp hre h hl (by simp [hpc, CachePC.holdsRead])⟩
  | writeErr t =>
    obtain ⟨l, hl⟩ := inited (by simp [hpc, CachePC.inited])
    exact ⟨i, holder_steps hp hre h hl (by simp [hpc, CachePC.holdsWrite])⟩
  | stuck t =>
    obtain ⟨l, hl⟩ := inited (by simp [hpc, CachePC.inited])
    exact ⟨i, holder_steps hp hre h hl (by simp [hpc, CachePC.holdsWrite])⟩

/-! ## Termination -/

/-- Steps left in the current call. -/
def CachePC.rank : CachePC → Nat
  | .idle => 0
  | .start _ => 11
  | .install _ => 10
  | .wantRead _ => 9
  | .reading _ => 8
  | .hit _ _ => 1
  | .miss _ => 7
  | .wantWrite _ => 6
  | .writing _ => 5
  | .building _ => 4
  | .wrote _ _ => 3
  | .readErr _ => 8
  | .writeErr _ => 5
  | .stuck _ => 3

/-- An upper bound on the steps a thread still makes. -/
def CacheThread.rank (th : CacheThread) : Nat := 12 * th.todo.length + th.pc.rank

theorem threadStep_rank {E : Env} {fault} {pref nw : Prop} {i sh th sh' th'}
    (h : ThreadStep E fault pref nw i sh th sh' th') : th'.rank < th.rank := by
  cases h <;> simp [CacheThread.rank, CachePC.rank] <;> omega

/-- Total rank of the threads below `N`. -/
def CacheState.rank (s : CacheState) (N : Nat) : Nat := ((List.range N).map fun i => (s.thr i).rank).sum

theorem sum_lt_of_update {f g : Nat → Nat} {i N : Nat} (hi : i < N) (h : g i < f i)
    (ho : ∀ j, j ≠ i → g j = f j) : ((List.range N).map g).sum < ((List.range N).map f).sum := by
  induction N with
  | zero => omega
  | succ N ih =>
    simp only [List.range_succ, List.map_append, List.sum_append, List.map_cons, List.map_nil,
      List.sum_cons, List.sum_nil]
    by_cases hiN : i = N
    · subst hiN
      have : (List.range i).map g = (List.range i).map f := by
        apply List.map_congr_left
        intro j hj
        simp only [List.mem_range] at hj
        exact ho j (by omega)
      rw [this]; omega
    · have := ih (by omega)
      have := ho N (Ne.symm hiN)
      omega

theorem cacheStep_rank {E : Env} {fault} {pref : Prop} {s i s' N} (hi : i < N) (h : CacheStep E fault pref s i s') :
    s'.rank N < s.rank N := by
  obtain ⟨sh, th, hs, rfl⟩ := h
  refine sum_lt_of_update hi ?_ ?_
  · simp only [if_true]; exact threadStep_rank hs
  · intro j hj; simp [hj]

/-- Threads without calls do nothing. -/
theorem cacheStep_lt {E : Env} {fault} {pref : Prop} {prog : Nat → List Ty} {N} (hN : ∀ i, N ≤ i → prog i = [])
    {s i s'} (hr : CacheReach E fault pref prog s) (h : CacheStep E fault pref s i s') : i < N := by
  by_contra hi
  have hc := cacheCalls hr i
  rw [hN i (by omega)] at hc
  simp only [List.map_nil, List.append_eq_nil_iff, List.map_eq_nil_iff] at hc
  obtain ⟨sh, th, hs, rfl⟩ := h
  have hcur : (s.thr i).pc = .idle := by
    cases hp : (s.thr i).pc <;> simp_all [CachePC.current]
  have htd := hc.2
  generalize s.thr i = t at hs hcur htd
  generalize s.shared = sh0 at hs
  cases hs <;> simp_all

theorem cacheRun_bound {E : Env} {fault} {pref : Prop} {prog : Nat → List Ty} {N}
    (hN : ∀ i, N ≤ i → prog i = []) {n s s'} (hr : CacheReach E fault pref prog s)
    (h : CacheRun E fault pref n s s') : n + s'.rank N ≤ s.rank N ∧ CacheReach E fault pref prog s' := by
  induction h with
  | nil s => exact ⟨by omega, hr⟩
  | cons n s i s' s'' hs _ ih =>
    have hr' : CacheReach E fault pref prog s' := .step _ _ _ hr hs
    obtain ⟨h1, h2⟩ := ih hr'
    have := cacheStep_rank (cacheStep_lt hN hr hs) hs
    exact ⟨by omega, h2⟩

theorem init_rank (prog : Nat → List Ty) (N : Nat) :
    (CacheState.init prog).rank N = 12 * ((List.range N).map fun i => (prog i).length).sum := by
  simp only [CacheState.rank, CacheState.init, CacheThread.rank, CachePC.rank, Nat.add_zero]
  induction N with
  | zero => rfl
  | succ N ih =>
    simp only [List.range_succ, List.map_append, List.sum_append, ih, List.map_cons, List.map_nil,
      List.sum_cons, List.sum_nil]
    omega

end Mirror
