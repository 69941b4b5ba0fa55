import Verif.Lemmas.CachePanic
import Verif.Lemmas.Demo

set_option linter.unusedSimpArgs false

/-!
# The descriptor cache under concurrency (C36)

Thread `i` calls `type_descriptor()` for the types `prog i`, one after the other. `CacheReach E fault pref prog s`:
the state `s` is reachable by some schedule. The log of a thread holds, for every finished call, the type
and the address that was returned, or `none` if the call panicked; `heap` holds everything that was ever built, in order, so an address is
an index into it. `pref` chooses whether readers wait for waiting writers. `fault t` says
whether the user's metadata expressions that run while `t` is described panic or call `type_descriptor`
themselves; C59 is about those.
-/

namespace Mirror

variable {E : Env} {fault : Ty → Option BuildFault} {pref : Prop} {prog : Nat → List Ty} {s : CacheState}

/-- C36. All calls for the same type, by whichever threads, return the same address, and what is there is
the descriptor that `describe` computes for the type. This holds whether or not metadata expressions
panic or call `type_descriptor` themselves. -/
theorem cache_same_descriptor (h : CacheReach E fault pref prog s) {i j : Nat} {t : Ty} {p q : Nat}
    (hp : (t, some p) ∈ (s.thr i).log) (hq : (t, some q) ∈ (s.thr j).log) :
    p = q ∧ ∃ d fuel, s.shared.heap[p]? = some (t, d) ∧ describe E fuel t = some d := by
  have I := cacheInv h
  cases hc : s.shared.cell with
  | none => have := ((I.none hc).2 i).2; rw [this] at hp; simp at hp
  | some l =>
    have L := I.lock l hc
    have h1 := L.log i _ hp p rfl
    have h2 := L.log j _ hq q rfl
    simp only at h1 h2
    refine ⟨Option.some.inj (h1.symm.trans h2), ?_⟩
    obtain ⟨d, hd⟩ := (L.map t p).mp h1
    obtain ⟨fuel, hf⟩ := I.heap _ (List.mem_of_getElem? hd)
    exact ⟨d, fuel, hd, hf⟩

/-- C36. Each type is built at most once. -/
theorem cache_built_once (h : CacheReach E fault pref prog s) : (s.shared.heap.map (·.1)).Nodup := by
  have I := cacheInv h
  cases hc : s.shared.cell with
  | none => rw [(I.none hc).1]; simp
  | some l =>
    have L := I.lock l hc
    rw [List.Nodup, List.pairwise_iff_getElem]
    intro a b ha hb hab he
    simp only [List.length_map] at ha hb
    simp only [List.getElem_map] at he
    have h1 := (L.map s.shared.heap[a].1 a).mpr ⟨s.shared.heap[a].2, List.getElem?_eq_getElem ha⟩
    have h2 := (L.map s.shared.heap[b].1 b).mpr ⟨s.shared.heap[b].2, List.getElem?_eq_getElem hb⟩
    rw [he, h2] at h1
    simp at h1; omega

/-- C36. What was returned stays valid: a later state still has the same descriptor at the same address. -/
theorem cache_stable (h : CacheReach E fault pref prog s) {n s'} (hr : CacheRun E fault pref n s s') {p : Nat} {e}
    (he : s.shared.heap[p]? = some e) : s'.shared.heap[p]? = some e := by
  induction hr with
  | nil => exact he
  | cons n s i s1 s2 hs _ ih =>
    refine ih (.step _ _ _ h hs) ?_
    obtain ⟨sh, th, hs, rfl⟩ := hs
    simp only
    obtain ⟨⟨c, hp⟩, thr⟩ := s
    simp only at hs he ⊢
    generalize thr i = th0 at hs
    cases hs <;> first | exact he | skip
    rw [List.getElem?_append_left (List.getElem?_eq_some_iff.mp he).1]
    exact he

/-- C36. No deadlock: as long as some thread has a call to make or to finish, some thread can take a
step. -/
theorem cache_no_deadlock (hp : Describable E prog) (hre : NoReentry fault prog)
    (h : CacheReach E fault pref prog s) {i : Nat}
    (hi : (s.thr i).pc ≠ .idle ∨ (s.thr i).todo ≠ []) : ∃ j s', CacheStep E fault pref s j s' :=
  cache_progress hp hre h hi

/-- C36. No livelock and no starvation: a schedule of finitely many calls has at most twelve steps per
call. -/
theorem cache_terminates {N : Nat} (hN : ∀ i, N ≤ i → prog i = []) {n}
    (hr : CacheRun E fault pref n (.init prog) s) :
    n ≤ 12 * ((List.range N).map fun i => (prog i).length).sum := by
  have := (cacheRun_bound hN .init hr).1
  rw [init_rank] at this
  omega

/-- C36. When no step is possible any more, every thread has finished all its calls, in order. (`Box<T>` is
described by `T`.) -/
theorem cache_complete (hp : Describable E prog) (hre : NoReentry fault prog)
    (h : CacheReach E fault pref prog s)
    (hs : ∀ i s', ¬ CacheStep E fault pref s i s') (i : Nat) :
    (s.thr i).log.map (·.1) = (prog i).map Ty.unbox := by
  have hc := cacheCalls h i
  by_cases hi : (s.thr i).pc ≠ .idle ∨ (s.thr i).todo ≠ []
  · obtain ⟨j, s', hj⟩ := cache_progress hp hre h hi
    exact absurd hj (hs j s')
  · simp only [ne_eq, not_or, not_not] at hi
    rw [hi.1, hi.2] at hc
    simpa [CachePC.current] using hc

/-- C36. If no metadata expression panics or calls `type_descriptor`, no call panics. -/
theorem cache_returns (hf : ∀ i, ∀ t ∈ prog i, fault t.unbox = none) (h : CacheReach E fault pref prog s)
    (i : Nat) : ∀ e ∈ (s.thr i).log, e.2 ≠ none := by
  intro e he hn
  obtain ⟨j, u, hu, hfu⟩ := poisoned_blame h (panicked_poisoned h (i := i) (t := e.1) (by rw [← hn]; exact he))
  rw [hf j u hu] at hfu
  cases hfu

/-- Three threads that describe `Tree`, a boxed `Tree` and `Vec<Tree>` satisfy the hypotheses. -/
def demoProg : Nat → List Ty
  | 0 => [.named "Tree", .vec (.named "Tree")]
  | 1 => [.box (.named "Tree"), .named "Tree"]
  | 2 => [.vec (.named "Tree")]
  | _ => []

example : Describable demoEnv demoProg ∧ NoReentry (fun _ => none) demoProg ∧
    ∀ i, 3 ≤ i → demoProg i = [] := by
  refine ⟨?_, by simp [NoReentry], ?_⟩
  · intro i t ht
    match i with
    | 0 =>
      simp only [demoProg, List.mem_cons, List.not_mem_nil, or_false] at ht
      rcases ht with rfl | rfl <;> exact ⟨10, _, rfl⟩
    | 1 =>
      simp only [demoProg, List.mem_cons, List.not_mem_nil, or_false] at ht
      rcases ht with rfl | rfl <;> exact ⟨10, _, rfl⟩
    | 2 =>
      simp only [demoProg, List.mem_cons, List.not_mem_nil, or_false] at ht
      subst ht; exact ⟨10, _, rfl⟩
    | n + 3 => simp [demoProg] at ht
  · intro i hi
    match i, hi with
    | n + 3, _ => rfl

/-- A step by its thread step. -/
theorem CacheReach.thread {i sh th} (h : CacheReach E fault pref prog s)
    (hs : ThreadStep E fault pref s.NoWriters i s.shared (s.thr i) sh th) :
    CacheReach E fault pref prog ⟨sh, fun j => if j = i then th else s.thr j⟩ :=
  .step _ i _ h ⟨sh, th, hs, rfl⟩

/-- A schedule in which threads 0 and 1 both find the cache uninitialised, both miss, thread 0 builds
`Tree`, and thread 1 finds it under the write lock: both return address 0. -/
example : ∃ s, CacheReach demoEnv (fun _ => none) False demoProg s ∧ (Ty.named "Tree", some 0) ∈ (s.thr 0).log ∧
    (Ty.named "Tree", some 0) ∈ (s.thr 1).log := by
  obtain ⟨d, hd⟩ : ∃ d, describe demoEnv 10 (.named "Tree") = some d := ⟨_, rfl⟩
  have h0 : CacheReach demoEnv (fun _ => none) False demoProg (.init demoProg) := .init
  have h1 := h0.thread (i := 0) (.call _ _ _ _)
  have h2 := h1.thread (i := 1) (.call _ _ _ _)
  have h3 := h2.thread (i := 0) (.loadNone _ _ _ _)
  have h4 := h3.thread (i := 1) (.loadNone _ _ _ _)
  have h5 := h4.thread (i := 0) (.installWin _ _ _ _)
  have h6 := h5.thread (i := 1) (.installLose _ _ _ _ _)
  have h7 := h6.thread (i := 0) (.lockRead _ _ _ _ _ _ False.elim)
  have h8 := h7.thread (i := 1) (.lockRead _ _ _ _ _ _ False.elim)
  have h9 := h8.thread (i := 0) (.getNone _ _ _ _ _ rfl)
  have h10 := h9.thread (i := 1) (.getNone _ _ _ _ _ rfl)
  have h11 := h10.thread (i := 0) (.dropRead _ _ _ _ _ _ _ _)
  have h12 := h11.thread (i := 1) (.dropRead _ _ _ _ _ _ _ _)
  have h13 := h12.thread (i := 0) (.lockWrite _ _ _ _ _)
  have h14 := h13.thread (i := 0) (.vacant _ _ _ _ _ rfl)
  have h15 := h14.thread (i := 0) (.build _ _ _ _ _ _ _ _ 10 d rfl hd)
  have h16 := h15.thread (i := 0) (.returnWrite _ _ _ _ _ _ _ _ _)
  have h17 := h16.thread (i := 1) (.lockWrite _ _ _ _ _)
  have h18 := h17.thread (i := 1) (.occupied _ _ _ _ _ _ rfl)
  have h19 := h18.thread (i := 1) (.returnWrite _ _ _ _ _ _ _ _ _)
  exact ⟨_, h19, by simp; rfl, by simp; rfl⟩

end Mirror
