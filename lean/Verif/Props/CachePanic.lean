import Verif.Props.Cache

set_option linter.unusedSimpArgs false

/-!
# Panics and nested calls while a type is described (C59)

`#[reflect(meta(key = expr))]` expressions run inside `type_descriptor()`, while it has the write guard of
the global cache. `fault t` says what the expressions that run while `t` is described do: `none` (they
return), `panic`, or `reenter` (they call `type_descriptor()` of some type). A finished call `(t, some p)`
returned the descriptor at `p`; `(t, none)` panicked.

One would expect that such a fault concerns the call in which it happens and no other. What is true is
proved here: it never makes a call return a wrong descriptor (`C59_never_wrong_partial`), but one panic makes
every later call panic, and one nested call blocks all calls forever.
-/

namespace Mirror

variable {E : Env} {fault : Ty → Option BuildFault} {pref : Prop} {prog : Nat → List Ty} {s : CacheState}

/-- C59 (partial): whatever metadata expressions do, a call that returns gives the descriptor of its type,
the same one for all calls, which stays valid; and a type whose expressions panic or nest is never
described. Missing: that other calls do return, which is false (`C59_panic_spreads`,
`C59_nested_call_blocks_all`). -/
theorem C59_never_wrong_partial (h : CacheReach E fault pref prog s) {i : Nat} {t : Ty} {p : Nat}
    (hp : (t, some p) ∈ (s.thr i).log) :
    fault t = none ∧
    ∃ d fuel, describe E fuel t = some d ∧
      ∀ {n s'}, CacheRun E fault pref n s s' → s'.shared.heap[p]? = some (t, d) := by
  obtain ⟨_, d, fuel, h1, h2⟩ := cache_same_descriptor h hp hp
  exact ⟨(poisonInv h).built _ (List.mem_of_getElem? h1), d, fuel, h2, fun hr => cache_stable h hr h1⟩

/-- C59 (partial): without nested calls, panics do not block anybody: every call finishes, with a
descriptor or with a panic (and in at most twelve steps per call, `cache_terminates`). -/
theorem C59_panics_do_not_block_partial (hp : Describable E prog) (hre : NoReentry fault prog)
    (h : CacheReach E fault pref prog s) (hs : ∀ i s', ¬ CacheStep E fault pref s i s') (i : Nat) :
    (s.thr i).log.map (·.1) = (prog i).map Ty.unbox :=
  cache_complete hp hre h hs i

/-- C59 fails: once one call of any thread has panicked, every call that finishes later, of any thread and
for any type, panics too, even if the type's descriptor is already in the cache. -/
theorem C59_panic_spreads (h : CacheReach E fault pref prog s) {i : Nat} {t : Ty}
    (hp : (t, none) ∈ (s.thr i).log) {n s'} (hr : CacheRun E fault pref n s s') (j : Nat) :
    ∃ later, (s'.thr j).log = (s.thr j).log ++ later ∧ ∀ e ∈ later, e.2 = none :=
  (poisoned_run h (panicked_poisoned h hp) hr).2 j

/-- C59. No call panics unless some thread describes a type whose metadata expressions panic. -/
theorem C59_panic_has_cause (h : CacheReach E fault pref prog s) {i : Nat} {t : Ty}
    (hp : (t, none) ∈ (s.thr i).log) : ∃ j, ∃ u ∈ prog j, fault u.unbox = some .panic :=
  poisoned_blame h (panicked_poisoned h hp)

/-- C59 fails, for every program: if one of its calls is for a type whose metadata expressions panic, then
at the end this call has panicked. With `C59_panic_spreads`, so has every call that finished after it. -/
theorem C59_panicking_type_panics (hp : Describable E prog) (hre : NoReentry fault prog)
    (h : CacheReach E fault pref prog s) (hs : ∀ i s', ¬ CacheStep E fault pref s i s') {i : Nat} {u : Ty}
    (hu : u ∈ prog i) (hf : fault u.unbox = some .panic) : (u.unbox, none) ∈ (s.thr i).log := by
  have hc := cache_complete hp hre h hs i
  have hm : u.unbox ∈ (s.thr i).log.map (·.1) := by rw [hc]; exact List.mem_map.mpr ⟨u, hu, rfl⟩
  obtain ⟨⟨t, r⟩, he, ht⟩ := List.mem_map.mp hm
  simp only at ht
  subst ht
  cases r with
  | none => exact he
  | some p => rw [(C59_never_wrong_partial h he).1] at hf; cases hf

/-- C59 fails: once a metadata expression has called `type_descriptor`, no call of any thread, for any type,
ever finishes again. -/
theorem C59_nested_call_blocks_all (h : CacheReach E fault pref prog s) {i : Nat} {t : Ty}
    (hi : (s.thr i).pc = .stuck t) {n s'} (hr : CacheRun E fault pref n s s') (j : Nat) :
    (s'.thr j).log = (s.thr j).log :=
  (stuck_run h hi hr).2 j

/-- C59 fails, for every program in which no metadata expression panics: a call for a type whose metadata
expressions call `type_descriptor` never finishes. -/
theorem C59_nested_call_never_returns (hf : ∀ i, ∀ t ∈ prog i, fault t.unbox ≠ some .panic)
    (h : CacheReach E fault pref prog s) {t : Ty} (ht : fault t = some .reenter) (i : Nat) (r : Option Nat) :
    (t, r) ∉ (s.thr i).log := by
  intro he
  cases r with
  | none =>
    obtain ⟨j, u, hu, hp⟩ := C59_panic_has_cause h he
    exact hf j u hu hp
  | some p => rw [(C59_never_wrong_partial h he).1] at ht; cases ht

/-! ## Concrete runs -/

/-- Thread 0 describes `Tree`, then `Pair` and then `Tree` again. -/
def faultProg : Nat → List Ty
  | 0 => [.named "Tree", .named "Pair", .named "Tree"]
  | _ => []

/-- Thread 0 describes `Tree`, then starts to describe `Pair`. -/
theorem fault_building {fault : Ty → Option BuildFault} (hf : fault (.named "Tree") = none) :
    ∃ s d, CacheReach demoEnv fault False faultProg s ∧
      s.shared = ⟨some ⟨fun u => if u = .named "Tree" then some 0 else none, [], some 0, false⟩,
        [(.named "Tree", d)]⟩ ∧
      s.thr 0 = ⟨[.named "Tree"], .building (.named "Pair"), [(.named "Tree", some 0)]⟩ := by
  obtain ⟨d, hd⟩ : ∃ d, describe demoEnv 10 (.named "Tree") = some d := ⟨_, rfl⟩
  have h0 : CacheReach demoEnv fault False faultProg (.init faultProg) := .init
  have h1 := h0.thread (i := 0) (.call _ _ _ _)
  have h2 := h1.thread (i := 0) (.loadNone _ _ _ _)
  have h3 := h2.thread (i := 0) (.installWin _ _ _ _)
  have h4 := h3.thread (i := 0) (.lockRead _ _ _ _ _ _ False.elim)
  have h5 := h4.thread (i := 0) (.getNone _ _ _ _ _ rfl)
  have h6 := h5.thread (i := 0) (.dropRead _ _ _ _ _ _ _ _)
  have h7 := h6.thread (i := 0) (.lockWrite _ _ _ _ _)
  have h8 := h7.thread (i := 0) (.vacant _ _ _ _ _ rfl)
  have h9 := h8.thread (i := 0) (.build _ _ _ _ _ _ _ _ 10 d hf hd)
  have h10 := h9.thread (i := 0) (.returnWrite _ _ _ _ _ _ _ _ _)
  have h11 := h10.thread (i := 0) (.call _ _ _ _)
  have h12 := h11.thread (i := 0) (.loadSome _ _ _ _ _)
  have h13 := h12.thread (i := 0) (.lockRead _ _ _ _ _ _ False.elim)
  have h14 := h13.thread (i := 0) (.getNone _ _ _ _ _ rfl)
  have h15 := h14.thread (i := 0) (.dropRead _ _ _ _ _ _ _ _)
  have h16 := h15.thread (i := 0) (.lockWrite _ _ _ _ _)
  have h17 := h16.thread (i := 0) (.vacant _ _ _ _ _ rfl)
  exact ⟨_, d, h17, rfl, rfl⟩

/-- Non-vacuity: `Pair`'s metadata panics. The second call panics, and so does the third one although
`Tree` was described before. -/
example : ∃ s, CacheReach demoEnv (fun t => if t = .named "Pair" then some .panic else none) False
      faultProg s ∧
    (s.thr 0).log = [(.named "Tree", some 0), (.named "Pair", none), (.named "Tree", none)] := by
  obtain ⟨⟨sh, thr⟩, d, h, h1, h2⟩ := fault_building
    (fault := fun t => if t = .named "Pair" then some .panic else none) (by simp)
  simp only at h1 h2
  subst h1
  have h18 := h.thread (i := 0) (by simp only [h2]; exact .buildPanic _ _ _ _ _ _ _ _ (by simp))
  have h19 := h18.thread (i := 0) (.call _ _ _ _)
  have h20 := h19.thread (i := 0) (.loadSome _ _ _ _ _)
  have h21 := h20.thread (i := 0) (.lockReadErr _ _ _ _ _ _ False.elim)
  have h22 := h21.thread (i := 0) (.unwindRead _ _ _ _ _ _ _ _)
  exact ⟨_, h22, rfl⟩

/-- Non-vacuity: `Pair`'s metadata calls `type_descriptor`. -/
example : ∃ s, CacheReach demoEnv (fun t => if t = .named "Pair" then some .reenter else none) False
      faultProg s ∧ (s.thr 0).pc = .stuck (.named "Pair") := by
  obtain ⟨⟨sh, thr⟩, d, h, h1, h2⟩ := fault_building
    (fault := fun t => if t = .named "Pair" then some .reenter else none) (by simp)
  simp only at h1 h2
  subst h1
  have h18 := h.thread (i := 0) (by simp only [h2]; exact .buildReenter _ _ _ _ (by simp))
  exact ⟨_, h18, rfl⟩

end Mirror
