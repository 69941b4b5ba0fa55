import Verif.Model.Hygiene
import Verif.Lemmas.Patch

set_option linter.unusedSimpArgs false

/-!
# Running the generated code of struct-like variants
-/

namespace Mirror

theorem lookup_app {α} (n : String) (a b : List (String × α)) :
    lookup n (a ++ b) = (lookup n a).or (lookup n b) := by
  induction a with
  | nil => simp [lookup]
  | cons p r ih =>
    simp only [List.cons_append, lookup]
    split
    · simp
    · exact ih

theorem lookup_armEnv (n : String) (fs : List (String × Obj)) :
    lookup n (armEnv fs) = (lookup n fs).map .fld := lookup_map _ fs n

theorem vis_mem {fs : List (String × Obj)} {p : String × Obj} (h : p ∈ visFields fs) :
    p ∈ fs ∧ p.2.isHidden = false := by
  rw [visFields, List.mem_filter] at h
  simpa using h

/-- A binder that is not a field keeps its meaning. -/
theorem lookup_free {n : String} {fs : List (String × Obj)} (h : n ∉ fs.map (·.1)) (ρ : GEnv) :
    lookup n (armEnv fs ++ ρ) = lookup n ρ := by
  rw [lookup_app, lookup_armEnv, lookup_none_iff.mpr h]; rfl

/-- A field hides an outer variable of the same name. -/
theorem lookup_bound {n : String} {x : Obj} {fs : List (String × Obj)} (hn : (fs.map (·.1)).Nodup)
    (h : (n, x) ∈ fs) (ρ : GEnv) : lookup n (armEnv fs ++ ρ) = some (.fld x) := by
  rw [lookup_app, lookup_armEnv, lookup_of_mem_nodup hn h]; rfl

/-- Comparing with a variable whose value reads as the text `c`. -/
theorem run_named {hs : Nat → Option String} {ρ : GEnv} {nv : GVal} {c : String}
    (h : lookup "name" ρ = some nv) (hc : ∀ b, nv.eq hs (.str b) = some (c == b)) :
    ∀ l : List (String × Obj), (∀ p ∈ l, lookup p.1 ρ = some (.fld p.2)) →
      retField (GStmt.run hs ρ (l.map fun p => ⟨.var "name", .str p.1, .var p.1⟩)) =
        some (lookup c l)
  | [], _ => rfl
  | p :: r, hl => by
    have ih := run_named h hc r fun q hq => hl q (List.mem_cons_of_mem _ hq)
    simp only [List.map_cons, GStmt.run, GExpr.eval, h, hc, Option.bind_eq_bind, Option.bind_some,
      hl p (List.mem_cons_self ..), lookup]
    by_cases hcp : c = p.1
    · simp [hcp, retField]
    · simp only [beq_iff_eq, hcp, if_false, Ne.symm hcp]
      exact ih

/-- The first comparison already fails to compile. -/
theorem run_named_none {hs : Nat → Option String} {ρ : GEnv} {nv : GVal}
    (h : lookup "name" ρ = some nv) (hc : ∀ b, nv.eq hs (.str b) = none)
    {l : List (String × Obj)} (hl : l ≠ []) :
    retField (GStmt.run hs ρ (l.map fun p => ⟨.var "name", .str p.1, .var p.1⟩)) = none := by
  cases l with
  | nil => exact absurd rfl hl
  | cons p r =>
    simp only [List.map_cons, GStmt.run, GExpr.eval, h, hc, Option.bind_eq_bind, Option.bind_some,
      Option.bind_none, retField]

theorem genIdx_mem {q : Nat × String × Obj} :
    ∀ {i : Nat} {fs : List (String × Obj)}, q ∈ genIdx i fs → q.2 ∈ fs
  | _, [], h => by simp [genIdx] at h
  | i, p :: r, h => by
    rw [genIdx] at h
    split at h
    · exact List.mem_cons_of_mem _ (genIdx_mem h)
    · rcases List.mem_cons.mp h with rfl | h
      · exact List.mem_cons_self ..
      · exact List.mem_cons_of_mem _ (genIdx_mem h)

theorem genIdx_ne {i : Nat} {fs : List (String × Obj)} (h : visFields fs ≠ []) : genIdx i fs ≠ [] := by
  induction fs generalizing i with
  | nil => exact absurd rfl h
  | cons p r ih =>
    rw [genIdx]
    split
    · next hp =>
      refine ih ?_
      rwa [visFields, List.filter_cons_of_neg (by simp [hp])] at h
    · simp

theorem genIdx_nil {i : Nat} {fs : List (String × Obj)} (h : visFields fs = []) : genIdx i fs = [] := by
  induction fs generalizing i with
  | nil => rfl
  | cons p r ih =>
    rw [genIdx]
    split
    · next hp =>
      refine ih ?_
      rwa [visFields, List.filter_cons_of_neg (by simp [hp])] at h
    · next hp => rw [visFields, List.filter_cons_of_pos (by simp [hp])] at h; cases h

theorem visAt_nil (i : Nat) {fs : List (String × Obj)} (h : visFields fs = []) :
    visAt (fs.map (·.2)) i = none := by
  rw [visAt]
  cases hi : (fs.map (·.2))[i]? with
  | none => rfl
  | some x =>
    obtain ⟨p, hp, rfl⟩ := List.mem_map.mp (List.mem_of_getElem? hi)
    have : p.2.isHidden = true := by
      cases hx : p.2.isHidden with
      | true => rfl
      | false =>
        have : p ∈ visFields fs := List.mem_filter.mpr ⟨hp, by simp [hx]⟩
        rw [h] at this; cases this
    simp only [this, if_true]

/-- Comparing indices with the parameter. -/
theorem run_index {hs : Nat → Option String} {ρ : GEnv} {k : Nat} {ret : String × Obj → GExpr}
    {val : String × Obj → GVal} (h : lookup "index" ρ = some (.num k)) :
    ∀ (i : Nat) (l : List (String × Obj)), (∀ p ∈ l, (ret p).eval ρ = some (val p)) →
      GStmt.run hs ρ ((genIdx i l).map fun q => ⟨.num q.1, .var "index", ret q.2⟩) =
        some (if i ≤ k then
          (l[k - i]?).bind fun p => if p.2.isHidden then none else some (val p) else none)
  | i, [], _ => by simp [genIdx, GStmt.run]
  | i, p :: r, hl => by
    have ih := run_index (hs := hs) h (i + 1) r fun q hq => hl q (List.mem_cons_of_mem _ hq)
    have hp := hl p (List.mem_cons_self ..)
    rw [genIdx]
    by_cases hh : p.2.isHidden
    · rw [if_pos hh, ih]
      rcases Nat.lt_trichotomy i k with hik | rfl | hik
      · rw [if_pos (by omega), if_pos (by omega)]
        obtain ⟨d, rfl⟩ : ∃ d, k = i + 1 + d := ⟨k - i - 1, by omega⟩
        rw [show i + 1 + d - (i + 1) = d by omega, show i + 1 + d - i = d + 1 by omega]
        simp
      · rw [if_neg (by omega), if_pos (by omega)]; simp [hh]
      · rw [if_neg (by omega), if_neg (by omega)]
    · rw [if_neg hh]
      simp only [List.map_cons, GStmt.run, GExpr.eval, h, GVal.eq, Option.bind_eq_bind,
        Option.bind_some]
      by_cases hik : i = k
      · subst hik
        have hp' := hp
        rw [GExpr.eval.eq_def] at hp'
        simp [hp', hh]
      · have : (i == k) = false := by simp [hik]
        simp only [this, Bool.false_eq_true, if_false, Option.pure_def]
        rw [ih]
        rcases Nat.lt_or_gt_of_ne hik with hik | hik
        · rw [if_pos (by omega), if_pos (by omega)]
          obtain ⟨d, rfl⟩ : ∃ d, k = i + 1 + d := ⟨k - i - 1, by omega⟩
          rw [show i + 1 + d - (i + 1) = d by omega, show i + 1 + d - i = d + 1 by omega]
          simp
        · rw [if_neg (by omega), if_neg (by omega)]

theorem run_index_none {hs : Nat → Option String} {ρ : GEnv} {x : Obj}
    {ret : String × Obj → GExpr} (h : lookup "index" ρ = some (.fld x))
    {l : List (Nat × String × Obj)} (hl : l ≠ []) :
    GStmt.run hs ρ (l.map fun q => ⟨.num q.1, .var "index", ret q.2⟩) = none := by
  cases l with
  | nil => exact absurd rfl hl
  | cons p r => simp [GStmt.run, GExpr.eval, h, GVal.eq]

theorem genToValueRun_eq {ρ : GEnv} (hb : lookup "value" ρ = some .builder) :
    ∀ (l : List (String × Obj)) (vn : String) (s : List String × List (String × Value)),
      (∀ p ∈ l, lookup p.1 ρ = some (.fld p.2)) →
      genToValueRun ρ l (.enumS vn s.1 s.2) =
        some (let r := (l.map fun p => (p.1, p.2.toValue)).foldl (fun s p => svSet s p.1 p.2) s
              .enumS vn r.1 r.2)
  | [], _, _, _ => rfl
  | p :: r, vn, s, hl => by
    rw [genToValueRun, hb, hl p (List.mem_cons_self ..)]
    simp only [evSetStructField, Option.bind_some, List.map_cons, List.foldl_cons]
    exact genToValueRun_eq hb r vn _ fun q hq => hl q (List.mem_cons_of_mem _ hq)

theorem genToValueRun_none {ρ : GEnv} {p : String × Obj} (hp : lookup p.1 ρ = some .builder) :
    ∀ (l : List (String × Obj)) (acc : Value), p ∈ l → genToValueRun ρ l acc = none
  | q :: r, acc, h => by
    rw [genToValueRun]
    split
    · next hb hq =>
      rcases List.mem_cons.mp h with rfl | h
      · rw [hp] at hq; cases hq
      · cases evSetStructField acc q.1 _ with
        | none => rfl
        | some a => exact genToValueRun_none hp r a h
    · rfl

theorem mapM_some_map {α β} {f : α → Option β} {g : α → β} :
    ∀ {l : List α}, (∀ a ∈ l, f a = some (g a)) → l.mapM f = some (l.map g)
  | [], _ => rfl
  | a :: r, h => by
    rw [List.mapM_cons, h a (List.mem_cons_self ..),
      mapM_some_map fun b hb => h b (List.mem_cons_of_mem _ hb)]
    rfl

theorem mapM_none_of {α β} {f : α → Option β} {a : α} (ha : f a = none) :
    ∀ {l : List α}, a ∈ l → l.mapM f = none
  | b :: r, h => by
    rw [List.mapM_cons]
    cases hb : f b with
    | none => rfl
    | some y =>
      rcases List.mem_cons.mp h with rfl | h
      · rw [ha] at hb; cases hb
      · rw [mapM_none_of ha h]; rfl

end Mirror
