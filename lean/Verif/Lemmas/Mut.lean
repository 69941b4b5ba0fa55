import Verif.Spec.Mut
import Verif.Lemmas.Access

set_option linter.unusedSimpArgs false

/-!
# Lemmas about mutable access
-/

namespace Mirror

variable {E : Env}

theorem placeVis_get (i : Nat) (fs : List (String × Obj)) :
    (placeVis i fs).map (·.1) = ((visFields fs)[i]?).map (·.2) := by
  induction fs generalizing i with
  | nil => rfl
  | cons p r ih =>
    obtain ⟨m, x⟩ := p
    simp only [placeVis, visFields, List.filter_cons]
    by_cases hx : x.isHidden = true
    · simp only [hx, if_true, Bool.not_true, Bool.false_eq_true, if_false, Option.map_map]
      rw [← visFields, ← ih]; rfl
    · simp only [hx, Bool.false_eq_true, if_false, Bool.not_false, if_true]
      cases i with
      | zero => rfl
      | succ i =>
        simp only [Option.map_map, List.getElem?_cons_succ]
        rw [← visFields, ← ih]; rfl

theorem placeVis_named {fs : List (String × Obj)} (hn : (fs.map (·.1)).Nodup) (i : Nat) :
    placeVis i fs = (((visFields fs)[i]?).map (·.1)).bind fun n => placeNamed n fs := by
  induction fs generalizing i with
  | nil => rfl
  | cons p r ih =>
    obtain ⟨m, x⟩ := p
    simp only [List.map_cons, List.nodup_cons] at hn
    have step : ∀ {j : Nat}, placeVis j r = (((visFields r)[j]?).map (·.1)).bind fun n => placeNamed n r :=
      ih hn.2 _
    have tail : ∀ j : Nat, ((placeVis j r).map fun q => ((q.1, fun z => (m, x) :: q.2 z) :
          Obj × (Obj → List (String × Obj)))) =
        (((visFields r)[j]?).map (·.1)).bind fun n => placeNamed n ((m, x) :: r) := by
      intro j
      rw [step]
      cases hj : (visFields r)[j]? with
      | none => rfl
      | some q =>
        have hq : q ∈ r := (List.mem_filter.mp (List.mem_of_getElem? hj)).1
        have hne : m ≠ q.1 := fun e => hn.1 (e ▸ List.mem_map_of_mem hq)
        simp only [Option.map_some, Option.bind_some, placeNamed, hne, false_and, if_false]
        cases placeNamed q.1 r <;> rfl
    simp only [visFields, List.filter_cons]
    by_cases hx : x.isHidden = true
    · simp only [placeVis, hx, if_true, Bool.not_true, Bool.false_eq_true, if_false]
      rw [tail]; rfl
    · simp only [hx, Bool.not_false, if_true]
      cases i with
      | zero => simp [placeVis, hx, placeNamed]
      | succ i => simp only [placeVis, hx, Bool.false_eq_true, if_false, List.getElem?_cons_succ]; rw [tail]; rfl

theorem placeAt_named {fs : List (String × Obj)} (hn : (fs.map (·.1)).Nodup) (i : Nat) :
    ((placeAt i (fs.map (·.2))).map fun q =>
      ((q.1, fun z => (fs.map (·.1)).zip (q.2 z)) : Obj × (Obj → List (String × Obj)))) =
    ((fs[i]?).bind fun p => if p.2.isHidden then none else some p.1).bind fun n => placeNamed n fs := by
  induction fs generalizing i with
  | nil => simp [placeAt]
  | cons p r ih =>
    obtain ⟨m, x⟩ := p
    simp only [List.map_cons, List.nodup_cons] at hn
    cases i with
    | zero =>
      by_cases hx : x.isHidden = true
      · simp [placeAt, hx]
      · simp [placeAt, hx, placeNamed]
        funext z; congr 1
        exact (List.zip_of_prod rfl rfl).symm
    | succ i =>
      have := ih hn.2 i
      simp only [List.map_cons, placeAt, List.getElem?_cons_succ]
      cases hj : r[i]? with
      | none =>
        rw [hj] at this
        cases hp : placeAt i (r.map (·.2)) with
        | none => rfl
        | some q => rw [hp] at this; cases this
      | some q =>
        have hq : q ∈ r := List.mem_of_getElem? hj
        have hne : m ≠ q.1 := fun e => hn.1 (e ▸ List.mem_map_of_mem hq)
        rw [hj] at this
        by_cases hh : q.2.isHidden = true
        · simp only [Option.bind_some, hh, if_true, Option.bind_none] at this ⊢
          cases hp : placeAt i (r.map (·.2)) with
          | none => rfl
          | some q => rw [hp] at this; cases this
        · simp only [Option.bind_some, hh, Bool.false_eq_true, if_false, placeNamed, hne, false_and] at this ⊢
          rw [← this]
          cases placeAt i (r.map (·.2)) <;> rfl

/-- Dynamic records have no skipped fields. -/
theorem HasTy.dyn_vis {S : Ty} {o : Obj} (h : HasTy E S o) :
    (∀ ns fs, o = .struct (.dyn ns) fs → ∀ p ∈ fs, p.2.isHidden = false) ∧
    (∀ ns v fs, o = .enumS (.dyn ns) v fs → ∀ p ∈ fs, p.2.isHidden = false) := by
  have val : ∀ v : Value, (∀ ns fs, v.toObj = .struct (.dyn ns) fs → ∀ p ∈ fs, p.2.isHidden = false) ∧
    (∀ ns w fs, v.toObj = .enumS (.dyn ns) w fs → ∀ p ∈ fs, p.2.isHidden = false) := by
    have aux : ∀ (fs : List (String × Value)), ∀ p ∈ fs.map fun p => (p.1, p.2.toObj),
        p.2.isHidden = false := by
      intro fs p hp
      obtain ⟨q, _, rfl⟩ := List.mem_map.mp hp
      exact q.2.toObj_not_hidden
    intro v
    cases v <;> rw [Value.toObj] <;>
      refine ⟨fun _ _ h => ?_, fun _ _ _ h => ?_⟩ <;> cases h <;> exact aux _
  induction h with
  | box _ _ _ ih => exact ih
  | value v o hv ho => subst ho; exact val v
  | structValue _ _ _ hv ho => subst ho; exact val _
  | tupleStructValue _ _ hv ho => subst ho; exact val _
  | tupleValue _ _ hv ho => subst ho; exact val _
  | enumValueS _ _ _ _ hv ho => subst ho; exact val _
  | enumValueT _ _ _ hv ho => subst ho; exact val _
  | enumValueU _ _ ho => subst ho; exact val _
  | _ => exact ⟨fun _ _ h => (by cases h), fun _ _ _ h => by cases h⟩

theorem fieldMut_get (o : Obj) (n : String) : (o.fieldMut n).map (·.get) = o.field n := by
  cases o <;> simp only [Obj.fieldMut, Obj.field, Option.map_none, Option.map_map,
      ← placeNamed_get] <;> rfl

theorem fieldAtMut_get {T : Ty} {o : Obj} (h : HasTy E T o) (i : Nat) :
    (o.fieldAtMut i).map (·.get) = o.fieldAt i := by
  have dynCase : ∀ {α} (ns : List String) (fs : List (String × Obj))
      (g : Obj × (Obj → List (String × Obj)) → α) (get : α → Obj), (∀ q, get (g q) = q.1) →
      (∀ p ∈ fs, p.2.isHidden = false) →
      (ns[i]?.bind fun n => (placeNamed n fs).map g).map get = ns[i]?.bind fun n => lookup n fs := by
    intro α ns fs g get hg hv
    cases ns[i]? with
    | none => rfl
    | some n =>
      simp only [Option.bind_some, Option.map_map]
      have := placeNamed_get n fs
      rw [visFields_all hv] at this
      rw [← this]
      congr 1; funext q; exact hg q
  obtain ⟨h1, h2⟩ := h.dyn_vis
  cases o with
  | struct tag fs =>
    cases tag with
    | derived n => simp only [Obj.fieldAtMut, Obj.fieldAt, Option.map_map, ← placeVis_get]; rfl
    | dyn ns => exact dynCase ns fs _ _ (fun _ => rfl) (h1 _ _ rfl)
  | enumS tag v fs =>
    cases tag with
    | derived n => simp only [Obj.fieldAtMut, Obj.fieldAt, Option.map_map, ← placeAt_get]; rfl
    | dyn ns => exact dynCase ns fs _ _ (fun _ => rfl) (h2 _ _ _ rfl)
  | tupleStruct => simp only [Obj.fieldAtMut, Obj.fieldAt, Option.map_map, ← placeAt_get]; rfl
  | tuple => simp only [Obj.fieldAtMut, Obj.fieldAt, Option.map_map, ← placeAt_get]; rfl
  | enumT => simp only [Obj.fieldAtMut, Obj.fieldAt, Option.map_map, ← placeAt_get]; rfl
  | vec => simp only [Obj.fieldAtMut, Obj.fieldAt, Option.map_map, ← placeIdx_get]; rfl
  | array => simp only [Obj.fieldAtMut, Obj.fieldAt, Option.map_map, ← placeIdx_get]; rfl
  | _ => rfl

theorem fieldAtMut_named (hD : DeclsOK E) {T : Ty} {o : Obj} (h : HasTy E T o) (hn : o.Named) (i : Nat) :
    o.fieldAtMut i = (o.nameAt i).bind o.fieldMut := by
  obtain ⟨h1, h2⟩ := h.names hD
  cases o with
  | struct tag fs =>
    cases tag with
    | derived n =>
      simp only [Obj.fieldAtMut, Obj.nameAt, placeVis_named (h1 _ _ rfl)]
      cases (visFields fs)[i]? <;> rfl
    | dyn ns => rfl
  | enumS tag v fs =>
    cases tag with
    | derived n =>
      have := placeAt_named (h2 _ _ _ rfl) i
      simp only [Obj.fieldAtMut, Obj.nameAt]
      have e : ((placeAt i (fs.map (·.2))).map fun q =>
          (⟨q.1, fun z => .enumS (.derived n) v ((fs.map (·.1)).zip (q.2 z))⟩ : Place)) =
          (((placeAt i (fs.map (·.2))).map fun q =>
            ((q.1, fun z => (fs.map (·.1)).zip (q.2 z)) : Obj × (Obj → List (String × Obj)))).map
            fun q => (⟨q.1, fun z => .enumS (.derived n) v (q.2 z)⟩ : Place)) := by
        cases placeAt i (fs.map (·.2)) <;> rfl
      rw [e, this]
      cases fs[i]? with
      | none => rfl
      | some p => by_cases hp : p.2.isHidden = true <;> simp [hp, Obj.fieldMut]
    | dyn ns => rfl
  | _ => rcases hn with hn | hn <;> simp [Obj.kind, Obj.variantKind] at hn

/-! ## Assigning through iterators -/

/-- Assign to a named field in a list. -/
def setN (fs : List (String × Obj)) (p : String × Obj) : List (String × Obj) :=
  match placeNamed p.1 fs with
  | some q => q.2 p.2
  | none => fs

theorem setN_skip {m : String} {x : Obj} {r : List (String × Obj)} {p : String × Obj}
    (h : m ≠ p.1 ∨ x.isHidden = true) : setN ((m, x) :: r) p = (m, x) :: setN r p := by
  have : ¬ (m = p.1 ∧ x.isHidden = false) := by
    rintro ⟨h1, h2⟩
    rcases h with h | h
    · exact h h1
    · rw [h2] at h; cases h
  simp only [setN, placeNamed, this, if_false]
  cases placeNamed p.1 r <;> rfl

theorem foldl_setN_skip {m : String} {x : Obj} (l : List (String × Obj)) : ∀ {r : List (String × Obj)},
    (∀ p ∈ l, m ≠ p.1 ∨ x.isHidden = true) →
    l.foldl setN ((m, x) :: r) = (m, x) :: l.foldl setN r := by
  induction l with
  | nil => intros; rfl
  | cons p l ih =>
    intro r h
    rw [List.foldl_cons, setN_skip (h p (by simp)), ih fun q hq => h q (by simp [hq])]; rfl

theorem fillNamed_eq {fs : List (String × Obj)} (hn : (fs.map (·.1)).Nodup) (ys : List Obj) :
    fillNamed fs ys = (((visFields fs).map (·.1)).zip ys).foldl setN fs := by
  induction fs generalizing ys with
  | nil => rfl
  | cons p r ih =>
    obtain ⟨m, x⟩ := p
    simp only [List.map_cons, List.nodup_cons] at hn
    have hne : ∀ ys : List Obj, ∀ p ∈ ((visFields r).map (·.1)).zip ys, m ≠ p.1 := by
      intro ys p hp e
      have h1 := (List.of_mem_zip hp).1
      obtain ⟨q, hq, e2⟩ := List.mem_map.mp h1
      exact hn.1 (e ▸ e2 ▸ List.mem_map_of_mem (List.mem_filter.mp hq).1)
    by_cases hx : x.isHidden = true
    · have e : visFields ((m, x) :: r) = visFields r := by simp [visFields, List.filter_cons, hx]
      rw [e, foldl_setN_skip _ fun p _ => .inr hx, ← ih hn.2]
      simp [fillNamed, hx]
    · have e : visFields ((m, x) :: r) = (m, x) :: visFields r := by simp [visFields, List.filter_cons, hx]
      rw [e]
      cases ys with
      | nil => simp [fillNamed, hx]
      | cons y ys =>
        simp only [List.map_cons, List.zip_cons_cons, List.foldl_cons]
        have e2 : setN ((m, x) :: r) (m, y) = (m, y) :: r := by simp [setN, placeNamed, hx]
        rw [e2, foldl_setN_skip _ fun p hp => .inl (hne ys p hp), ← ih hn.2]
        simp [fillNamed, hx]

theorem assign_struct (tag : STag) (fs : List (String × Obj)) (n : String) (y : Obj) :
    (Obj.struct tag fs).assign n y = .struct tag (setN fs (n, y)) := by
  simp only [Obj.assign, Obj.fieldMut, setN]
  cases placeNamed n fs <;> rfl

theorem assign_enumS (tag : STag) (v : String) (fs : List (String × Obj)) (n : String) (y : Obj) :
    (Obj.enumS tag v fs).assign n y = .enumS tag v (setN fs (n, y)) := by
  simp only [Obj.assign, Obj.fieldMut, setN]
  cases placeNamed n fs <;> rfl

theorem foldl_hom' {α β γ : Type} (f : α → β) (g : α → γ → α) (g' : β → γ → β)
    (h : ∀ a c, g' (f a) c = f (g a c)) (l : List γ) : ∀ a, l.foldl g' (f a) = f (l.foldl g a) := by
  induction l with
  | nil => intro a; rfl
  | cons c l ih => intro a; rw [List.foldl_cons, h, ih]; rfl

/-- The declared positions of the reflected entries, counted from `k`. -/
def visIdx : Nat → List Obj → List Nat
  | _, [] => []
  | k, x :: r => if x.isHidden then visIdx (k + 1) r else k :: visIdx (k + 1) r

theorem mem_visIdx {fs : List Obj} : ∀ {k i : Nat},
    i ∈ visIdx k fs ↔ k ≤ i ∧ (visAt fs (i - k)).isSome := by
  induction fs with
  | nil => intro k i; simp [visIdx, visAt]
  | cons x r ih =>
    intro k i
    have key : (k + 1 ≤ i ∧ (visAt r (i - (k + 1))).isSome) ↔
        (k < i ∧ (visAt (x :: r) (i - k)).isSome) := by
      constructor
      · rintro ⟨h1, h2⟩
        refine ⟨h1, ?_⟩
        have : i - k = (i - (k + 1)) + 1 := by omega
        rw [this]; simpa [visAt] using h2
      · rintro ⟨h1, h2⟩
        refine ⟨h1, ?_⟩
        have : i - k = (i - (k + 1)) + 1 := by omega
        rw [this] at h2; simpa [visAt] using h2
    by_cases hx : x.isHidden = true
    · simp only [visIdx, hx, if_true, ih, key]
      constructor
      · rintro ⟨h1, h2⟩; exact ⟨by omega, h2⟩
      · rintro ⟨h1, h2⟩
        refine ⟨?_, h2⟩
        rcases Nat.lt_or_ge k i with h | h
        · exact h
        · have : i - k = 0 := by omega
          rw [this] at h2; simp [visAt, hx] at h2
    · simp only [visIdx, hx, Bool.false_eq_true, if_false, List.mem_cons, ih, key]
      constructor
      · rintro (rfl | ⟨h1, h2⟩)
        · exact ⟨le_refl _, by simp [visAt, hx]⟩
        · exact ⟨by omega, h2⟩
      · rintro ⟨h1, h2⟩
        rcases Nat.lt_or_ge k i with h | h
        · exact .inr ⟨h, h2⟩
        · exact .inl (by omega)

theorem visIdx_sorted {fs : List Obj} : ∀ {k : Nat}, (visIdx k fs).Pairwise (· < ·) := by
  induction fs with
  | nil => intro k; exact .nil
  | cons x r ih =>
    intro k
    simp only [visIdx]
    split
    · exact ih
    · refine .cons ?_ ih
      intro i hi; have := (mem_visIdx.mp hi).1; omega

theorem visIdx_values {fs : List Obj} : ∀ {k : Nat},
    List.Forall₂ (fun i x => visAt fs (i - k) = some x) (visIdx k fs) (fs.filter fun x => !x.isHidden) := by
  induction fs with
  | nil => intro k; exact .nil
  | cons x r ih =>
    intro k
    have tail : List.Forall₂ (fun i y => visAt (x :: r) (i - k) = some y) (visIdx (k + 1) r)
        (r.filter fun x => !x.isHidden) := by
      have := ih (k := k + 1)
      have hm : ∀ i ∈ visIdx (k + 1) r, k + 1 ≤ i := fun i hi => (mem_visIdx.mp hi).1
      revert hm
      clear ih
      generalize visIdx (k + 1) r = l at *
      generalize r.filter (fun x => !x.isHidden) = l2 at *
      intro hm
      induction this with
      | nil => exact .nil
      | cons h1 _ ih2 =>
        refine .cons ?_ (ih2 fun i hi => hm i (by simp [hi]))
        rename_i a b _ _ _
        have := hm a (by simp)
        have e : a - k = (a - (k + 1)) + 1 := by omega
        rw [e]; simpa [visAt] using h1
    by_cases hx : x.isHidden = true
    · simpa [visIdx, hx, List.filter_cons] using tail
    · simp only [visIdx, hx, Bool.false_eq_true, if_false, List.filter_cons, Bool.not_false, if_true]
      exact .cons (by simp [visAt, hx]) tail

/-- Assign to a position in a list. -/
def setP (fs : List Obj) (p : Nat × Obj) : List Obj :=
  match placeAt p.1 fs with
  | some q => q.2 p.2
  | none => fs

theorem setP_succ (x : Obj) (r : List Obj) (i : Nat) (y : Obj) :
    setP (x :: r) (i + 1, y) = x :: setP r (i, y) := by
  simp only [setP, placeAt]
  cases placeAt i r <;> rfl

theorem foldl_setP_shift {x : Obj} {k : Nat} (l : List (Nat × Obj)) : ∀ {r : List Obj},
    (∀ p ∈ l, k + 1 ≤ p.1) →
    (l.map fun p => (p.1 - k, p.2)).foldl setP (x :: r) =
      x :: (l.map fun p => (p.1 - (k + 1), p.2)).foldl setP r := by
  induction l with
  | nil => intros; rfl
  | cons p l ih =>
    intro r h
    have h1 := h p (by simp)
    have e : p.1 - k = (p.1 - (k + 1)) + 1 := by omega
    simp only [List.map_cons, List.foldl_cons]
    rw [e, setP_succ, ih fun q hq => h q (by simp [hq])]

theorem fillVis_eq {fs : List Obj} : ∀ {k : Nat} (ys : List Obj),
    fillVis fs ys = (((visIdx k fs).zip ys).map fun p => (p.1 - k, p.2)).foldl setP fs := by
  induction fs with
  | nil => intro k ys; simp [fillVis, visIdx]
  | cons x r ih =>
    intro k ys
    have hge : ∀ ys : List Obj, ∀ p ∈ (visIdx (k + 1) r).zip ys, k + 1 ≤ p.1 :=
      fun ys p hp => (mem_visIdx.mp (List.of_mem_zip hp).1).1
    by_cases hx : x.isHidden = true
    · simp only [visIdx, hx, if_true]
      rw [foldl_setP_shift _ (hge ys), ← ih]
      simp [fillVis, hx]
    · simp only [visIdx, hx, Bool.false_eq_true, if_false]
      cases ys with
      | nil => simp [fillVis, hx]
      | cons y ys =>
        simp only [List.zip_cons_cons, List.map_cons, List.foldl_cons, Nat.sub_self]
        have e2 : setP (x :: r) (0, y) = y :: r := by simp [setP, placeAt, hx]
        rw [e2, foldl_setP_shift _ (hge ys), ← ih]
        simp [fillVis, hx]

/-- Assign to a position in a slice. -/
def setI (fs : List Obj) (p : Nat × Obj) : List Obj :=
  match placeIdx p.1 fs with
  | some q => q.2 p.2
  | none => fs

theorem setI_succ (x : Obj) (r : List Obj) (i : Nat) (y : Obj) :
    setI (x :: r) (i + 1, y) = x :: setI r (i, y) := by
  simp only [setI, placeIdx]
  cases placeIdx i r <;> rfl

theorem foldl_setI_shift {x : Obj} {k : Nat} (l : List (Nat × Obj)) : ∀ {r : List Obj},
    (∀ p ∈ l, k + 1 ≤ p.1) →
    (l.map fun p => (p.1 - k, p.2)).foldl setI (x :: r) =
      x :: (l.map fun p => (p.1 - (k + 1), p.2)).foldl setI r := by
  induction l with
  | nil => intros; rfl
  | cons p l ih =>
    intro r h
    have h1 := h p (by simp)
    have e : p.1 - k = (p.1 - (k + 1)) + 1 := by omega
    simp only [List.map_cons, List.foldl_cons]
    rw [e, setI_succ, ih fun q hq => h q (by simp [hq])]

theorem fillAll_eq {fs : List Obj} : ∀ {k : Nat} (ys : List Obj),
    fillAll fs ys = (((List.range' k fs.length).zip ys).map fun p => (p.1 - k, p.2)).foldl setI fs := by
  induction fs with
  | nil => intro k ys; simp [fillAll]
  | cons x r ih =>
    intro k ys
    have hge : ∀ ys : List Obj, ∀ p ∈ (List.range' (k + 1) r.length).zip ys, k + 1 ≤ p.1 := by
      intro ys p hp
      have := (List.of_mem_zip hp).1
      rw [List.mem_range'_1] at this; exact this.1
    rw [List.length_cons, List.range'_succ]
    cases ys with
    | nil => simp [fillAll]
    | cons y ys =>
      simp only [List.zip_cons_cons, List.map_cons, List.foldl_cons, Nat.sub_self]
      have e2 : setI (x :: r) (0, y) = y :: r := by simp [setI, placeIdx]
      rw [e2, foldl_setI_shift _ (hge ys), ← ih]
      simp [fillAll]

theorem map_sub_zero (l : List (Nat × Obj)) : (l.map fun p => (p.1 - 0, p.2)) = l := by
  simp

theorem assignAt_pos {o : Obj} {fs : List Obj} {mk : List Obj → Obj}
    (h : ∀ fs i, (mk fs).fieldAtMut i = (placeAt i fs).map fun q => ⟨q.1, fun z => mk (q.2 z)⟩)
    (ho : o = mk fs) (l : List (Nat × Obj)) :
    l.foldl (fun o p => o.assignAt p.1 p.2) o = mk (l.foldl setP fs) := by
  subst ho
  refine foldl_hom' mk setP _ ?_ l fs
  intro fs p
  simp only [Obj.assignAt, h, setP]
  cases placeAt p.1 fs <;> rfl

theorem assignAt_idx {o : Obj} {fs : List Obj} {mk : List Obj → Obj}
    (h : ∀ fs i, (mk fs).fieldAtMut i = (placeIdx i fs).map fun q => ⟨q.1, fun z => mk (q.2 z)⟩)
    (ho : o = mk fs) (l : List (Nat × Obj)) :
    l.foldl (fun o p => o.assignAt p.1 p.2) o = mk (l.foldl setI fs) := by
  subst ho
  refine foldl_hom' mk setI _ ?_ l fs
  intro fs p
  simp only [Obj.assignAt, h, setI]
  cases placeIdx p.1 fs <;> rfl

theorem fieldsMut_named (hD : DeclsOK E) {T : Ty} {o : Obj} (h : HasTy E T o) (ys : List Obj) (hn : o.Named) :
    ∃ l : List (String × Obj), o.fieldsMut.items = l.map (fun p => (some p.1, p.2)) ∧
      (l.map (·.1)).Nodup ∧ (∀ n x, (n, x) ∈ l ↔ o.field n = some x) ∧
      o.fieldsMut.put ys = ((l.map (·.1)).zip ys).foldl (fun o p => o.assign p.1 p.2) o := by
  obtain ⟨h1, h2⟩ := h.names hD
  cases o with
  | struct tag fs =>
    have hv := visFields_nodup (h1 _ _ rfl)
    refine ⟨visFields fs, rfl, hv, fun n x => (lookup_iff hv).symm, ?_⟩
    simp only [Obj.fieldsMut, fillNamed_eq (h1 _ _ rfl)]
    exact (foldl_hom' (Obj.struct tag) setN _ (fun fs p => assign_struct tag fs p.1 p.2) _ fs).symm
  | enumS tag v fs =>
    have hv := visFields_nodup (h2 _ _ _ rfl)
    refine ⟨visFields fs, rfl, hv, fun n x => (lookup_iff hv).symm, ?_⟩
    simp only [Obj.fieldsMut, fillNamed_eq (h2 _ _ _ rfl)]
    exact (foldl_hom' (Obj.enumS tag v) setN _ (fun fs p => assign_enumS tag v fs p.1 p.2) _ fs).symm
  | _ => rcases hn with hn | hn <;> simp [Obj.kind, Obj.variantKind] at hn

theorem fieldsMut_positional {o : Obj} (ys : List Obj) (hn : o.Positional) :
    ∃ is : List Nat, is.Pairwise (· < ·) ∧ (∀ i, i ∈ is ↔ (o.fieldAt i).isSome) ∧
      List.Forall₂ (fun i q => q.1 = none ∧ o.fieldAt i = some q.2) is o.fieldsMut.items ∧
      o.fieldsMut.put ys = (is.zip ys).foldl (fun o p => o.assignAt p.1 p.2) o := by
  have pos : ∀ {fs : List Obj} {mk : List Obj → Obj},
      o = mk fs → (∀ fs i, (mk fs).fieldAtMut i = (placeAt i fs).map fun q => ⟨q.1, fun z => mk (q.2 z)⟩) →
      (∀ fs i, (mk fs).fieldAt i = visAt fs i) →
      o.fieldsMut = ⟨(fs.filter fun x => !x.isHidden).map fun x => (none, x), fun ys => mk (fillVis fs ys)⟩ →
      ∃ is : List Nat, is.Pairwise (· < ·) ∧ (∀ i, i ∈ is ↔ (o.fieldAt i).isSome) ∧
        List.Forall₂ (fun i q => q.1 = none ∧ o.fieldAt i = some q.2) is o.fieldsMut.items ∧
        o.fieldsMut.put ys = (is.zip ys).foldl (fun o p => o.assignAt p.1 p.2) o := by
    intro fs mk ho hm hf hs
    subst ho
    rw [hs]
    refine ⟨visIdx 0 fs, visIdx_sorted, fun i => ?_, ?_, ?_⟩
    · rw [mem_visIdx, hf]; simp
    · rw [List.forall₂_map_right_iff]
      exact visIdx_values.imp fun i x hx => ⟨rfl, by rw [hf]; exact hx⟩
    · rw [assignAt_pos hm rfl]
      exact congrArg mk (by rw [fillVis_eq (k := 0), map_sub_zero])
  have idx : ∀ {fs : List Obj} {mk : List Obj → Obj},
      o = mk fs → (∀ fs i, (mk fs).fieldAtMut i = (placeIdx i fs).map fun q => ⟨q.1, fun z => mk (q.2 z)⟩) →
      (∀ fs i, (mk fs).fieldAt i = fs[i]?) →
      o.fieldsMut = ⟨fs.map fun x => (none, x), fun ys => mk (fillAll fs ys)⟩ →
      ∃ is : List Nat, is.Pairwise (· < ·) ∧ (∀ i, i ∈ is ↔ (o.fieldAt i).isSome) ∧
        List.Forall₂ (fun i q => q.1 = none ∧ o.fieldAt i = some q.2) is o.fieldsMut.items ∧
        o.fieldsMut.put ys = (is.zip ys).foldl (fun o p => o.assignAt p.1 p.2) o := by
    intro fs mk ho hm hf hs
    subst ho
    rw [hs]
    refine ⟨List.range' 0 fs.length, List.pairwise_lt_range', fun i => ?_, ?_, ?_⟩
    · rw [List.mem_range'_1, hf]; simp
    · rw [List.forall₂_map_right_iff, List.forall₂_iff_get]
      refine ⟨by simp, fun i hi hi2 => ⟨rfl, ?_⟩⟩
      rw [hf]; simp
    · rw [assignAt_idx hm rfl]
      exact congrArg mk (by rw [fillAll_eq (k := 0), map_sub_zero])
  cases o with
  | tupleStruct tag fs => exact pos rfl (fun _ _ => rfl) (fun _ _ => rfl) rfl
  | tuple tag fs => exact pos rfl (fun _ _ => rfl) (fun _ _ => rfl) rfl
  | enumT tag v fs => exact pos (mk := Obj.enumT tag v) rfl (fun _ _ => rfl) (fun _ _ => rfl) rfl
  | vec t fs => exact idx rfl (fun _ _ => rfl) (fun _ _ => rfl) rfl
  | array t fs => exact idx rfl (fun _ _ => rfl) (fun _ _ => rfl) rfl
  | _ => rcases hn with hn | hn | hn | hn | hn <;> simp [Obj.kind, Obj.variantKind] at hn

/-! ## One assignment -/

theorem visFields_set {fs : List (String × Obj)} {i : Nat} {n : String} {x z : Obj}
    (h : fs[i]? = some (n, x)) (hx : x.isHidden = false) (hz : z.isHidden = false) :
    (visFields (fs.set i (n, z))).map (·.1) = (visFields fs).map (·.1) := by
  induction fs generalizing i with
  | nil => rfl
  | cons p r ih =>
    cases i with
    | zero => simp at h; subst h; simp [visFields, List.filter_cons, hx, hz]
    | succ i =>
      have := ih (by simpa using h)
      simp only [List.set_cons_succ, visFields, List.filter_cons] at this ⊢
      split
      · simpa using this
      · exact this

theorem filter_vis_set {fs : List Obj} {i : Nat} {x z : Obj}
    (h : fs[i]? = some x) (hx : x.isHidden = false) (hz : z.isHidden = false) :
    ((fs.set i z).filter fun x => !x.isHidden).length = (fs.filter fun x => !x.isHidden).length ∧
    (fs.set i z).filter Obj.isHidden = fs.filter Obj.isHidden := by
  induction fs generalizing i with
  | nil => exact ⟨rfl, rfl⟩
  | cons p r ih =>
    cases i with
    | zero => simp at h; subst h; simp [List.filter_cons, hx, hz]
    | succ i =>
      have := ih (i := i) (by simpa using h)
      simp only [List.set_cons_succ, List.filter_cons]
      refine ⟨?_, ?_⟩
      · split
        · simp [this.1]
        · exact this.1
      · split
        · simp [this.2]
        · exact this.2

theorem set_names {fs : List (String × Obj)} {i : Nat} {n : String} {x z : Obj}
    (h : fs[i]? = some (n, x)) : (fs.set i (n, z)).map (·.1) = fs.map (·.1) := by
  induction fs generalizing i with
  | nil => rfl
  | cons p r ih =>
    cases i with
    | zero => simp at h; subst h; rfl
    | succ i => simp [ih (by simpa using h)]

theorem fieldMut_write {o : Obj} {n : String} {pl : Place} (h : o.fieldMut n = some pl) {y : Obj}
    (hy : y.isHidden = false) : o.SameShape (pl.put y) ∧ pl.put pl.get = o ∧
      ∀ m, (pl.put y).field m = if m = n then some y else o.field m := by
  have named : ∀ {fs : List (String × Obj)} {q}, placeNamed n fs = some q →
      ((visFields (q.2 y)).map (·.1) = (visFields fs).map (·.1) ∧
        (∀ i : Nat, (((q.2 y)[i]?).bind fun p => if p.2.isHidden then none else some p.1) =
          ((fs[i]?).bind fun p => if p.2.isHidden then none else some p.1)) ∧
        ((q.2 y).map (·.2)).filter Obj.isHidden = (fs.map (·.2)).filter Obj.isHidden) ∧
      q.2 q.1 = fs ∧
      ∀ m, lookup m (visFields (q.2 y)) = if m = n then some y else lookup m (visFields fs) := by
    intro fs q hq
    obtain ⟨i, e1, e2, e3⟩ := placeNamed_set hq y
    obtain ⟨j, f1, f2, f3⟩ := placeNamed_set hq q.1
    refine ⟨⟨?_, ?_, ?_⟩, ?_, ?_⟩
    · rw [e2]; exact visFields_set e1 e3 hy
    · intro j
      rw [e2, List.getElem?_set]
      split
      · next hij =>
        subst hij
        split
        · simp [e1, e3, hy]
        · next hl => exact absurd (List.getElem?_eq_some_iff.mp e1).1 hl
      · rfl
    · rw [e2, List.map_set]
      refine (filter_vis_set (fs := fs.map (·.2)) (i := i) (x := q.1) ?_ e3 hy).2
      rw [List.getElem?_map, e1]; rfl
    · obtain ⟨hi, e⟩ := List.getElem?_eq_some_iff.mp f1
      rw [f2, ← e, List.set_getElem_self]
    · intro m
      split
      · next hm => subst hm; exact placeNamed_same hq hy
      · next hm => exact placeNamed_other hq (Ne.symm hm) hy
  cases o with
  | struct tag fs =>
    simp only [Obj.fieldMut, Option.map_eq_some_iff] at h
    obtain ⟨q, hq, rfl⟩ := h
    obtain ⟨⟨a1, a2, a3⟩, a4, a5⟩ := named hq
    refine ⟨⟨rfl, rfl, rfl, ?_, ?_, a3⟩, congrArg _ a4, a5⟩
    · intro i
      cases tag with
      | derived _ => simp only [Obj.nameAt]; rw [← List.getElem?_map, ← List.getElem?_map, a1]
      | dyn _ => rfl
    · cases tag with
      | derived _ => simp only [Obj.fieldsLen]; simpa using congrArg List.length a1
      | dyn _ => rfl
  | enumS tag v fs =>
    simp only [Obj.fieldMut, Option.map_eq_some_iff] at h
    obtain ⟨q, hq, rfl⟩ := h
    obtain ⟨⟨a1, a2, a3⟩, a4, a5⟩ := named hq
    refine ⟨⟨rfl, rfl, rfl, ?_, ?_, a3⟩, congrArg _ a4, a5⟩
    · intro i
      cases tag with
      | derived _ => exact a2 i
      | dyn _ => rfl
    · cases tag with
      | derived _ => simp only [Obj.fieldsLen]; simpa using congrArg List.length a1
      | dyn _ => rfl
  | _ => simp [Obj.fieldMut] at h

theorem fieldMut_typed (hO : OrdLaws E) {o : Obj} {n : String} {pl : Place} (h : o.fieldMut n = some pl)
    {T U : Ty} {y : Obj} (ho : HasTy E T o) (hU : pl.get.typeOf = some U) (hy : HasTy E U y) :
    HasTy E T (pl.put y) := by
  have hs : StepForm E (.named n) o pl := by
    cases o <;> simp only [Obj.fieldMut, reduceCtorEq, Option.map_eq_some_iff] at h
    · obtain ⟨q, hq, rfl⟩ := h; exact .struct _ _ _ _ rfl hq
    · obtain ⟨q, hq, rfl⟩ := h; exact .enumS _ _ _ _ _ rfl hq
  exact hs.typed hO (fun _ hS => hS.retype hO hU hy) ho

theorem fieldAtMut_write {o : Obj} (hn : o.Positional) {i : Nat} {pl : Place} (h : o.fieldAtMut i = some pl)
    {y : Obj} (hy : y.isHidden = false) : o.SameShape (pl.put y) ∧ pl.put pl.get = o ∧
      ∀ j, (pl.put y).fieldAt j = if j = i then some y else o.fieldAt j := by
  have pos : ∀ {fs : List Obj} {q}, placeAt i fs = some q →
      ((∀ j, (visAt (q.2 y) j).isSome = (visAt fs j).isSome) ∧
        ((q.2 y).filter fun x => !x.isHidden).length = (fs.filter fun x => !x.isHidden).length ∧
        (q.2 y).filter Obj.isHidden = fs.filter Obj.isHidden) ∧
      q.2 q.1 = fs ∧ ∀ j, visAt (q.2 y) j = if j = i then some y else visAt fs j := by
    intro fs q hq
    obtain ⟨e1, e2⟩ := placeAt_put hq y
    obtain ⟨e3, e4⟩ := placeAt_vis hq
    have key : ∀ j, visAt (q.2 y) j = if j = i then some y else visAt fs j := by
      intro j
      rw [e1]
      split
      · next hj => subst hj; exact visAt_set_self e2 hy
      · next hj => exact visAt_set_ne (Ne.symm hj)
    refine ⟨⟨fun j => ?_, ?_⟩, ?_, key⟩
    · rw [key]
      split
      · next hj => subst hj; simp [visAt, e3, e4]
      · rfl
    · rw [e1]; exact filter_vis_set e3 e4 hy
    · obtain ⟨hi, e⟩ := List.getElem?_eq_some_iff.mp e3
      rw [(placeAt_put hq q.1).1, ← e, List.set_getElem_self]
  have idx : ∀ {fs : List Obj} {q}, placeIdx i fs = some q →
      (q.2 y).length = fs.length ∧
      q.2 q.1 = fs ∧ ∀ j, (q.2 y)[j]? = if j = i then some y else fs[j]? := by
    intro fs q hq
    obtain ⟨e1, e2⟩ := placeIdx_put hq y
    have e3 := placeIdx_vis hq
    refine ⟨by rw [e1]; simp, ?_, ?_⟩
    · obtain ⟨hi, e⟩ := List.getElem?_eq_some_iff.mp e3
      rw [(placeIdx_put hq q.1).1, ← e, List.set_getElem_self]
    · intro j
      rw [e1]
      split
      · next hj => subst hj; rw [List.getElem?_set_self e2]
      · next hj => rw [List.getElem?_set_ne (Ne.symm hj)]
  have name : ∀ (a b : List Obj) (j : Nat), (visAt a j).isSome = (visAt b j).isSome →
      ((visAt a j).map fun _ => "field_" ++ toString j) = (visAt b j).map fun _ => "field_" ++ toString j := by
    intro a b j hh
    cases h1 : visAt a j <;> cases h2 : visAt b j <;> rw [h1, h2] at hh <;> first | rfl | cases hh
  cases o with
  | tupleStruct tag fs =>
    simp only [Obj.fieldAtMut, Option.map_eq_some_iff] at h
    obtain ⟨q, hq, rfl⟩ := h
    obtain ⟨⟨a1, a2, a3⟩, a4, a5⟩ := pos hq
    exact ⟨⟨rfl, rfl, rfl, fun _ => rfl, a2, a3⟩, congrArg _ a4, a5⟩
  | tuple tag fs =>
    simp only [Obj.fieldAtMut, Option.map_eq_some_iff] at h
    obtain ⟨q, hq, rfl⟩ := h
    obtain ⟨⟨a1, a2, a3⟩, a4, a5⟩ := pos hq
    exact ⟨⟨rfl, rfl, rfl, fun _ => rfl, a2, a3⟩, congrArg _ a4, a5⟩
  | enumT tag v fs =>
    simp only [Obj.fieldAtMut, Option.map_eq_some_iff] at h
    obtain ⟨q, hq, rfl⟩ := h
    obtain ⟨⟨a1, a2, a3⟩, a4, a5⟩ := pos hq
    refine ⟨⟨rfl, rfl, rfl, fun j => ?_, a2, a3⟩, congrArg _ a4, a5⟩
    cases tag with
    | derived _ => exact name _ _ j (a1 j)
    | dyn => rfl
  | vec t fs =>
    simp only [Obj.fieldAtMut, Option.map_eq_some_iff] at h
    obtain ⟨q, hq, rfl⟩ := h
    obtain ⟨a1, a4, a5⟩ := idx hq
    exact ⟨⟨rfl, rfl, rfl, fun _ => rfl, a1, rfl⟩, congrArg _ a4, a5⟩
  | array t fs =>
    simp only [Obj.fieldAtMut, Option.map_eq_some_iff] at h
    obtain ⟨q, hq, rfl⟩ := h
    obtain ⟨a1, a4, a5⟩ := idx hq
    exact ⟨⟨rfl, rfl, rfl, fun _ => rfl, a1, rfl⟩, congrArg _ a4, a5⟩
  | _ => rcases hn with hn | hn | hn | hn | hn <;> simp [Obj.kind, Obj.variantKind] at hn

theorem fieldAtMut_typed (hO : OrdLaws E) {o : Obj} (hn : o.Positional) {i : Nat} {pl : Place}
    (h : o.fieldAtMut i = some pl) {T U : Ty} {y : Obj} (ho : HasTy E T o)
    (hU : pl.get.typeOf = some U) (hy : HasTy E U y) : HasTy E T (pl.put y) := by
  cases o with
  | tupleStruct tag fs =>
    simp only [Obj.fieldAtMut, Option.map_eq_some_iff] at h
    obtain ⟨q, hq, rfl⟩ := h
    exact (StepForm.tupleStruct (E := E) _ _ _ _ rfl hq).typed hO (fun _ hS => hS.retype hO hU hy) ho
  | tuple tag fs =>
    simp only [Obj.fieldAtMut, Option.map_eq_some_iff] at h
    obtain ⟨q, hq, rfl⟩ := h
    exact (StepForm.tuple (E := E) _ _ _ _ rfl hq).typed hO (fun _ hS => hS.retype hO hU hy) ho
  | enumT tag v fs =>
    simp only [Obj.fieldAtMut, Option.map_eq_some_iff] at h
    obtain ⟨q, hq, rfl⟩ := h
    exact (StepForm.enumT (E := E) _ _ _ _ _ rfl hq).typed hO (fun _ hS => hS.retype hO hU hy) ho
  | vec t fs =>
    simp only [Obj.fieldAtMut, Option.map_eq_some_iff] at h
    obtain ⟨q, hq, rfl⟩ := h
    obtain ⟨u, hu, hou⟩ := ho.typeOf hO
    simp only [Obj.typeOf, Option.some.injEq] at hu; subst hu
    refine ho.retype hO rfl ?_
    cases hou with
    | vec _ _ hx =>
      refine .vec _ _ ?_
      simp only [(placeIdx_put hq y).1]
      intro x hxm
      rcases List.mem_or_eq_of_mem_set hxm with hm | rfl
      · exact hx x hm
      · exact (hx _ (List.mem_of_getElem? (placeIdx_vis hq))).retype hO hU hy
  | array t fs =>
    simp only [Obj.fieldAtMut, Option.map_eq_some_iff] at h
    obtain ⟨q, hq, rfl⟩ := h
    obtain ⟨u, hu, hou⟩ := ho.typeOf hO
    simp only [Obj.typeOf, Option.some.injEq] at hu; subst hu
    refine ho.retype hO rfl ?_
    have hl : (q.2 y).length = fs.length := by rw [(placeIdx_put hq y).1]; simp
    rw [← hl]
    generalize fs.length = n at hou
    cases hou with
    | array _ _ hx =>
      refine .array _ _ ?_
      simp only [(placeIdx_put hq y).1]
      intro x hxm
      rcases List.mem_or_eq_of_mem_set hxm with hm | rfl
      · exact hx x hm
      · exact (hx _ (List.mem_of_getElem? (placeIdx_vis hq))).retype hO hU hy
  | _ => rcases hn with hn | hn | hn | hn | hn <;> simp [Obj.kind, Obj.variantKind] at hn

/-! ## A sequence of assignments -/

section Seq
variable {κ : Type} {get : Obj → κ → Option Obj} {set : Obj → κ → Obj → Obj}

theorem seq_reads [DecidableEq κ] {P : Obj → Prop}
    (hset : ∀ o k y x, P o → get o k = some x → y.isHidden = false →
      P (set o k y) ∧ ∀ j, get (set o k y) j = if j = k then some y else get o j)
    (l : List (κ × Obj)) : ∀ {o : Obj}, P o → (l.map (·.1)).Nodup →
      (∀ p ∈ l, (get o p.1).isSome ∧ p.2.isHidden = false) →
      P (l.foldl (fun o p => set o p.1 p.2) o) ∧
      (∀ p ∈ l, get (l.foldl (fun o p => set o p.1 p.2) o) p.1 = some p.2) ∧
      (∀ j, j ∉ l.map (·.1) → get (l.foldl (fun o p => set o p.1 p.2) o) j = get o j) := by
  induction l with
  | nil => intro o hP _ _; exact ⟨hP, by simp, fun _ _ => rfl⟩
  | cons p l ih =>
    intro o hP hn hl
    simp only [List.map_cons, List.nodup_cons] at hn
    obtain ⟨hs, hy⟩ := hl p (by simp)
    obtain ⟨x, hx⟩ := Option.isSome_iff_exists.mp hs
    obtain ⟨hP1, hg⟩ := hset o p.1 p.2 x hP hx hy
    have hne : ∀ q ∈ l, q.1 ≠ p.1 := fun q hq e => hn.1 (e ▸ List.mem_map_of_mem hq)
    obtain ⟨a, b, c⟩ := ih hP1 hn.2 fun q hq => ⟨by
      rw [hg, if_neg (hne q hq)]; exact (hl q (by simp [hq])).1, (hl q (by simp [hq])).2⟩
    refine ⟨a, ?_, ?_⟩
    · intro q hq
      rcases List.mem_cons.mp hq with rfl | hq
      · rw [List.foldl_cons, c _ hn.1, hg, if_pos rfl]
      · exact b q hq
    · intro j hj
      simp only [List.map_cons, List.mem_cons, not_or] at hj
      rw [List.foldl_cons, c j hj.2, hg, if_neg hj.1]

theorem seq_inv [DecidableEq κ] {P : Obj → Prop} {Q : κ → Obj → Obj → Prop}
    (hset : ∀ o k y x, P o → get o k = some x → Q k x y →
      P (set o k y) ∧ ∀ j, j ≠ k → get (set o k y) j = get o j)
    (l : List (κ × Obj)) : ∀ {o : Obj}, P o → (l.map (·.1)).Nodup →
      (∀ p ∈ l, ∃ x, get o p.1 = some x ∧ Q p.1 x p.2) →
      P (l.foldl (fun o p => set o p.1 p.2) o) := by
  induction l with
  | nil => intro o hP _ _; exact hP
  | cons p l ih =>
    intro o hP hn hl
    simp only [List.map_cons, List.nodup_cons] at hn
    obtain ⟨x, hx, hQ⟩ := hl p (by simp)
    obtain ⟨hP1, hg⟩ := hset o p.1 p.2 x hP hx hQ
    refine ih hP1 hn.2 fun q hq => ?_
    have hne : q.1 ≠ p.1 := fun e => hn.1 (e ▸ List.mem_map_of_mem hq)
    obtain ⟨x', hx', hQ'⟩ := hl q (by simp [hq])
    exact ⟨x', by rw [hg _ hne]; exact hx', hQ'⟩

end Seq

theorem Obj.SameShape.rfl' (o : Obj) : o.SameShape o := ⟨rfl, rfl, rfl, fun _ => rfl, rfl, rfl⟩

theorem Obj.SameShape.trans {a b c : Obj} (h : a.SameShape b) (h' : b.SameShape c) : a.SameShape c :=
  ⟨h'.kind.trans h.kind, h'.variant_name.trans h.variant_name, h'.variant_kind.trans h.variant_kind,
    fun i => (h'.name_at i).trans (h.name_at i), h'.len.trans h.len, h'.skipped.trans h.skipped⟩

theorem Obj.SameShape.positional {a b : Obj} (h : a.SameShape b) (ha : a.Positional) : b.Positional := by
  unfold Obj.Positional at *
  rw [h.kind, h.variant_kind]; exact ha

theorem assign_write {o : Obj} {n : String} {x y : Obj} (hx : o.field n = some x) (hy : y.isHidden = false) :
    o.SameShape (o.assign n y) ∧ ∀ m, (o.assign n y).field m = if m = n then some y else o.field m := by
  have := fieldMut_get o n
  rw [hx] at this
  obtain ⟨pl, hp, -⟩ := Option.map_eq_some_iff.mp this
  have h := fieldMut_write hp hy
  simp only [Obj.assign, hp]
  exact ⟨h.1, h.2.2⟩

theorem positional_get {o : Obj} (hn : o.Positional) (i : Nat) :
    (o.fieldAtMut i).map (·.get) = o.fieldAt i := by
  cases o with
  | tupleStruct => simp only [Obj.fieldAtMut, Obj.fieldAt, Option.map_map, ← placeAt_get]; rfl
  | tuple => simp only [Obj.fieldAtMut, Obj.fieldAt, Option.map_map, ← placeAt_get]; rfl
  | enumT => simp only [Obj.fieldAtMut, Obj.fieldAt, Option.map_map, ← placeAt_get]; rfl
  | vec => simp only [Obj.fieldAtMut, Obj.fieldAt, Option.map_map, ← placeIdx_get]; rfl
  | array => simp only [Obj.fieldAtMut, Obj.fieldAt, Option.map_map, ← placeIdx_get]; rfl
  | _ => rcases hn with hn | hn | hn | hn | hn <;> simp [Obj.kind, Obj.variantKind] at hn

theorem assignAt_write {o : Obj} (hn : o.Positional) {i : Nat} {x y : Obj} (hx : o.fieldAt i = some x)
    (hy : y.isHidden = false) :
    o.SameShape (o.assignAt i y) ∧ ∀ j, (o.assignAt i y).fieldAt j = if j = i then some y else o.fieldAt j := by
  have := positional_get hn i
  rw [hx] at this
  obtain ⟨pl, hp, -⟩ := Option.map_eq_some_iff.mp this
  have h := fieldAtMut_write hn hp hy
  simp only [Obj.assignAt, hp]
  exact ⟨h.1, h.2.2⟩

theorem assign_typed (hO : OrdLaws E) {T U : Ty} {o : Obj} {n : String} {x y : Obj} (ho : HasTy E T o)
    (hx : o.field n = some x) (hU : x.typeOf = some U) (hy : HasTy E U y) : HasTy E T (o.assign n y) := by
  have := fieldMut_get o n
  rw [hx] at this
  obtain ⟨pl, hp, e⟩ := Option.map_eq_some_iff.mp this
  simp only [Obj.assign, hp]
  exact fieldMut_typed hO hp ho (by rw [e]; exact hU) hy

theorem assignAt_typed (hO : OrdLaws E) {T U : Ty} {o : Obj} (hn : o.Positional) {i : Nat} {x y : Obj}
    (ho : HasTy E T o) (hx : o.fieldAt i = some x) (hU : x.typeOf = some U) (hy : HasTy E U y) :
    HasTy E T (o.assignAt i y) := by
  have := positional_get hn i
  rw [hx] at this
  obtain ⟨pl, hp, e⟩ := Option.map_eq_some_iff.mp this
  simp only [Obj.assignAt, hp]
  exact fieldAtMut_typed hO hn hp ho (by rw [e]; exact hU) hy

/-! ## The order of the mutable references -/

/-- The entries of dynamic records are in the order of their names. -/
theorem HasTy.dyn_sorted {S : Ty} {o : Obj} (h : HasTy E S o) :
    (∀ ns fs, o = .struct (.dyn ns) fs → BMSorted strCmp fs) ∧
    (∀ ns v fs, o = .enumS (.dyn ns) v fs → BMSorted strCmp fs) := by
  have aux : ∀ {fs : List (String × Value)}, BMSorted strCmp fs →
      BMSorted strCmp (fs.map fun p => (p.1, p.2.toObj)) := by
    intro fs h
    exact List.pairwise_map.mpr h
  have val : ∀ v : Value, v.WF → (∀ ns fs, v.toObj = .struct (.dyn ns) fs → BMSorted strCmp fs) ∧
      (∀ ns w fs, v.toObj = .enumS (.dyn ns) w fs → BMSorted strCmp fs) := by
    intro v hw
    cases hw <;> rw [Value.toObj] <;>
      refine ⟨fun _ _ h => ?_, fun _ _ _ h => ?_⟩ <;> cases h <;> exact aux (by assumption)
  induction h with
  | box _ _ _ ih => exact ih
  | value v o hv ho => subst ho; exact val v hv
  | structValue _ _ _ hv ho => subst ho; exact val _ hv
  | tupleStructValue _ _ hv ho => subst ho; exact val _ hv
  | tupleValue _ _ hv ho => subst ho; exact val _ hv
  | enumValueS _ _ _ _ hv ho => subst ho; exact val _ hv
  | enumValueT _ _ _ hv ho => subst ho; exact val _ hv
  | enumValueU _ _ ho => subst ho; rw [Value.toObj]; exact ⟨fun _ _ h => (by cases h), fun _ _ _ h => by cases h⟩
  | _ => exact ⟨fun _ _ h => (by cases h), fun _ _ _ h => by cases h⟩

theorem strSorted_ext {l l' : List String} (h : l.Pairwise (strCmp · · = .lt))
    (h' : l'.Pairwise (strCmp · · = .lt)) (hm : ∀ n, n ∈ l ↔ n ∈ l') : l = l' := by
  have irr : ∀ a, strCmp a a ≠ .lt := fun a => by rw [(strCmp_eq_iff a a).mpr rfl]; simp
  have asym : ∀ a b, strCmp a b = .lt → strCmp b a ≠ .lt := fun a b h => by
    rw [strCmp_swap, h]; simp [Ordering.swap]
  have : Std.Irrefl (fun a b : String => strCmp a b = .lt) := ⟨irr⟩
  have : Std.Antisymm (fun a b : String => strCmp a b = .lt) := ⟨fun a b h h' => absurd h' (asym a b h)⟩
  exact h.eq_of_mem_iff h' hm

theorem dynIter_eq_iff {fs : List (String × Obj)} {ns : List String} (hs : BMSorted strCmp fs)
    (h : ∀ n, n ∈ ns ↔ n ∈ fs.map (·.1)) :
    dynIter fs ns = fs ↔ ns.Pairwise (strCmp · · = .lt) := by
  have h' : ∀ n ∈ ns, n ∈ fs.map (·.1) := fun n hn => (h n).mp hn
  have hs' : (fs.map (·.1)).Pairwise (strCmp · · = .lt) := List.pairwise_map.mpr hs
  have hnd := strSorted_nodup hs
  constructor
  · intro e
    have := dynIter_names h'
    rw [e] at this
    rw [← this]; exact hs'
  · intro hp
    have e := strSorted_ext hp hs' h
    subst e
    clear hp h h' hs hs'
    have : ∀ l : List (String × Obj), (∀ p ∈ l, p ∈ fs) → dynIter fs (l.map (·.1)) = l := by
      intro l
      induction l with
      | nil => intro _; rfl
      | cons p l ih =>
        intro hl
        have : lookup p.1 fs = some p.2 := (lookup_iff hnd).mpr (hl p (by simp))
        simp only [List.map_cons, dynIter, this, ih fun q hq => hl q (by simp [hq])]
    exact this fs fun _ h => h

end Mirror
