import Verif.Spec.ImplVisit
import Verif.Lemmas.ImplFrom

/-!
# Lemmas: `try_visit` on hand-written implementations
-/

namespace Mirror

section
variable {A σ ε : Type}

/-! ## More steps -/

theorem visitSeq_mono {rec rec' : Ty → A → σ → Option (Visited σ ε)}
    (h : ∀ t a s, Upto (rec t a s) (rec' t a s)) (l : List (Ty × A)) (s : σ) :
    Upto (visitSeq rec l s) (visitSeq rec' l s) := by
  induction l generalizing s with
  | nil => intro r hr; exact hr
  | cons p l ih =>
    intro r hr
    simp only [visitSeq] at hr ⊢
    cases hq : rec p.1 p.2 s with
    | none => rw [hq] at hr; cases hr
    | some q =>
      rw [hq] at hr
      rw [h _ _ _ q hq]
      cases q with
      | ok s' => exact ih s' r hr
      | err e s' => exact hr
      | panic s' => exact hr

theorem visitTurns_mono {rec rec' : Ty → A → σ → Option (Visited σ ε)}
    (h : ∀ t a s, Upto (rec t a s) (rec' t a s)) (turn : Nat → Option (Option (List (Ty × A))))
    (f f' i : Nat) (hf : f ≤ f') (s : σ) : Upto (visitTurns rec turn f i s) (visitTurns rec' turn f' i s) := by
  induction f generalizing f' i s with
  | zero => intro r hr; cases hr
  | succ f ih =>
    obtain ⟨g, rfl⟩ : ∃ g, f' = g + 1 := ⟨f' - 1, by omega⟩
    intro r hr
    simp only [visitTurns] at hr ⊢
    split at hr
    · exact hr
    · exact hr
    · next l _ =>
      cases hq : visitSeq rec l s with
      | none => rw [hq] at hr; cases hr
      | some q =>
        rw [hq] at hr
        rw [visitSeq_mono h l s q hq]
        cases q with
        | ok s' => exact ih g (i + 1) (by omega) s' r hr
        | err e s' => exact hr
        | panic s' => exact hr

/-- The last line of `Impl.visit`. -/
theorem Impl.visit_parts (I : Impl A) (g : TypeGraph) (v : VisitorA A σ ε) (f : Nat) {id : Ty} (a : A) (s : σ)
    {node : TypeNode} (hn : g.node id = some node) (h1 : ∀ k, node ≠ .scalar k) (h2 : node ≠ .opaque) :
    I.visit g v (f + 1) id a s = visitTurns (I.visit g v f) (visitTurn g node (I.view a)) f 0 s := by
  simp only [Impl.visit]
  rw [hn]
  cases node <;> first | rfl | exact absurd rfl (h1 _) | exact absurd rfl h2

theorem Impl.visit_mono (I : Impl A) (g : TypeGraph) (v : VisitorA A σ ε) (n m : Nat) (hnm : n ≤ m) :
    ∀ t a s, Upto (I.visit g v n t a s) (I.visit g v m t a s) := by
  induction n generalizing m with
  | zero => intro t a s r hr; cases hr
  | succ n ih =>
    obtain ⟨m, rfl⟩ : ∃ g, m = g + 1 := ⟨m - 1, by omega⟩
    intro t a s r hr
    cases hn : g.node t with
    | none => simp only [Impl.visit] at hr ⊢; rw [hn] at hr ⊢; exact hr
    | some node =>
      by_cases h1 : ∃ k, node = .scalar k
      · obtain ⟨k, rfl⟩ := h1
        simp only [Impl.visit] at hr ⊢; rw [hn] at hr ⊢; exact hr
      · by_cases h2 : node = .opaque
        · subst h2
          simp only [Impl.visit] at hr ⊢; rw [hn] at hr ⊢; exact hr
        · have h1' : ∀ k, node ≠ .scalar k := fun k hk => h1 ⟨k, hk⟩
          rw [I.visit_parts g v n a s hn h1' h2] at hr
          rw [I.visit_parts g v m a s hn h1' h2]
          exact visitTurns_mono (ih m (by omega)) _ n m 0 (by omega) s r hr

/-! ## Turns -/

/-- The turns are the groups `gs`, and then the loop is over. -/
def TurnsAre (turn : Nat → Option (Option (List (Ty × A)))) (i : Nat) (gs : List (List (Ty × A))) : Prop :=
  turn (i + gs.length) = none ∧ ∀ (j : Nat) q, gs[j]? = some q → turn (i + j) = some (some q)

theorem visitSeq_append {rec : Ty → A → σ → Option (Visited σ ε)} (l r : List (Ty × A)) (s : σ) :
    visitSeq rec (l ++ r) s =
      match visitSeq rec l s with
      | some (.ok s') => visitSeq rec r s'
      | x => x := by
  induction l generalizing s with
  | nil => rfl
  | cons p l ih =>
    simp only [List.cons_append, visitSeq]
    cases rec p.1 p.2 s with
    | none => rfl
    | some q =>
      cases q with
      | ok s' => exact ih s'
      | err e s' => rfl
      | panic s' => rfl

theorem visitTurns_of {rec : Ty → A → σ → Option (Visited σ ε)}
    {turn : Nat → Option (Option (List (Ty × A)))} (gs : List (List (Ty × A))) (i : Nat)
    (h : TurnsAre turn i gs) (f : Nat) (hf : gs.length < f) (s : σ) :
    visitTurns rec turn f i s = visitSeq rec gs.flatten s := by
  induction gs generalizing i f s with
  | nil =>
    obtain ⟨g, rfl⟩ : ∃ g, f = g + 1 := ⟨f - 1, by simp at hf; omega⟩
    have := h.1
    simp only [List.length_nil, Nat.add_zero] at this
    simp only [visitTurns, this, List.flatten_nil, visitSeq]
  | cons q gs ih =>
    obtain ⟨g, rfl⟩ : ∃ g, f = g + 1 := ⟨f - 1, by simp at hf; omega⟩
    have h0 := h.2 0 q rfl
    simp only [Nat.add_zero] at h0
    have hr : TurnsAre turn (i + 1) gs := by
      refine ⟨?_, fun j q hj => ?_⟩
      · have := h.1
        simp only [List.length_cons] at this
        rw [show i + 1 + gs.length = i + (gs.length + 1) by omega]; exact this
      · have := h.2 (j + 1) q (by simpa using hj)
        rw [show i + 1 + j = i + (j + 1) by omega]; exact this
    simp only [visitTurns, h0, List.flatten_cons, visitSeq_append]
    cases visitSeq rec q s with
    | none => rfl
    | some w =>
      cases w with
      | ok s' => exact ih (i + 1) hr g (by simp at hf; omega) s'
      | err e s' => rfl
      | panic s' => rfl

theorem visitTurns_ok {rec : Ty → A → σ → Option (Visited σ ε)}
    {turn : Nat → Option (Option (List (Ty × A)))} (f i : Nat) (s s' : σ)
    (h : visitTurns rec turn f i s = some (.ok s')) :
    ∃ gs, TurnsAre turn i gs ∧ visitSeq rec gs.flatten s = some (.ok s') := by
  induction f generalizing i s with
  | zero => cases h
  | succ f ih =>
    simp only [visitTurns] at h
    split at h
    · next ht => exact ⟨[], ⟨by simpa using ht, fun j q hq => by simp at hq⟩, by simpa [visitSeq] using h⟩
    · cases h
    · next l ht =>
      cases hq : visitSeq rec l s with
      | none => rw [hq] at h; cases h
      | some w =>
        rw [hq] at h
        cases w with
        | err e z => cases h
        | panic z => cases h
        | ok z =>
          obtain ⟨gs, hgs, hv⟩ := ih _ _ h
          refine ⟨l :: gs, ⟨?_, fun j q hj => ?_⟩, ?_⟩
          · rw [List.length_cons, show i + (gs.length + 1) = i + 1 + gs.length by omega]; exact hgs.1
          · cases j with
            | zero => simp at hj; subst hj; exact ht
            | succ j =>
              rw [show i + (j + 1) = i + 1 + j by omega]
              exact hgs.2 j q (by simpa using hj)
          · rw [List.flatten_cons, visitSeq_append, hq]
            exact hv

/-! ## Parts -/

theorem flatten_singles {α β : Type} (f : α → β) (l : List α) : (l.map fun x => [f x]).flatten = l.map f := by
  induction l with
  | nil => rfl
  | cons x l ih => simp only [List.map_cons, List.flatten_cons, ih]; rfl

theorem namedVisits_of {tys : List (String × Option Ty)} {field : String → Option A} {ps : List (Ty × A)}
    (h : List.Forall₂ (fun q p => q.2 = some p.1 ∧ field q.1 = some p.2) tys ps) :
    TurnsAre (namedVisits tys field) 0 (ps.map fun p => [p]) := by
  have hl := h.length_eq
  have hg := List.forall₂_iff_get.mp h
  refine ⟨?_, fun j q hj => ?_⟩
  · simp only [Nat.zero_add, namedVisits, List.length_map, ← hl, List.getElem?_length]
  · obtain ⟨p, hp, rfl⟩ : ∃ p, ps[j]? = some p ∧ q = [p] := by
      rw [List.getElem?_map] at hj
      obtain ⟨p, hp, rfl⟩ := Option.map_eq_some_iff.mp hj
      exact ⟨p, hp, rfl⟩
    obtain ⟨hlt, rfl⟩ := List.getElem?_eq_some_iff.mp hp
    obtain ⟨h1, h2⟩ := hg.2 j (by omega) hlt
    simp only [List.get_eq_getElem] at h1 h2
    rw [Nat.zero_add]
    simp only [namedVisits]
    rw [List.getElem?_eq_getElem (by omega)]
    simp only [h1, h2]

theorem namedVisits_inv {tys : List (String × Option Ty)} {field : String → Option A}
    {gs : List (List (Ty × A))} (h : TurnsAre (namedVisits tys field) 0 gs) :
    List.Forall₂ (fun q p => q.2 = some p.1 ∧ field q.1 = some p.2) tys gs.flatten := by
  have each : ∀ (j : Nat) q, gs[j]? = some q → ∃ w p, tys[j]? = some w ∧ q = [p] ∧ w.2 = some p.1 ∧
      field w.1 = some p.2 := by
    intro j q hj
    have := h.2 j q hj
    rw [Nat.zero_add] at this
    simp only [namedVisits] at this
    split at this
    · cases this
    · next w hw =>
      split at this
      · next x t hx ht => cases this; exact ⟨w, _, hw, rfl, ht, hx⟩
      · cases this
  have hlen : tys.length = gs.length := by
    have h1 : tys.length ≤ gs.length := by
      have := h.1
      rw [Nat.zero_add] at this
      simp only [namedVisits] at this
      split at this
      · next hn => exact List.getElem?_eq_none_iff.mp hn
      · split at this <;> cases this
    have h2 : gs.length ≤ tys.length := by
      rcases Nat.lt_or_ge tys.length gs.length with hlt | hge
      · obtain ⟨w, p, hw, -⟩ := each tys.length _ (List.getElem?_eq_getElem hlt)
        simp at hw
      · exact hge
    omega
  obtain ⟨ps, hps⟩ : ∃ ps : List (Ty × A), gs = ps.map fun p => [p] := by
    have : ∀ q ∈ gs, ∃ p, q = [p] := fun q hq => by
      obtain ⟨j, hj⟩ := List.getElem?_of_mem hq
      obtain ⟨w, p, -, hp, -⟩ := each j q hj
      exact ⟨p, hp⟩
    clear each h hlen
    induction gs with
    | nil => exact ⟨[], rfl⟩
    | cons q gs ih =>
      obtain ⟨p, rfl⟩ := this q (by simp)
      obtain ⟨ps, rfl⟩ := ih fun q hq => this q (by simp [hq])
      exact ⟨p :: ps, rfl⟩
  subst hps
  rw [flatten_singles (fun p => p), List.map_id']
  rw [List.length_map] at hlen
  refine List.forall₂_iff_get.mpr ⟨hlen, fun j h1 h2 => ?_⟩
  obtain ⟨w, p, hw, hp, h3, h4⟩ := each j [ps[j]] (by rw [List.getElem?_map, List.getElem?_eq_getElem h2]; rfl)
  rw [List.getElem?_eq_getElem h1] at hw
  cases hw
  cases hp
  exact ⟨h3, h4⟩

theorem posVisits_named (tys : List Ty) (fieldAt : Nat → Option A) (gs : List (List (Ty × A))) :
    TurnsAre (posVisits tys fieldAt) 0 gs ↔
      (gs.flatten.map (·.1) = tys ∧ ∀ (i : Nat) p, gs.flatten[i]? = some p → fieldAt i = some p.2) ∧
        gs = gs.flatten.map fun p => [p] := by
  constructor
  · intro h
    have each : ∀ (j : Nat) q, gs[j]? = some q → ∃ t x, tys[j]? = some t ∧ q = [(t, x)] ∧
        fieldAt j = some x := by
      intro j q hj
      have := h.2 j q hj
      rw [Nat.zero_add] at this
      simp only [posVisits] at this
      split at this
      · cases this
      · next t ht =>
        split at this
        · next x hx => cases this; exact ⟨t, x, ht, rfl, hx⟩
        · cases this
    have hlen : tys.length = gs.length := by
      have h1 : tys.length ≤ gs.length := by
        have := h.1
        rw [Nat.zero_add] at this
        simp only [posVisits] at this
        split at this
        · next hn => exact List.getElem?_eq_none_iff.mp hn
        · split at this <;> cases this
      have h2 : gs.length ≤ tys.length := by
        rcases Nat.lt_or_ge tys.length gs.length with hlt | hge
        · obtain ⟨w, p, hw, -⟩ := each tys.length _ (List.getElem?_eq_getElem hlt)
          simp at hw
        · exact hge
      omega
    obtain ⟨ps, hps⟩ : ∃ ps : List (Ty × A), gs = ps.map fun p => [p] := by
      have : ∀ q ∈ gs, ∃ p, q = [p] := fun q hq => by
        obtain ⟨j, hj⟩ := List.getElem?_of_mem hq
        obtain ⟨w, p, -, hp, -⟩ := each j q hj
        exact ⟨_, hp⟩
      clear each h hlen
      induction gs with
      | nil => exact ⟨[], rfl⟩
      | cons q gs ih =>
        obtain ⟨p, rfl⟩ := this q (by simp)
        obtain ⟨ps, rfl⟩ := ih fun q hq => this q (by simp [hq])
        exact ⟨p :: ps, rfl⟩
    subst hps
    rw [flatten_singles (fun p => p), List.map_id']
    rw [List.length_map] at hlen
    refine ⟨⟨?_, fun i p hp => ?_⟩, rfl⟩
    · apply List.ext_getElem?
      intro i
      rw [List.getElem?_map]
      cases hp : ps[i]? with
      | none =>
        rw [List.getElem?_eq_none_iff] at hp
        rw [eq_comm, Option.map_none, List.getElem?_eq_none_iff]; omega
      | some p =>
        obtain ⟨t, x, ht, he, -⟩ := each i [p] (by rw [List.getElem?_map, hp]; rfl)
        cases he
        rw [ht]; rfl
    · obtain ⟨t, x, -, he, hx⟩ := each i [p] (by rw [List.getElem?_map, hp]; rfl)
      cases he
      exact hx
  · rintro ⟨⟨h1, h2⟩, h3⟩
    generalize gs.flatten = ps at *
    subst h3
    refine ⟨?_, fun j q hj => ?_⟩
    · simp only [Nat.zero_add, posVisits, List.length_map, ← h1]
      rw [List.getElem?_eq_none_iff.mpr (by simp)]
    · rw [List.getElem?_map] at hj
      obtain ⟨p, hp, rfl⟩ := Option.map_eq_some_iff.mp hj
      rw [Nat.zero_add]
      simp only [posVisits, ← h1, List.getElem?_map, hp, Option.map_some, h2 j p hp]

theorem itemVisits_iff (t : Ty) (get : Nat → Option A) (gs : List (List (Ty × A))) :
    TurnsAre (itemVisits t get) 0 gs ↔ ∃ xs : List A, gs = xs.map (fun x => [(t, x)]) ∧
      get xs.length = none ∧ ∀ (i : Nat) x, xs[i]? = some x → get i = some x := by
  constructor
  · intro h
    have each : ∀ (j : Nat) q, gs[j]? = some q → ∃ x, q = [(t, x)] ∧ get j = some x := by
      intro j q hj
      have := h.2 j q hj
      rw [Nat.zero_add] at this
      obtain ⟨x, hx, he⟩ := Option.map_eq_some_iff.mp this
      cases he
      exact ⟨x, rfl, hx⟩
    obtain ⟨xs, rfl⟩ : ∃ xs : List A, gs = xs.map fun x => [(t, x)] := by
      have : ∀ q ∈ gs, ∃ x, q = [(t, x)] := fun q hq => by
        obtain ⟨j, hj⟩ := List.getElem?_of_mem hq
        obtain ⟨x, hp, -⟩ := each j q hj
        exact ⟨_, hp⟩
      clear each h
      induction gs with
      | nil => exact ⟨[], rfl⟩
      | cons q gs ih =>
        obtain ⟨p, rfl⟩ := this q (by simp)
        obtain ⟨ps, rfl⟩ := ih fun q hq => this q (by simp [hq])
        exact ⟨p :: ps, rfl⟩
    refine ⟨xs, rfl, ?_, fun i x hx => ?_⟩
    · have := h.1
      rw [Nat.zero_add, List.length_map] at this
      exact Option.map_eq_none_iff.mp this
    · obtain ⟨y, he, hy⟩ := each i [(t, x)] (by rw [List.getElem?_map, hx]; rfl)
      cases he
      exact hy
  · rintro ⟨xs, rfl, h1, h2⟩
    refine ⟨?_, fun j q hj => ?_⟩
    · rw [Nat.zero_add, List.length_map, itemVisits, h1]; rfl
    · rw [List.getElem?_map] at hj
      obtain ⟨p, hp, rfl⟩ := Option.map_eq_some_iff.mp hj
      rw [Nat.zero_add, itemVisits, h2 j p hp]; rfl

theorem entryVisits_iff (k v : Ty) (entries : Nat → Option (A × A)) (gs : List (List (Ty × A))) :
    TurnsAre (entryVisits k v entries) 0 gs ↔ ∃ es : List (A × A),
      gs = es.map (fun p => [(k, p.1), (v, p.2)]) ∧
      entries es.length = none ∧ ∀ (i : Nat) p, es[i]? = some p → entries i = some p := by
  constructor
  · intro h
    have each : ∀ (j : Nat) q, gs[j]? = some q → ∃ p : A × A, q = [(k, p.1), (v, p.2)] ∧
        entries j = some p := by
      intro j q hj
      have := h.2 j q hj
      rw [Nat.zero_add] at this
      obtain ⟨x, hx, he⟩ := Option.map_eq_some_iff.mp this
      cases he
      exact ⟨x, rfl, hx⟩
    obtain ⟨es, rfl⟩ : ∃ es : List (A × A), gs = es.map fun p => [(k, p.1), (v, p.2)] := by
      have : ∀ q ∈ gs, ∃ p : A × A, q = [(k, p.1), (v, p.2)] := fun q hq => by
        obtain ⟨j, hj⟩ := List.getElem?_of_mem hq
        obtain ⟨x, hp, -⟩ := each j q hj
        exact ⟨_, hp⟩
      clear each h
      induction gs with
      | nil => exact ⟨[], rfl⟩
      | cons q gs ih =>
        obtain ⟨p, rfl⟩ := this q (by simp)
        obtain ⟨ps, rfl⟩ := ih fun q hq => this q (by simp [hq])
        exact ⟨p :: ps, rfl⟩
    refine ⟨es, rfl, ?_, fun i x hx => ?_⟩
    · have := h.1
      rw [Nat.zero_add, List.length_map] at this
      exact Option.map_eq_none_iff.mp this
    · obtain ⟨y, he, hy⟩ := each i [(k, x.1), (v, x.2)] (by rw [List.getElem?_map, hx]; rfl)
      obtain ⟨x1, x2⟩ := x
      obtain ⟨y1, y2⟩ := y
      cases he
      exact hy
  · rintro ⟨xs, rfl, h1, h2⟩
    refine ⟨?_, fun j q hj => ?_⟩
    · rw [Nat.zero_add, List.length_map, entryVisits, h1]; rfl
    · rw [List.getElem?_map] at hj
      obtain ⟨p, hp, rfl⟩ := Option.map_eq_some_iff.mp hj
      rw [Nat.zero_add, entryVisits, h2 j p hp]; rfl

theorem noTurn_not {gs : List (List (Ty × A))} (h : TurnsAre noTurn 0 gs) : False := by
  cases gs with
  | nil => have := h.1; simp [noTurn] at this
  | cons q gs => have := h.2 0 q rfl; simp [noTurn] at this

theorem PartsOf.turns {g : TypeGraph} {node : TypeNode} {w : RefView A} {ps : List (Ty × A)}
    (h : PartsOf g node w ps) : ∃ gs, TurnsAre (visitTurn g node w) 0 gs ∧ gs.flatten = ps := by
  cases h with
  | struct h => exact ⟨_, namedVisits_of h, by rw [flatten_singles (fun p => p), List.map_id']⟩
  | tupleStruct h1 h2 =>
    refine ⟨ps.map fun p => [p], (posVisits_named _ _ _).mpr ?_, ?_⟩ <;>
      rw [flatten_singles (fun p => p), List.map_id']
    exact ⟨⟨h1, h2⟩, rfl⟩
  | tuple h1 h2 =>
    refine ⟨ps.map fun p => [p], (posVisits_named _ _ _).mpr ?_, ?_⟩ <;>
      rw [flatten_singles (fun p => p), List.map_id']
    exact ⟨⟨h1, h2⟩, rfl⟩
  | enumS hv h =>
    refine ⟨_, ?_, by rw [flatten_singles (fun p => p), List.map_id']⟩
    simp only [visitTurn, hv]
    exact namedVisits_of h
  | enumT hv h1 h2 =>
    refine ⟨ps.map fun p => [p], ?_, ?_⟩
    · simp only [visitTurn, hv]
      refine (posVisits_named _ _ _).mpr ?_
      rw [flatten_singles (fun p => p), List.map_id']
      exact ⟨⟨h1, h2⟩, rfl⟩
    · rw [flatten_singles (fun p => p), List.map_id']
  | enumU hv =>
    refine ⟨[], ?_, rfl⟩
    simp only [visitTurn, hv]
    exact ⟨rfl, fun j q hq => by simp at hq⟩
  | list hn h1 h2 =>
    refine ⟨_, ?_, flatten_singles _ _⟩
    simp only [visitTurn, hn, if_true]
    exact (itemVisits_iff _ _ _).mpr ⟨_, rfl, h1, h2⟩
  | array hn h1 h2 =>
    refine ⟨_, ?_, flatten_singles _ _⟩
    simp only [visitTurn, hn, if_true]
    exact (itemVisits_iff _ _ _).mpr ⟨_, rfl, h1, h2⟩
  | map hk hv h1 h2 =>
    refine ⟨_, ?_, (List.flatMap_def ..).symm⟩
    simp only [visitTurn, hk, hv, and_self, if_true]
    exact (entryVisits_iff _ _ _ _).mpr ⟨_, rfl, h1, h2⟩

theorem PartsOf.of_turns {g : TypeGraph} {node : TypeNode} {w : RefView A} {gs : List (List (Ty × A))}
    (h : TurnsAre (visitTurn g node w) 0 gs) : PartsOf g node w gs.flatten := by
  cases node <;> cases w <;> simp only [visitTurn] at h <;> try exact absurd h noTurn_not
  case struct.struct => exact .struct (namedVisits_inv h)
  case tupleStruct.tupleStruct =>
    obtain ⟨⟨h1, h2⟩, -⟩ := (posVisits_named _ _ _).mp h
    exact .tupleStruct h1 h2
  case tuple.tuple =>
    obtain ⟨⟨h1, h2⟩, -⟩ := (posVisits_named _ _ _).mp h
    exact .tuple h1 h2
  case enum.enum =>
    split at h
    · exact absurd h noTurn_not
    · next hv => exact .enumS hv (namedVisits_inv h)
    · next hv =>
      obtain ⟨⟨h1, h2⟩, -⟩ := (posVisits_named _ _ _).mp h
      exact .enumT hv h1 h2
    · next hv =>
      cases gs with
      | nil => exact .enumU hv
      | cons q gs => have := h.2 0 q rfl; cases this
  case list.list =>
    split at h
    · next hn =>
      obtain ⟨xs, rfl, h1, h2⟩ := (itemVisits_iff _ _ _).mp h
      rw [flatten_singles]
      exact .list hn h1 h2
    · exact absurd h noTurn_not
  case array.array =>
    split at h
    · next hn =>
      obtain ⟨xs, rfl, h1, h2⟩ := (itemVisits_iff _ _ _).mp h
      rw [flatten_singles]
      exact .array hn h1 h2
    · exact absurd h noTurn_not
  case map.map =>
    split at h
    · next hn =>
      obtain ⟨es, rfl, h1, h2⟩ := (entryVisits_iff _ _ _ _).mp h
      rw [← List.flatMap_def]
      exact .map hn.1 hn.2 h1 h2
    · exact absurd h noTurn_not

theorem PartsOf.not_leaf {g : TypeGraph} {node : TypeNode} {w : RefView A} {ps : List (Ty × A)}
    (h : PartsOf g node w ps) : (∀ k, node ≠ .scalar k) ∧ node ≠ .opaque := by
  cases h <;> exact ⟨fun k => nofun, nofun⟩

/-! ## What a visit comes to -/

theorem callAll_append (v : VisitorA A σ ε) (l r : List (LeafA A)) (s : σ) :
    callAll v (l ++ r) s =
      match callAll v l s with
      | .ok s' => callAll v r s'
      | x => x := by
  induction l generalizing s with
  | nil => rfl
  | cons x l ih =>
    simp only [List.cons_append, callAll]
    split
    · exact ih _
    · rfl

theorem Impl.ShowAll.visit {I : Impl A} {g : TypeGraph} (v : VisitorA A σ ε) {ps : List (Ty × A)}
    {ls : List (LeafA A)} (h : I.ShowAll g ps ls) :
    ∃ n, ∀ s, visitSeq (I.visit g v n) ps s = some (callAll v ls s) := by
  induction h with
  | nil => exact ⟨0, fun s => rfl⟩
  | @scalar id a k x r ls hn hv _ ih =>
    obtain ⟨n, ih⟩ := ih
    refine ⟨n + 1, fun s => ?_⟩
    simp only [visitSeq, Impl.visit, hn, hv, visitLeafA, callAll]
    rcases hq : v (.scalar x) s with ⟨e, s'⟩
    cases e with
    | none =>
      dsimp only
      exact visitSeq_mono (I.visit_mono g v n (n + 1) (Nat.le_succ _)) r s' _ (ih s')
    | some e => rfl
  | @«opaque» id a r ls hn _ ih =>
    obtain ⟨n, ih⟩ := ih
    refine ⟨n + 1, fun s => ?_⟩
    simp only [visitSeq, Impl.visit, hn, visitLeafA, callAll]
    rcases hq : v (.opaque a id) s with ⟨e, s'⟩
    cases e with
    | none =>
      dsimp only
      exact visitSeq_mono (I.visit_mono g v n (n + 1) (Nat.le_succ _)) r s' _ (ih s')
    | some e => rfl
  | @parts id a node ps ms r ls hn hp _ _ ih1 ih2 =>
    obtain ⟨n1, ih1⟩ := ih1
    obtain ⟨n2, ih2⟩ := ih2
    obtain ⟨gs, hgs, rfl⟩ := hp.turns
    obtain ⟨hl1, hl2⟩ := hp.not_leaf
    let n := n1 + n2 + gs.length + 1
    refine ⟨n + 1, fun s => ?_⟩
    simp only [visitSeq]
    rw [I.visit_parts g v n a s hn hl1 hl2, visitTurns_of gs 0 hgs n (by omega),
      visitSeq_mono (I.visit_mono g v n1 n (by omega)) _ s _ (ih1 s), callAll_append]
    cases callAll v ms s with
    | ok s' => exact visitSeq_mono (I.visit_mono g v n2 (n + 1) (by omega)) r s' _ (ih2 s')
    | err e s' => rfl
    | panic s' => rfl

theorem Impl.visit_ok {I : Impl A} {g : TypeGraph} (v : VisitorA A σ ε) (n : Nat) :
    ∀ ps s s', visitSeq (I.visit g v n) ps s = some (.ok s') →
      ∃ ls, I.ShowAll g ps ls ∧ callAll v ls s = .ok s' := by
  induction n with
  | zero =>
    intro ps s s' h
    cases ps with
    | nil => cases h; exact ⟨[], .nil, rfl⟩
    | cons p ps => cases h
  | succ n ih =>
    intro ps
    induction ps with
    | nil => intro s s' h; cases h; exact ⟨[], .nil, rfl⟩
    | cons p ps ihp =>
      obtain ⟨id, a⟩ := p
      intro s s' h
      simp only [visitSeq] at h
      cases hq : I.visit g v (n + 1) id a s with
      | none => rw [hq] at h; cases h
      | some w =>
        rw [hq] at h
        cases w with
        | err e z => cases h
        | panic z => cases h
        | ok z =>
          obtain ⟨ls, hls, hc⟩ := ihp z s' h
          cases hn : g.node id with
          | none => simp only [Impl.visit] at hq; rw [hn] at hq; cases hq
          | some node =>
            by_cases h1 : ∃ k, node = .scalar k
            · obtain ⟨k, rfl⟩ := h1
              simp only [Impl.visit] at hq
              rw [hn] at hq
              dsimp only at hq
              split at hq
              · next x hx =>
                refine ⟨.scalar x :: ls, .scalar hn hx hls, ?_⟩
                simp only [visitLeafA, Option.some.injEq] at hq
                simp only [callAll]
                split at hq
                · next hv => cases hq; rw [hv]; exact hc
                · cases hq
              · cases hq
            · by_cases h2 : node = .opaque
              · subst h2
                simp only [Impl.visit] at hq
                rw [hn] at hq
                dsimp only at hq
                refine ⟨.opaque a id :: ls, .opaque hn hls, ?_⟩
                simp only [visitLeafA, Option.some.injEq] at hq
                simp only [callAll]
                split at hq
                · next hv => cases hq; rw [hv]; exact hc
                · cases hq
              · rw [I.visit_parts g v n a s hn (fun k hk => h1 ⟨k, hk⟩) h2] at hq
                obtain ⟨gs, hgs, hv⟩ := visitTurns_ok _ _ _ _ hq
                obtain ⟨ms, hms, hcm⟩ := ih _ _ _ hv
                refine ⟨ms ++ ls, .parts hn (.of_turns hgs) hms hls, ?_⟩
                rw [callAll_append, hcm]
                exact hc

end


/-! ## Values that look alike -/

section
variable {A B σ ε : Type}

theorem visitSeq_same {R : A → B → Prop} {rec : Ty → A → σ → Option (Visited σ ε)}
    {rec' : Ty → B → σ → Option (Visited σ ε)} (hr : ∀ t a b s, R a b → rec t a s = rec' t b s)
    {l : List (Ty × A)} {l' : List (Ty × B)}
    (h : List.Forall₂ (fun p q => p.1 = q.1 ∧ R p.2 q.2) l l') (s : σ) :
    visitSeq rec l s = visitSeq rec' l' s := by
  induction h generalizing s with
  | nil => rfl
  | @cons p q l l' hp _ ih =>
    simp only [visitSeq]
    rw [hr p.1 p.2 q.2 s hp.2, hp.1]
    cases rec' q.1 q.2 s with
    | none => rfl
    | some w =>
      cases w with
      | ok s' => exact ih s'
      | err e s' => rfl
      | panic s' => rfl

/-- Turns with related parts. -/
def TurnsSame (R : A → B → Prop) (turn : Nat → Option (Option (List (Ty × A))))
    (turn' : Nat → Option (Option (List (Ty × B)))) : Prop :=
  ∀ i, Option.Rel (Option.Rel (List.Forall₂ (fun p q => p.1 = q.1 ∧ R p.2 q.2))) (turn i) (turn' i)

theorem visitTurns_same {R : A → B → Prop} {rec : Ty → A → σ → Option (Visited σ ε)}
    {rec' : Ty → B → σ → Option (Visited σ ε)} (hr : ∀ t a b s, R a b → rec t a s = rec' t b s)
    {turn : Nat → Option (Option (List (Ty × A)))} {turn' : Nat → Option (Option (List (Ty × B)))}
    (h : TurnsSame R turn turn') (f i : Nat) (s : σ) :
    visitTurns rec turn f i s = visitTurns rec' turn' f i s := by
  induction f generalizing i s with
  | zero => rfl
  | succ f ih =>
    simp only [visitTurns]
    have hi := h i
    generalize turn i = x at *
    generalize turn' i = y at *
    cases hi with
    | none => rfl
    | some hi =>
      cases hi with
      | none => rfl
      | some hi =>
        rename_i l l'
        dsimp only
        rw [visitSeq_same hr hi s]
        cases visitSeq rec' l' s with
        | none => rfl
        | some w =>
          cases w with
          | ok s' => exact ih (i + 1) s'
          | err e s' => rfl
          | panic s' => rfl

theorem namedVisits_same {R : A → B → Prop} (tys : List (String × Option Ty)) {field : String → Option A}
    {field' : String → Option B} (h : ∀ n, Option.Rel R (field n) (field' n)) :
    TurnsSame R (namedVisits tys field) (namedVisits tys field') := by
  intro i
  simp only [namedVisits]
  cases tys[i]? with
  | none => exact .none
  | some q =>
    dsimp only
    have hq := h q.1
    generalize field q.1 = x at *
    generalize field' q.1 = y at *
    cases hq with
    | none => exact .some .none
    | some hq =>
      cases q.2 with
      | none => exact .some .none
      | some t => exact .some (.some (.cons ⟨rfl, hq⟩ .nil))

theorem posVisits_same {R : A → B → Prop} (tys : List Ty) {fieldAt : Nat → Option A}
    {fieldAt' : Nat → Option B} (h : ∀ i, Option.Rel R (fieldAt i) (fieldAt' i)) :
    TurnsSame R (posVisits tys fieldAt) (posVisits tys fieldAt') := by
  intro i
  simp only [posVisits]
  cases tys[i]? with
  | none => exact .none
  | some t =>
    dsimp only
    have hq := h i
    generalize fieldAt i = x at *
    generalize fieldAt' i = y at *
    cases hq with
    | none => exact .some .none
    | some hq => exact .some (.some (.cons ⟨rfl, hq⟩ .nil))

theorem itemVisits_same {R : A → B → Prop} (t : Ty) {get : Nat → Option A} {get' : Nat → Option B}
    (h : ∀ i, Option.Rel R (get i) (get' i)) : TurnsSame R (itemVisits t get) (itemVisits t get') := by
  intro i
  simp only [itemVisits]
  have hq := h i
  generalize get i = x at *
  generalize get' i = y at *
  cases hq with
  | none => exact .none
  | some hq => exact .some (.some (.cons ⟨rfl, hq⟩ .nil))

theorem entryVisits_same {R : A → B → Prop} (k v : Ty) {es : Nat → Option (A × A)} {es' : Nat → Option (B × B)}
    (h : ∀ i, Option.Rel (fun p q => R p.1 q.1 ∧ R p.2 q.2) (es i) (es' i)) :
    TurnsSame R (entryVisits k v es) (entryVisits k v es') := by
  intro i
  simp only [entryVisits]
  have hq := h i
  generalize es i = x at *
  generalize es' i = y at *
  cases hq with
  | none => exact .none
  | some hq => exact .some (.some (.cons ⟨rfl, hq.1⟩ (.cons ⟨rfl, hq.2⟩ .nil)))

theorem noTurn_same {R : A → B → Prop} : TurnsSame R noTurn noTurn := by
  intro i
  simp only [noTurn]
  split
  · exact .some .none
  · exact .none

theorem visitTurn_same {R : A → B → Prop} (g : TypeGraph) (node : TypeNode) {w : RefView A} {w' : RefView B}
    (h : RefView.Same R w w') : TurnsSame R (visitTurn g node w) (visitTurn g node w') := by
  cases h <;> cases node <;> simp only [visitTurn] <;> try exact noTurn_same
  case struct.struct => exact namedVisits_same _ (by assumption)
  case tupleStruct.tupleStruct => exact posVisits_same _ (by assumption)
  case tuple.tuple => exact posVisits_same _ (by assumption)
  case enum.enum =>
    split
    · exact noTurn_same
    · exact namedVisits_same _ (by assumption)
    · exact posVisits_same _ (by assumption)
    · exact fun i => .none
  case array.array =>
    split
    · exact itemVisits_same _ (by assumption)
    · exact noTurn_same
  case list.list =>
    split
    · exact itemVisits_same _ (by assumption)
    · exact noTurn_same
  case map.map =>
    split
    · exact entryVisits_same _ _ (by assumption)
    · exact noTurn_same

theorem Impl.visit_same {I : Impl A} {J : Impl B} {R : A → B → Prop} (h : I.Alike J R) (g : TypeGraph)
    {v : VisitorA A σ ε} {w : VisitorA B σ ε} (hs : ∀ x s, v (.scalar x) s = w (.scalar x) s)
    (ho : ∀ a b t s, R a b → v (.opaque a t) s = w (.opaque b t) s) (n : Nat) :
    ∀ t a b s, R a b → I.visit g v n t a s = J.visit g w n t b s := by
  induction n with
  | zero => intro t a b s _; rfl
  | succ n ih =>
    intro t a b s hab
    have hv := h.view a b hab
    simp only [Impl.visit]
    cases g.node t with
    | none => rfl
    | some node =>
      cases node with
      | scalar k =>
        dsimp only
        generalize I.view a = x at *
        generalize J.view b = y at *
        cases hv <;> try rfl
        simp only [visitLeafA, hs]
      | «opaque» => simp only [visitLeafA, ho a b t s hab]
      | _ => exact visitTurns_same ih (visitTurn_same g _ hv) n 0 s

end

/-! ## Derived and built-in values -/

section
variable {σ ε : Type}

/-- What a visitor sees of a leaf. -/
def LeafA.toLeaf : LeafA Obj → Leaf
  | .scalar s => .scalar s
  | .opaque o t => .opaque o t

/-- The iterations of a loop, turn by turn. -/
def flatTurns {α : Type} (T : List (Option (List α))) : List (Option α) :=
  T.flatMap fun
    | none => [none]
    | some l => l.map some

theorem flatTurns_singles {α : Type} (l : List (Option α)) :
    flatTurns (l.map (Option.map fun p => [p])) = l := by
  induction l with
  | nil => rfl
  | cons x l ih =>
    simp only [flatTurns, List.map_cons, List.flatMap_cons] at ih ⊢
    rw [ih]
    cases x <;> rfl

/-- The body of the loops of `tryVisit`. -/
def visitBody (g : TypeGraph) (v : Visitor σ ε) (o : Obj) (st : Option (Ty × o.Part)) (s : σ) : Visited σ ε :=
  match st with
  | none => .panic s
  | some (t, x) => tryVisit g v t x.1 s

theorem tryVisit_parts (g : TypeGraph) (v : Visitor σ ε) {id : Ty} {node : TypeNode}
    (hn : g.node id = some node) (h1 : ∀ k, node ≠ .scalar k) (h2 : node ≠ .opaque) (o : Obj) (s : σ) :
    tryVisit g v id o s = visitLoop (visitBody g v o) (visitSteps g o node) s := by
  rw [tryVisit]
  rw [hn]
  cases node <;> first | rfl | exact absurd rfl (h1 _) | exact absurd rfl h2

theorem visitLoop_append {α : Type} (f : α → σ → Visited σ ε) (l r : List α) (s : σ) :
    visitLoop f (l ++ r) s =
      match visitLoop f l s with
      | .ok s' => visitLoop f r s'
      | x => x := by
  induction l generalizing s with
  | nil => rfl
  | cons p l ih =>
    simp only [List.cons_append, visitLoop]
    cases f p s with
    | ok s' => exact ih s'
    | err e s' => rfl
    | panic s' => rfl

theorem visitSeq_loop (g : TypeGraph) (v : Visitor σ ε) (o : Obj)
    {rec : Ty → Obj → σ → Option (Visited σ ε)} (l : List (Ty × o.Part))
    (h : ∀ p ∈ l, ∀ s, rec p.1 p.2.1 s = some (tryVisit g v p.1 p.2.1 s)) (s : σ) :
    visitSeq rec (l.map fun p => (p.1, p.2.1)) s = some (visitLoop (visitBody g v o) (l.map some) s) := by
  induction l generalizing s with
  | nil => rfl
  | cons p l ih =>
    simp only [List.map_cons, visitSeq, visitLoop, visitBody]
    rw [h p (by simp) s]
    cases tryVisit g v p.1 p.2.1 s with
    | ok s' => exact ih (fun q hq => h q (by simp [hq])) s'
    | err e s' => rfl
    | panic s' => rfl

theorem visitTurns_loop (g : TypeGraph) (v : Visitor σ ε) (o : Obj)
    {rec : Ty → Obj → σ → Option (Visited σ ε)} (turn : Nat → Option (Option (List (Ty × Obj))))
    (T : List (Option (List (Ty × o.Part)))) (i : Nat)
    (ht : ∀ j, turn (i + j) = T[j]?.map (Option.map (List.map fun p => (p.1, p.2.1))))
    (h : ∀ l, some l ∈ T → ∀ p ∈ l, ∀ s, rec p.1 p.2.1 s = some (tryVisit g v p.1 p.2.1 s))
    (f : Nat) (hf : T.length < f) (s : σ) :
    visitTurns rec turn f i s = some (visitLoop (visitBody g v o) (flatTurns T) s) := by
  induction T generalizing i f s with
  | nil =>
    obtain ⟨f, rfl⟩ : ∃ g, f = g + 1 := ⟨f - 1, by simp at hf; omega⟩
    have := ht 0
    simp only [Nat.add_zero] at this
    simp only [visitTurns, this]
    rfl
  | cons x T ih =>
    obtain ⟨f, rfl⟩ : ∃ g, f = g + 1 := ⟨f - 1, by simp at hf; omega⟩
    have h0 := ht 0
    simp only [Nat.add_zero, List.getElem?_cons_zero, Option.map_some] at h0
    simp only [visitTurns, h0]
    cases x with
    | none => rfl
    | some l =>
      simp only [Option.map_some]
      rw [visitSeq_loop g v o l (h l (by simp)) s]
      have hft : flatTurns (some l :: T) = l.map some ++ flatTurns T := rfl
      rw [hft, visitLoop_append]
      cases visitLoop (visitBody g v o) (l.map some) s with
      | err e s' => rfl
      | panic s' => rfl
      | ok s' =>
        refine ih (i + 1) (fun j => ?_) (fun l hl => h l (by simp [hl])) f (by simp at hf; omega) s'
        rw [show i + 1 + j = i + (j + 1) by omega, ht (j + 1), List.getElem?_cons_succ]

/-- One part, if it and its type are there. -/
def oneVisit (r : Option Obj) (t : Option Ty) : Option (List (Ty × Obj)) :=
  match r, t with
  | some x, some t => some [(t, x)]
  | _, _ => none

theorem visitStep_turn (o : Obj) (t : Option Ty) (r : Option Obj) (h : ∀ x, r = some x → sizeOf x < sizeOf o) :
    (visitStep t (o.part r h)).map (fun p => [(p.1, p.2.1)]) = oneVisit r t := by
  cases r <;> cases t <;> rfl

theorem namedVisits_steps (o : Obj) (tys : List (String × Option Ty)) (j : Nat) :
    namedVisits tys o.field j = (tys.map fun q =>
      visitStep q.2 (o.part (o.field q.1) fun _ h => Obj.field_size h))[j]?.map
        (Option.map fun p => [(p.1, p.2.1)]) := by
  simp only [namedVisits, List.getElem?_map]
  cases tys[j]? with
  | none => rfl
  | some q =>
    simp only [Option.map_some, visitStep_turn]
    cases o.field q.1 <;> cases q.2 <;> rfl

theorem posVisits_steps (o : Obj) (tys : List Ty) (j : Nat) :
    posVisits tys o.fieldAt j = (tys.mapIdx fun i t =>
      visitStep (some t) (o.part (o.fieldAt i) fun _ h => Obj.fieldAt_size h))[j]?.map
        (Option.map fun p => [(p.1, p.2.1)]) := by
  simp only [posVisits, List.getElem?_mapIdx]
  cases tys[j]? with
  | none => rfl
  | some q =>
    simp only [Option.map_some, visitStep_turn]
    cases o.fieldAt j <;> rfl

theorem noTurn_steps (o : Obj) (j : Nat) :
    (noTurn j : Option (Option (List (Ty × Obj)))) =
      ([none] : List (Option (Ty × o.Part)))[j]?.map (Option.map fun p => [(p.1, p.2.1)]) := by
  cases j <;> rfl

/-- The turns of the loop of `try_visit` on a derived or built-in value are its iterations. -/
theorem visitTurn_steps (E : Env) (g : TypeGraph) (o : Obj) (node : TypeNode) (h1 : ∀ k, node ≠ .scalar k)
    (h2 : node ≠ .opaque) : ∃ T : List (Option (List (Ty × o.Part))), flatTurns T = visitSteps g o node ∧
      ∀ j, visitTurn g node (o.view E) j = T[j]?.map (Option.map (List.map fun p => (p.1, p.2.1))) := by
  have single : (∀ j, visitTurn g node (o.view E) j =
      (visitSteps g o node)[j]?.map (Option.map fun p => [(p.1, p.2.1)])) →
      ∃ T : List (Option (List (Ty × o.Part))), flatTurns T = visitSteps g o node ∧
      ∀ j, visitTurn g node (o.view E) j = T[j]?.map (Option.map (List.map fun p => (p.1, p.2.1))) := by
    intro h
    refine ⟨_, flatTurns_singles _, fun j => ?_⟩
    rw [h j, List.getElem?_map, Option.map_map]
    congr 1
    funext x
    cases x <;> rfl
  have items : ∀ (t : Ty) (xs : List Obj) (hx : ∀ x ∈ xs, sizeOf x < sizeOf o) (j : Nat),
      itemVisits t (xs[·]?) j = (xs.attach.map fun x =>
        (some (t, ⟨x.1, hx _ x.2⟩) : Option (Ty × o.Part)))[j]?.map (Option.map fun p => [(p.1, p.2.1)]) := by
    intro t xs hx j
    simp only [itemVisits, List.getElem?_map, List.getElem?_attach]
    rcases Nat.lt_or_ge j xs.length with hj | hj
    · simp [hj]
    · simp [hj]
  cases node with
  | scalar k => exact absurd rfl (h1 k)
  | «opaque» => exact absurd rfl h2
  | struct names fields =>
    refine single fun j => ?_
    cases o <;> simp only [Obj.view, visitTurn, visitSteps, Obj.kind, reduceCtorEq, if_false, if_true] <;>
      first | exact noTurn_steps _ j | exact namedVisits_steps _ _ j
  | tupleStruct fields =>
    refine single fun j => ?_
    cases o <;> simp only [Obj.view, visitTurn, visitSteps, Obj.kind, reduceCtorEq, if_false, if_true] <;>
      first | exact noTurn_steps _ j | exact posVisits_steps _ _ j
  | tuple fields =>
    refine single fun j => ?_
    cases o <;> simp only [Obj.view, visitTurn, visitSteps, Obj.kind, reduceCtorEq, if_false, if_true] <;>
      first | exact noTurn_steps _ j | exact posVisits_steps _ _ j
  | «enum» vs =>
    refine single fun j => ?_
    cases o <;> simp only [Obj.view, visitTurn, visitSteps, Obj.variantName, Option.bind_none, Option.bind_some] <;>
      first
        | exact noTurn_steps _ j
        | (generalize findVariant vs _ = q
           rcases q with _ | ⟨_ | _ | _⟩
           · exact noTurn_steps _ j
           · exact namedVisits_steps _ _ j
           · exact posVisits_steps _ _ j
           · rfl)
  | list t =>
    refine single fun j => ?_
    cases o <;> simp only [Obj.view, visitTurn, visitSteps, Obj.kind, reduceCtorEq, false_and, true_and, if_false] <;>
      first
        | exact noTurn_steps _ j
        | (split
           · exact Eq.trans rfl (items t _ (fun _ h => Obj.posIter_size h) j)
           · exact noTurn_steps _ j)
  | array t n =>
    refine single fun j => ?_
    cases o <;> simp only [Obj.view, visitTurn, visitSteps, Obj.kind, reduceCtorEq, false_and, true_and, if_false] <;>
      first
        | exact noTurn_steps _ j
        | (split
           · exact Eq.trans rfl (items t _ (fun _ h => Obj.posIter_size h) j)
           · exact noTurn_steps _ j)
  | map k v =>
    cases o <;> try
      (refine single fun j => ?_
       simp only [Obj.view, visitTurn, visitSteps, Obj.kind, reduceCtorEq, false_and, if_false]
       exact noTurn_steps _ j)
    rename_i kt vt kvs
    simp only [Obj.view, visitTurn, visitSteps, Obj.kind, true_and]
    split
    · refine ⟨(Obj.map kt vt kvs).mapIter.attach.map fun p =>
        some [(k, ⟨p.1.1, (Obj.mapIter_size p.2).1⟩), (v, ⟨p.1.2, (Obj.mapIter_size p.2).2⟩)], ?_, fun j => ?_⟩
      · rw [flatTurns, List.flatMap_map]
        rfl
      · simp only [entryVisits, List.getElem?_map, List.getElem?_attach, Obj.mapIter]
        rcases Nat.lt_or_ge j kvs.length with hj | hj
        · simp [hj]
        · simp [hj]
    · refine ⟨[none], rfl, fun j => ?_⟩
      cases j <;> rfl

theorem Obj.impl_visit_steps (E : Env) (g : TypeGraph) (v : Visitor σ ε) (o : Obj) (id : Ty) :
    ∃ n, ∀ s, (Obj.impl E).visit g (fun l => v l.toLeaf) n id o s = some (tryVisit g v id o s) := by
  generalize hk : sizeOf o = k
  induction k using Nat.strongRecOn generalizing o id with
  | _ k ih =>
    subst hk
    cases hn : g.node id with
    | none => exact ⟨1, fun s => by rw [tryVisit]; simp only [Impl.visit, hn]⟩
    | some node =>
      by_cases h1 : ∃ k, node = .scalar k
      · obtain ⟨k, rfl⟩ := h1
        refine ⟨1, fun s => ?_⟩
        rw [tryVisit]
        simp only [Impl.visit, hn, Obj.impl]
        cases o <;> rfl
      · by_cases h2 : node = .opaque
        · subst h2
          exact ⟨1, fun s => by rw [tryVisit]; simp only [Impl.visit, hn]; rfl⟩
        · have h1' : ∀ k, node ≠ .scalar k := fun k hk => h1 ⟨k, hk⟩
          obtain ⟨T, hT, ht⟩ := visitTurn_steps E g o node h1' h2
          obtain ⟨n, hb⟩ : ∃ n, ∀ l, some l ∈ T → ∀ p ∈ l, ∀ s,
              (Obj.impl E).visit g (fun l => v l.toLeaf) n p.1 p.2.1 s = some (tryVisit g v p.1 p.2.1 s) := by
            clear hT ht
            induction T with
            | nil => exact ⟨0, fun l hl => by simp at hl⟩
            | cons x T ihT =>
              obtain ⟨n, hb⟩ := ihT
              obtain ⟨m, hm⟩ : ∃ m, ∀ l, some l = x → ∀ p ∈ l, ∀ s,
                  (Obj.impl E).visit g (fun l => v l.toLeaf) m p.1 p.2.1 s =
                    some (tryVisit g v p.1 p.2.1 s) := by
                cases x with
                | none => exact ⟨0, fun l hl => by cases hl⟩
                | some l =>
                  suffices hl : ∃ m, ∀ p ∈ l, ∀ s,
                      (Obj.impl E).visit g (fun l => v l.toLeaf) m p.1 p.2.1 s =
                        some (tryVisit g v p.1 p.2.1 s) by
                    obtain ⟨m, hm⟩ := hl
                    exact ⟨m, fun l' hl' => by cases hl'; exact hm⟩
                  clear hb
                  induction l with
                  | nil => exact ⟨0, fun p hp => by simp at hp⟩
                  | cons p l ihl =>
                    obtain ⟨a, ha⟩ := ihl
                    obtain ⟨b, hb⟩ := ih _ p.2.2 p.2.1 p.1 rfl
                    refine ⟨max a b, fun q hq s => ?_⟩
                    rcases List.mem_cons.mp hq with rfl | hq
                    · exact (Obj.impl E).visit_mono g _ b _ (Nat.le_max_right _ _) _ _ s _ (hb s)
                    · exact (Obj.impl E).visit_mono g _ a _ (Nat.le_max_left _ _) _ _ s _ (ha q hq s)
              refine ⟨max n m, fun l hl p hp s => ?_⟩
              rcases List.mem_cons.mp hl with hl | hl
              · exact (Obj.impl E).visit_mono g _ m _ (Nat.le_max_right _ _) _ _ s _ (hm l hl p hp s)
              · exact (Obj.impl E).visit_mono g _ n _ (Nat.le_max_left _ _) _ _ s _ (hb l hl p hp s)
          refine ⟨n + T.length + 2, fun s => ?_⟩
          rw [(Obj.impl E).visit_parts g _ _ o s hn h1' h2, tryVisit_parts g v hn h1' h2, ← hT]
          exact visitTurns_loop g v o _ T 0 (fun j => by rw [Nat.zero_add]; exact ht j)
            (fun l hl p hp s => (Obj.impl E).visit_mono g _ n _ (by omega) _ _ s _ (hb l hl p hp s)) _ (by omega) s

end

end Mirror
