import Verif.Lemmas.ImplVisit

/-!
# Lemmas: visits that do not get to the end
-/

namespace Mirror

section
variable {A σ ε : Type}

/-- The first turns are the groups `gs`. -/
def TurnsBegin (turn : Nat → Option (Option (List (Ty × A)))) (i : Nat) (gs : List (List (Ty × A))) : Prop :=
  ∀ (j : Nat) q, gs[j]? = some q → turn (i + j) = some (some q)

theorem TurnsBegin.tail {turn : Nat → Option (Option (List (Ty × A)))} {i : Nat} {q : List (Ty × A)}
    {gs : List (List (Ty × A))} (h : TurnsBegin turn i (q :: gs)) : TurnsBegin turn (i + 1) gs := by
  intro j w hj
  have := h (j + 1) w (by simpa using hj)
  rw [show i + 1 + j = i + (j + 1) by omega]; exact this

theorem TurnsBegin.cons {turn : Nat → Option (Option (List (Ty × A)))} {i : Nat} {q : List (Ty × A)}
    {gs : List (List (Ty × A))} (h0 : turn i = some (some q)) (h : TurnsBegin turn (i + 1) gs) :
    TurnsBegin turn i (q :: gs) := by
  intro j w hj
  cases j with
  | zero => simp at hj; subst hj; exact h0
  | succ j =>
    rw [show i + (j + 1) = i + 1 + j by omega]
    exact h j w (by simpa using hj)

/-- A visit that ends within the first turns. -/
theorem visitTurns_within {rec : Ty → A → σ → Option (Visited σ ε)}
    {turn : Nat → Option (Option (List (Ty × A)))} (gs : List (List (Ty × A))) (i : Nat)
    (h : TurnsBegin turn i gs) (f : Nat) (hf : gs.length < f) (s : σ) (w : Visited σ ε)
    (hw : visitSeq rec gs.flatten s = some w) (ho : ∀ s', w ≠ .ok s') :
    visitTurns rec turn f i s = some w := by
  induction gs generalizing i f s with
  | nil => cases hw; exact absurd rfl (ho s)
  | cons q gs ih =>
    obtain ⟨f, rfl⟩ : ∃ g, f = g + 1 := ⟨f - 1, by simp at hf; omega⟩
    have h0 := h 0 q rfl
    simp only [Nat.add_zero] at h0
    rw [List.flatten_cons, visitSeq_append] at hw
    simp only [visitTurns, h0]
    cases hq : visitSeq rec q s with
    | none => rw [hq] at hw; cases hw
    | some x =>
      rw [hq] at hw
      cases x with
      | ok s' => exact ih (i + 1) h.tail f (by simp at hf; omega) s' hw
      | err e s' => exact hw
      | panic s' => exact hw

/-- A visit that panics after the first turns. -/
theorem visitTurns_break {rec : Ty → A → σ → Option (Visited σ ε)}
    {turn : Nat → Option (Option (List (Ty × A)))} (gs : List (List (Ty × A))) (i : Nat)
    (h : TurnsBegin turn i gs) (hb : turn (i + gs.length) = some none) (f : Nat) (hf : gs.length < f) (s s' : σ)
    (hw : visitSeq rec gs.flatten s = some (.ok s')) : visitTurns rec turn f i s = some (.panic s') := by
  induction gs generalizing i f s with
  | nil =>
    cases hw
    obtain ⟨f, rfl⟩ : ∃ g, f = g + 1 := ⟨f - 1, by simp at hf; omega⟩
    simp only [List.length_nil, Nat.add_zero] at hb
    simp only [visitTurns, hb]
  | cons q gs ih =>
    obtain ⟨f, rfl⟩ : ∃ g, f = g + 1 := ⟨f - 1, by simp at hf; omega⟩
    have h0 := h 0 q rfl
    simp only [Nat.add_zero] at h0
    rw [List.flatten_cons, visitSeq_append] at hw
    simp only [visitTurns, h0]
    cases hq : visitSeq rec q s with
    | none => rw [hq] at hw; cases hw
    | some x =>
      rw [hq] at hw
      cases x with
      | ok z =>
        refine ih (i + 1) h.tail ?_ f (by simp at hf; omega) z hw
        rw [List.length_cons] at hb
        rw [show i + 1 + gs.length = i + (gs.length + 1) by omega]; exact hb
      | err e z => cases hw
      | panic z => cases hw

theorem visitTurns_err {rec : Ty → A → σ → Option (Visited σ ε)}
    {turn : Nat → Option (Option (List (Ty × A)))} (f i : Nat) (s s' : σ) (e : ε)
    (h : visitTurns rec turn f i s = some (.err e s')) :
    ∃ gs, TurnsBegin turn i gs ∧ visitSeq rec gs.flatten s = some (.err e s') := by
  induction f generalizing i s with
  | zero => cases h
  | succ f ih =>
    simp only [visitTurns] at h
    split at h
    · cases h
    · cases h
    · next l ht =>
      cases hq : visitSeq rec l s with
      | none => rw [hq] at h; cases h
      | some w =>
        rw [hq] at h
        cases w with
        | panic z => cases h
        | err e' z =>
          cases h
          refine ⟨[l], .cons ht fun j q hj => by simp at hj, ?_⟩
          simpa using hq
        | ok z =>
          obtain ⟨gs, hgs, hv⟩ := ih _ _ h
          refine ⟨l :: gs, .cons ht hgs, ?_⟩
          rw [List.flatten_cons, visitSeq_append, hq]
          exact hv

theorem visitTurns_panic {rec : Ty → A → σ → Option (Visited σ ε)}
    {turn : Nat → Option (Option (List (Ty × A)))} (f i : Nat) (s s' : σ)
    (h : visitTurns rec turn f i s = some (.panic s')) :
    ∃ gs, TurnsBegin turn i gs ∧ (visitSeq rec gs.flatten s = some (.panic s') ∨
      visitSeq rec gs.flatten s = some (.ok s') ∧ turn (i + gs.length) = some none) := by
  induction f generalizing i s with
  | zero => cases h
  | succ f ih =>
    simp only [visitTurns] at h
    split at h
    · cases h
    · next ht =>
      cases h
      exact ⟨[], (fun j q hj => by simp at hj), Or.inr ⟨rfl, by simpa using ht⟩⟩
    · next l ht =>
      cases hq : visitSeq rec l s with
      | none => rw [hq] at h; cases h
      | some w =>
        rw [hq] at h
        cases w with
        | err e z => cases h
        | panic z =>
          cases h
          refine ⟨[l], .cons ht fun j q hj => by simp at hj, Or.inl ?_⟩
          simpa using hq
        | ok z =>
          obtain ⟨gs, hgs, hv⟩ := ih _ _ h
          refine ⟨l :: gs, .cons ht hgs, ?_⟩
          rw [List.flatten_cons, visitSeq_append, hq]
          refine hv.imp id fun hv => ⟨hv.1, ?_⟩
          rw [List.length_cons, show i + (gs.length + 1) = i + 1 + gs.length by omega]
          exact hv.2

/-! ## Parts -/

/-- Groups that are all of one shape. -/
theorem groups_of {α : Type} {f : α → List (Ty × A)} {gs : List (List (Ty × A))}
    (h : ∀ (j : Nat) q, gs[j]? = some q → ∃ x, q = f x) : ∃ xs : List α, gs = xs.map f := by
  induction gs with
  | nil => exact ⟨[], rfl⟩
  | cons q gs ih =>
    obtain ⟨x, rfl⟩ := h 0 q rfl
    obtain ⟨xs, rfl⟩ := ih fun j q hj => h (j + 1) q (by simpa using hj)
    exact ⟨x :: xs, rfl⟩

theorem namedVisits_begin (tys : List (String × Option Ty)) (field : String → Option A)
    (gs : List (List (Ty × A))) : TurnsBegin (namedVisits tys field) 0 gs ↔
      ∃ ps : List (Ty × A), gs = ps.map (fun p => [p]) ∧ ∀ (i : Nat) p, ps[i]? = some p →
        ∃ n, tys[i]? = some (n, some p.1) ∧ field n = some p.2 := by
  constructor
  · intro h
    have each : ∀ (j : Nat) q, gs[j]? = some q → ∃ p : Ty × A, q = [p] ∧
        ∃ n, tys[j]? = some (n, some p.1) ∧ field n = some p.2 := by
      intro j q hj
      have := h j q hj
      rw [Nat.zero_add] at this
      simp only [namedVisits] at this
      split at this
      · cases this
      · next w hw =>
        split at this
        · next x t hx ht =>
          cases this
          obtain ⟨w1, w2⟩ := w
          dsimp only at ht hx
          subst ht
          exact ⟨_, rfl, w1, hw, hx⟩
        · cases this
    obtain ⟨ps, rfl⟩ := groups_of (f := fun p : Ty × A => [p]) fun j q hj =>
      (each j q hj).imp fun p hp => hp.1
    refine ⟨ps, rfl, fun i p hp => ?_⟩
    obtain ⟨p', he, h⟩ := each i [p] (by rw [List.getElem?_map, hp]; rfl)
    cases he
    exact h
  · rintro ⟨ps, rfl, h⟩ j q hj
    rw [List.getElem?_map] at hj
    obtain ⟨p, hp, rfl⟩ := Option.map_eq_some_iff.mp hj
    obtain ⟨n, h1, h2⟩ := h j p hp
    rw [Nat.zero_add]
    simp only [namedVisits, h1, h2]

theorem posVisits_begin (tys : List Ty) (fieldAt : Nat → Option A)
    (gs : List (List (Ty × A))) : TurnsBegin (posVisits tys fieldAt) 0 gs ↔
      ∃ ps : List (Ty × A), gs = ps.map (fun p => [p]) ∧ ∀ (i : Nat) p, ps[i]? = some p →
        tys[i]? = some p.1 ∧ fieldAt i = some p.2 := by
  constructor
  · intro h
    have each : ∀ (j : Nat) q, gs[j]? = some q → ∃ p : Ty × A, q = [p] ∧
        tys[j]? = some p.1 ∧ fieldAt j = some p.2 := by
      intro j q hj
      have := h j q hj
      rw [Nat.zero_add] at this
      simp only [posVisits] at this
      split at this
      · cases this
      · next t ht =>
        split at this
        · next x hx => cases this; exact ⟨_, rfl, ht, hx⟩
        · cases this
    obtain ⟨ps, rfl⟩ := groups_of (f := fun p : Ty × A => [p]) fun j q hj =>
      (each j q hj).imp fun p hp => hp.1
    refine ⟨ps, rfl, fun i p hp => ?_⟩
    obtain ⟨p', he, h⟩ := each i [p] (by rw [List.getElem?_map, hp]; rfl)
    cases he
    exact h
  · rintro ⟨ps, rfl, h⟩ j q hj
    rw [List.getElem?_map] at hj
    obtain ⟨p, hp, rfl⟩ := Option.map_eq_some_iff.mp hj
    obtain ⟨h1, h2⟩ := h j p hp
    rw [Nat.zero_add]
    simp only [posVisits, h1, h2]

theorem itemVisits_begin (t : Ty) (get : Nat → Option A) (gs : List (List (Ty × A))) :
    TurnsBegin (itemVisits t get) 0 gs ↔ ∃ xs : List A, gs = xs.map (fun x => [(t, x)]) ∧
      ∀ (i : Nat) x, xs[i]? = some x → get i = some x := by
  constructor
  · intro h
    have each : ∀ (j : Nat) q, gs[j]? = some q → ∃ x, q = [(t, x)] ∧ get j = some x := by
      intro j q hj
      have := h j q hj
      rw [Nat.zero_add] at this
      obtain ⟨x, hx, he⟩ := Option.map_eq_some_iff.mp this
      cases he
      exact ⟨x, rfl, hx⟩
    obtain ⟨xs, rfl⟩ := groups_of (f := fun x : A => [(t, x)]) fun j q hj =>
      (each j q hj).imp fun p hp => hp.1
    refine ⟨xs, rfl, fun i x hx => ?_⟩
    obtain ⟨y, he, hy⟩ := each i [(t, x)] (by rw [List.getElem?_map, hx]; rfl)
    cases he
    exact hy
  · rintro ⟨xs, rfl, h⟩ j q hj
    rw [List.getElem?_map] at hj
    obtain ⟨p, hp, rfl⟩ := Option.map_eq_some_iff.mp hj
    rw [Nat.zero_add, itemVisits, h j p hp]; rfl

theorem entryVisits_begin (k v : Ty) (entries : Nat → Option (A × A)) (gs : List (List (Ty × A))) :
    TurnsBegin (entryVisits k v entries) 0 gs ↔ ∃ es : List (A × A),
      gs = es.map (fun p => [(k, p.1), (v, p.2)]) ∧
      ∀ (i : Nat) p, es[i]? = some p → entries i = some p := by
  constructor
  · intro h
    have each : ∀ (j : Nat) q, gs[j]? = some q → ∃ p : A × A, q = [(k, p.1), (v, p.2)] ∧
        entries j = some p := by
      intro j q hj
      have := h j q hj
      rw [Nat.zero_add] at this
      obtain ⟨x, hx, he⟩ := Option.map_eq_some_iff.mp this
      cases he
      exact ⟨x, rfl, hx⟩
    obtain ⟨es, rfl⟩ := groups_of (f := fun p : A × A => [(k, p.1), (v, p.2)]) fun j q hj =>
      (each j q hj).imp fun p hp => hp.1
    refine ⟨es, rfl, fun i x hx => ?_⟩
    obtain ⟨y, he, hy⟩ := each i [(k, x.1), (v, x.2)] (by rw [List.getElem?_map, hx]; rfl)
    obtain ⟨x1, x2⟩ := x
    obtain ⟨y1, y2⟩ := y
    cases he
    exact hy
  · rintro ⟨xs, rfl, h⟩ j q hj
    rw [List.getElem?_map] at hj
    obtain ⟨p, hp, rfl⟩ := Option.map_eq_some_iff.mp hj
    rw [Nat.zero_add, entryVisits, h j p hp]; rfl

theorem noTurn_begin {gs : List (List (Ty × A))} (h : TurnsBegin noTurn 0 gs) : gs = [] := by
  cases gs with
  | nil => rfl
  | cons q gs => have := h 0 q rfl; simp [noTurn] at this

theorem begin_nil {turn : Nat → Option (Option (List (Ty × A)))} {i : Nat} : TurnsBegin turn i [] :=
  fun j q hj => by simp at hj

theorem singles_flatten (ps : List (Ty × A)) : (ps.map fun p => [p]).flatten = ps := by
  rw [flatten_singles (fun p => p), List.map_id']

theorem FirstParts.turns {g : TypeGraph} {node : TypeNode} {w : RefView A} {ps : List (Ty × A)}
    (h : FirstParts g node w ps) : ∃ gs, TurnsBegin (visitTurn g node w) 0 gs ∧ gs.flatten = ps := by
  cases h with
  | none => exact ⟨[], begin_nil, rfl⟩
  | struct h => exact ⟨_, (namedVisits_begin _ _ _).mpr ⟨_, rfl, h⟩, singles_flatten _⟩
  | tupleStruct h => exact ⟨_, (posVisits_begin _ _ _).mpr ⟨_, rfl, h⟩, singles_flatten _⟩
  | tuple h => exact ⟨_, (posVisits_begin _ _ _).mpr ⟨_, rfl, h⟩, singles_flatten _⟩
  | enumS hv h =>
    refine ⟨_, ?_, singles_flatten _⟩
    simp only [visitTurn, hv]
    exact (namedVisits_begin _ _ _).mpr ⟨_, rfl, h⟩
  | enumT hv h =>
    refine ⟨_, ?_, singles_flatten _⟩
    simp only [visitTurn, hv]
    exact (posVisits_begin _ _ _).mpr ⟨_, rfl, h⟩
  | list hn h =>
    refine ⟨_, ?_, flatten_singles _ _⟩
    simp only [visitTurn, hn, if_true]
    exact (itemVisits_begin _ _ _).mpr ⟨_, rfl, h⟩
  | array hn h =>
    refine ⟨_, ?_, flatten_singles _ _⟩
    simp only [visitTurn, hn, if_true]
    exact (itemVisits_begin _ _ _).mpr ⟨_, rfl, h⟩
  | map hk hv h =>
    refine ⟨_, ?_, (List.flatMap_def ..).symm⟩
    simp only [visitTurn, hk, hv, and_self, if_true]
    exact (entryVisits_begin _ _ _ _).mpr ⟨_, rfl, h⟩

theorem namedVisits_missing {tys : List (String × Option Ty)} {field : String → Option A} {i : Nat}
    (h : namedVisits tys field i = some none) : ∃ q, tys[i]? = some q ∧ (q.2 = none ∨ field q.1 = none) := by
  simp only [namedVisits] at h
  split at h
  · cases h
  · next q hq =>
    refine ⟨q, hq, ?_⟩
    split at h
    · cases h
    · next hn =>
      cases h2 : q.2 with
      | none => exact Or.inl rfl
      | some t =>
        cases h3 : field q.1 with
        | none => exact Or.inr rfl
        | some x => exact absurd h2 (hn x t h3)

theorem posVisits_missing {tys : List Ty} {fieldAt : Nat → Option A} {i : Nat}
    (h : posVisits tys fieldAt i = some none) : i < tys.length ∧ fieldAt i = none := by
  simp only [posVisits] at h
  split at h
  · cases h
  · next t ht =>
    refine ⟨(List.getElem?_eq_some_iff.mp ht).1, ?_⟩
    split at h
    · cases h
    · next hn => exact hn

/-- The first turns are first parts, and a turn that panics asks for something missing. -/
theorem firstParts_of_turns {g : TypeGraph} {node : TypeNode} {w : RefView A} {gs : List (List (Ty × A))}
    (h : TurnsBegin (visitTurn g node w) 0 gs) (h1 : ∀ k, node ≠ .scalar k) (h2 : node ≠ .opaque) :
    FirstParts g node w gs.flatten ∧
      (visitTurn g node w gs.length = some none → Missing g node w gs.flatten.length) := by
  have none' : TurnsBegin noTurn 0 gs → ¬ NodeFits g node w → FirstParts g node w gs.flatten ∧
      ((noTurn gs.length : Option (Option (List (Ty × A)))) = some none →
        Missing g node w gs.flatten.length) := by
    intro h hf
    cases noTurn_begin h
    exact ⟨.none, fun _ => .unfit hf⟩
  have single : ∀ ps : List (Ty × A), (ps.map fun p => [p]).length = (ps.map fun p => [p]).flatten.length := by
    intro ps
    rw [singles_flatten, List.length_map]
  cases node <;> cases w <;> simp only [visitTurn] at h ⊢ <;>
    try exact absurd rfl (h1 _)
  all_goals try exact absurd rfl h2
  all_goals try exact none' h (by rintro ⟨⟩)
  case struct.struct =>
    obtain ⟨ps, rfl, hp⟩ := (namedVisits_begin _ _ _).mp h
    refine ⟨by rw [singles_flatten]; exact .struct hp, fun hm => ?_⟩
    obtain ⟨q, hq, hm⟩ := namedVisits_missing hm
    exact .struct (by rw [← single]; exact hq) hm
  case tupleStruct.tupleStruct =>
    obtain ⟨ps, rfl, hp⟩ := (posVisits_begin _ _ _).mp h
    refine ⟨by rw [singles_flatten]; exact .tupleStruct hp, fun hm => ?_⟩
    obtain ⟨hq, hm⟩ := posVisits_missing hm
    rw [single] at hq hm
    exact .tupleStruct hq hm
  case tuple.tuple =>
    obtain ⟨ps, rfl, hp⟩ := (posVisits_begin _ _ _).mp h
    refine ⟨by rw [singles_flatten]; exact .tuple hp, fun hm => ?_⟩
    obtain ⟨hq, hm⟩ := posVisits_missing hm
    rw [single] at hq hm
    exact .tuple hq hm
  case enum.enum vs v k len field fieldAt nameAt =>
    rcases hv : findVariant vs v with _ | ⟨_ | _ | _⟩ <;> simp only [hv] at h ⊢
    · refine none' h fun hf => ?_
      cases hf with
      | enum hf => rw [hv] at hf; cases hf
    · obtain ⟨ps, rfl, hp⟩ := (namedVisits_begin _ _ _).mp h
      refine ⟨by rw [singles_flatten]; exact .enumS hv hp, fun hm => ?_⟩
      obtain ⟨q, hq, hm⟩ := namedVisits_missing hm
      exact .enumS hv (by rw [← single]; exact hq) hm
    · obtain ⟨ps, rfl, hp⟩ := (posVisits_begin _ _ _).mp h
      refine ⟨by rw [singles_flatten]; exact .enumT hv hp, fun hm => ?_⟩
      obtain ⟨hq, hm⟩ := posVisits_missing hm
      rw [single] at hq hm
      exact .enumT hv hq hm
    · cases gs with
      | nil => exact ⟨.none, fun hm => by cases hm⟩
      | cons q gs => have := h 0 q rfl; cases this
  case list.list t _ _ =>
    by_cases hn : (g.node t).isSome = true
    · rw [if_pos hn] at h ⊢
      obtain ⟨xs, rfl, hp⟩ := (itemVisits_begin _ _ _).mp h
      refine ⟨by rw [flatten_singles]; exact .list hn hp, fun hm => ?_⟩
      simp only [itemVisits] at hm
      obtain ⟨x, -, hm⟩ := Option.map_eq_some_iff.mp hm
      cases hm
    · rw [if_neg hn] at h ⊢
      refine none' h fun hf => ?_
      cases hf with
      | list hf => exact hn hf
  case array.array t _ _ _ =>
    by_cases hn : (g.node t).isSome = true
    · rw [if_pos hn] at h ⊢
      obtain ⟨xs, rfl, hp⟩ := (itemVisits_begin _ _ _).mp h
      refine ⟨by rw [flatten_singles]; exact .array hn hp, fun hm => ?_⟩
      simp only [itemVisits] at hm
      obtain ⟨x, -, hm⟩ := Option.map_eq_some_iff.mp hm
      cases hm
    · rw [if_neg hn] at h ⊢
      refine none' h fun hf => ?_
      cases hf with
      | array hf => exact hn hf
  case map.map k v _ _ _ =>
    by_cases hn : (g.node k).isSome = true ∧ (g.node v).isSome = true
    · rw [if_pos hn] at h ⊢
      obtain ⟨xs, rfl, hp⟩ := (entryVisits_begin _ _ _ _).mp h
      refine ⟨by rw [← List.flatMap_def]; exact .map hn.1 hn.2 hp, fun hm => ?_⟩
      simp only [entryVisits] at hm
      obtain ⟨x, -, hm⟩ := Option.map_eq_some_iff.mp hm
      cases hm
    · rw [if_neg hn] at h ⊢
      refine none' h fun hf => ?_
      cases hf with
      | map hf hf' => exact hn ⟨hf, hf'⟩

/-- What is missing makes a turn panic. -/
theorem Missing.turns {g : TypeGraph} {node : TypeNode} {w : RefView A} {ps : List (Ty × A)}
    (hm : Missing g node w ps.length) (h : FirstParts g node w ps) (h1 : ∀ k, node ≠ .scalar k)
    (h2 : node ≠ .opaque) : ∃ gs, TurnsBegin (visitTurn g node w) 0 gs ∧ gs.flatten = ps ∧
      visitTurn g node w gs.length = some none := by
  have named : ∀ (tys : List (String × Option Ty)) (field : String → Option A) (i : Nat) q,
      tys[i]? = some q → q.2 = none ∨ field q.1 = none → namedVisits tys field i = some none := by
    intro tys field i q hq ho
    simp only [namedVisits, hq]
    rcases ho with ho | ho <;> rw [ho]
    cases field q.1 <;> rfl
  have pos : ∀ (tys : List Ty) (fieldAt : Nat → Option A) (i : Nat),
      i < tys.length → fieldAt i = none → posVisits tys fieldAt i = some none := by
    intro tys fieldAt i hi ho
    simp only [posVisits, List.getElem?_eq_getElem hi, ho]
  generalize hi : ps.length = i at hm
  cases hm with
  | unfit hf =>
    cases List.length_eq_zero_iff.mp hi
    refine ⟨[], begin_nil, rfl, ?_⟩
    cases node <;> cases w <;> try rfl
    all_goals try exact absurd rfl (h1 _)
    all_goals try exact absurd rfl h2
    case struct.struct => exact absurd .struct hf
    case tupleStruct.tupleStruct => exact absurd .tupleStruct hf
    case tuple.tuple => exact absurd .tuple hf
    case enum.enum vs v k len field fieldAt nameAt =>
      have : findVariant vs v = none := by
        cases hq : findVariant vs v with
        | none => rfl
        | some x => exact absurd (.enum (by rw [hq]; rfl)) hf
      simp only [visitTurn, this]
      rfl
    case list.list =>
      simp only [visitTurn]
      rw [if_neg fun hn => hf (.list hn)]
      rfl
    case array.array =>
      simp only [visitTurn]
      rw [if_neg fun hn => hf (.array hn)]
      rfl
    case map.map =>
      simp only [visitTurn]
      rw [if_neg fun hn => hf (.map hn.1 hn.2)]
      rfl
  | struct hq ho =>
    refine ⟨ps.map fun p => [p], ?_, singles_flatten _, ?_⟩
    · refine (namedVisits_begin _ _ _).mpr ⟨_, rfl, ?_⟩
      cases h with
      | none => intro i p hp; simp at hp
      | struct h => exact h
    · rw [List.length_map, hi]
      exact named _ _ _ _ hq ho
  | tupleStruct hq ho =>
    refine ⟨ps.map fun p => [p], ?_, singles_flatten _, ?_⟩
    · refine (posVisits_begin _ _ _).mpr ⟨_, rfl, ?_⟩
      cases h with
      | none => intro i p hp; simp at hp
      | tupleStruct h => exact h
    · rw [List.length_map, hi]
      exact pos _ _ _ hq ho
  | tuple hq ho =>
    refine ⟨ps.map fun p => [p], ?_, singles_flatten _, ?_⟩
    · refine (posVisits_begin _ _ _).mpr ⟨_, rfl, ?_⟩
      cases h with
      | none => intro i p hp; simp at hp
      | tuple h => exact h
    · rw [List.length_map, hi]
      exact pos _ _ _ hq ho
  | enumS hv hq ho =>
    refine ⟨ps.map fun p => [p], ?_, singles_flatten _, ?_⟩
    · simp only [visitTurn, hv]
      refine (namedVisits_begin _ _ _).mpr ⟨_, rfl, ?_⟩
      cases h with
      | none => intro i p hp; simp at hp
      | enumS hv' h => rw [hv] at hv'; cases hv'; exact h
      | enumT hv' h => rw [hv] at hv'; cases hv'
    · rw [List.length_map, hi]
      simp only [visitTurn, hv]
      exact named _ _ _ _ hq ho
  | enumT hv hq ho =>
    refine ⟨ps.map fun p => [p], ?_, singles_flatten _, ?_⟩
    · simp only [visitTurn, hv]
      refine (posVisits_begin _ _ _).mpr ⟨_, rfl, ?_⟩
      cases h with
      | none => intro i p hp; simp at hp
      | enumS hv' h => rw [hv] at hv'; cases hv'
      | enumT hv' h => rw [hv] at hv'; cases hv'; exact h
    · rw [List.length_map, hi]
      simp only [visitTurn, hv]
      exact pos _ _ _ hq ho

end


/-! ## Errors and panics -/

section
variable {A σ ε : Type}

theorem FirstParts.leaf {g : TypeGraph} {node : TypeNode} {w : RefView A} {ps : List (Ty × A)}
    (h : FirstParts g node w ps) (hl : (∃ k, node = .scalar k) ∨ node = .opaque) : ps = [] := by
  rcases hl with ⟨k, rfl⟩ | rfl <;> cases h <;> rfl

theorem visitSeq_singleton (rec : Ty → A → σ → Option (Visited σ ε)) (t : Ty) (a : A) (s : σ) :
    visitSeq rec [(t, a)] s = rec t a s := by
  simp only [visitSeq]
  cases rec t a s with
  | none => rfl
  | some w => cases w <;> rfl

theorem visitSeq_cons (rec : Ty → A → σ → Option (Visited σ ε)) (t : Ty) (a : A) (r : List (Ty × A)) (s : σ) :
    visitSeq rec ((t, a) :: r) s =
      match rec t a s with
      | some (.ok s') => visitSeq rec r s'
      | x => x := by
  simp only [visitSeq]
  cases rec t a s with
  | none => rfl
  | some w => cases w <;> rfl

/-- The first value ends the visit. -/
theorem visitSeq_first {rec : Ty → A → σ → Option (Visited σ ε)} {t : Ty} {a : A} {s : σ} {w : Visited σ ε}
    (h : rec t a s = some w) (ho : ∀ s', w ≠ .ok s') (r : List (Ty × A)) :
    visitSeq rec ((t, a) :: r) s = some w := by
  rw [visitSeq_cons, h]
  cases w with
  | ok s' => exact absurd rfl (ho s')
  | err e s' => rfl
  | panic s' => rfl

theorem Impl.Begins.visit {I : Impl A} {g : TypeGraph} (v : VisitorA A σ ε) {ps : List (Ty × A)}
    {ls : List (LeafA A)} (h : I.Begins g ps ls) :
    ∃ n, ∀ s e s', callAll v ls s = .err e s' → visitSeq (I.visit g v n) ps s = some (.err e s') := by
  induction h with
  | nil => exact ⟨0, fun s e s' h => by cases h⟩
  | @inside id a node ps ls r hn hp hb ih =>
    by_cases hl : (∃ k, node = .scalar k) ∨ node = .opaque
    · cases hp.leaf hl
      cases hb
      exact ⟨0, fun s e s' h => by cases h⟩
    · obtain ⟨n, ih⟩ := ih
      obtain ⟨gs, hgs, rfl⟩ := hp.turns
      refine ⟨n + gs.length + 2, fun s e s' hc => ?_⟩
      refine visitSeq_first ?_ (fun s' h => by cases h) r
      rw [I.visit_parts g v _ a s hn (fun k hk => hl (Or.inl ⟨k, hk⟩)) (fun hk => hl (Or.inr hk))]
      exact visitTurns_within gs 0 hgs _ (by omega) s _
        (visitSeq_mono (I.visit_mono g v n _ (by omega)) _ s _ (ih s e s' hc)) fun s' => nofun
  | @after id a ms r ls hs _ ih =>
    obtain ⟨n, ih⟩ := ih
    obtain ⟨m, hm⟩ := Impl.ShowAll.visit v hs
    refine ⟨n + m, fun s e s' hc => ?_⟩
    have h1 := visitSeq_mono (I.visit_mono g v m (n + m) (by omega)) _ s _ (hm s)
    rw [visitSeq_singleton] at h1
    rw [visitSeq_cons, h1]
    rw [callAll_append] at hc
    cases hq : callAll v ms s with
    | ok z =>
      rw [hq] at hc
      exact visitSeq_mono (I.visit_mono g v n (n + m) (by omega)) _ z _ (ih z e s' hc)
    | err e' z => rw [hq] at hc; cases hc; rfl
    | panic z => rw [hq] at hc; cases hc

theorem Impl.Breaks.visit {I : Impl A} {g : TypeGraph} (v : VisitorA A σ ε) {ps : List (Ty × A)}
    {ls : List (LeafA A)} (h : I.Breaks g ps ls) :
    ∃ n, ∀ s s', callAll v ls s = .ok s' → visitSeq (I.visit g v n) ps s = some (.panic s') := by
  induction h with
  | @node id a r hn =>
    refine ⟨1, fun s s' h => ?_⟩
    cases h
    simp only [visitSeq, Impl.visit, hn]
  | @missing id a node ps ls r hn hp hm hs =>
    by_cases hl : (∃ k, node = .scalar k) ∨ node = .opaque
    · cases hp.leaf hl
      cases hs
      refine ⟨1, fun s s' h => ?_⟩
      cases h
      generalize hw : I.view a = w at hm hp
      rcases hl with ⟨k, rfl⟩ | rfl
      · cases hm with
        | unfit hf =>
          simp only [visitSeq, Impl.visit, hn, hw]
          cases w with
          | scalar x => exact absurd .scalar hf
          | _ => rfl
      · cases hm with
        | unfit hf => exact absurd .opaque hf
    · have h1 : ∀ k, node ≠ .scalar k := fun k hk => hl (Or.inl ⟨k, hk⟩)
      have h2 : node ≠ .opaque := fun hk => hl (Or.inr hk)
      obtain ⟨gs, hgs, rfl, hb⟩ := hm.turns hp h1 h2
      obtain ⟨n, hn'⟩ := Impl.ShowAll.visit v hs
      refine ⟨n + gs.length + 2, fun s s' hc => ?_⟩
      refine visitSeq_first ?_ (fun s' h => by cases h) r
      rw [I.visit_parts g v _ a s hn h1 h2]
      refine visitTurns_break gs 0 hgs (by rw [Nat.zero_add]; exact hb) _ (by omega) s s' ?_
      rw [← hc]
      exact visitSeq_mono (I.visit_mono g v n _ (by omega)) _ s _ (hn' s)
  | @inside id a node ps ls r hn hp hb ih =>
    by_cases hl : (∃ k, node = .scalar k) ∨ node = .opaque
    · cases hp.leaf hl
      cases hb
    · obtain ⟨n, ih⟩ := ih
      obtain ⟨gs, hgs, rfl⟩ := hp.turns
      refine ⟨n + gs.length + 2, fun s s' hc => ?_⟩
      refine visitSeq_first ?_ (fun s' h => by cases h) r
      rw [I.visit_parts g v _ a s hn (fun k hk => hl (Or.inl ⟨k, hk⟩)) (fun hk => hl (Or.inr hk))]
      exact visitTurns_within gs 0 hgs _ (by omega) s _
        (visitSeq_mono (I.visit_mono g v n _ (by omega)) _ s _ (ih s s' hc)) fun s' => nofun
  | @after id a ms r ls hs _ ih =>
    obtain ⟨n, ih⟩ := ih
    obtain ⟨m, hm⟩ := Impl.ShowAll.visit v hs
    refine ⟨n + m, fun s s' hc => ?_⟩
    have h1 := visitSeq_mono (I.visit_mono g v m (n + m) (by omega)) _ s _ (hm s)
    rw [visitSeq_singleton] at h1
    rw [visitSeq_cons, h1]
    rw [callAll_append] at hc
    cases hq : callAll v ms s with
    | ok z =>
      rw [hq] at hc
      exact visitSeq_mono (I.visit_mono g v n (n + m) (by omega)) _ z _ (ih z s' hc)
    | err e' z => rw [hq] at hc; cases hc
    | panic z => rw [hq] at hc; cases hc

theorem Impl.visit_err {I : Impl A} {g : TypeGraph} (v : VisitorA A σ ε) (n : Nat) :
    ∀ ps s e s', visitSeq (I.visit g v n) ps s = some (.err e s') →
      ∃ ls, I.Begins g ps ls ∧ callAll v ls s = .err e s' := by
  induction n with
  | zero =>
    intro ps s e s' h
    cases ps with
    | nil => cases h
    | cons p ps => cases h
  | succ n ih =>
    intro ps
    induction ps with
    | nil => intro s e s' h; cases h
    | cons p ps ihp =>
      obtain ⟨id, a⟩ := p
      intro s e s' h
      rw [visitSeq_cons] at h
      cases hq : I.visit g v (n + 1) id a s with
      | none => rw [hq] at h; cases h
      | some w =>
        rw [hq] at h
        cases w with
        | panic z => cases h
        | ok z =>
          obtain ⟨ms, hms, hcm⟩ := Impl.visit_ok v (n + 1) [(id, a)] s z (by rw [visitSeq_singleton]; exact hq)
          obtain ⟨ls, hls, hc⟩ := ihp z e s' h
          refine ⟨ms ++ ls, .after hms hls, ?_⟩
          rw [callAll_append, hcm]
          exact hc
        | err e' z =>
          cases h
          cases hn : g.node id with
          | none => simp only [Impl.visit] at hq; rw [hn] at hq; cases hq
          | some node =>
            by_cases h1 : ∃ k, node = .scalar k
            · obtain ⟨k, rfl⟩ := h1
              simp only [Impl.visit] at hq
              rw [hn] at hq
              dsimp only at hq
              split at hq
              · next x hx =>
                refine ⟨[LeafA.scalar x] ++ [], .after (ms := [LeafA.scalar x]) (.scalar hn hx .nil) .nil, ?_⟩
                simp only [visitLeafA, Option.some.injEq] at hq
                simp only [List.append_nil, callAll]
                split at hq
                · cases hq
                · next hv => cases hq; rw [hv]
              · cases hq
            · by_cases h2 : node = .opaque
              · subst h2
                simp only [Impl.visit] at hq
                rw [hn] at hq
                dsimp only at hq
                refine ⟨[LeafA.opaque a id] ++ [], .after (ms := [LeafA.opaque a id]) (.opaque hn .nil) .nil, ?_⟩
                simp only [visitLeafA, Option.some.injEq] at hq
                simp only [List.append_nil, callAll]
                split at hq
                · cases hq
                · next hv => cases hq; rw [hv]
              · rw [I.visit_parts g v n a s hn (fun k hk => h1 ⟨k, hk⟩) h2] at hq
                obtain ⟨gs, hgs, hv⟩ := visitTurns_err _ _ _ _ _ hq
                obtain ⟨ms, hms, hcm⟩ := ih _ _ _ _ hv
                exact ⟨ms, .inside hn (firstParts_of_turns hgs (fun k hk => h1 ⟨k, hk⟩) h2).1 hms, hcm⟩

theorem Impl.visit_panic {I : Impl A} {g : TypeGraph} (v : VisitorA A σ ε) (n : Nat) :
    ∀ ps s s', visitSeq (I.visit g v n) ps s = some (.panic s') →
      ∃ ls, I.Breaks g ps ls ∧ callAll v ls s = .ok s' := by
  induction n with
  | zero =>
    intro ps s s' h
    cases ps with
    | nil => cases h
    | cons p ps => cases h
  | succ n ih =>
    intro ps
    induction ps with
    | nil => intro s s' h; cases h
    | cons p ps ihp =>
      obtain ⟨id, a⟩ := p
      intro s s' h
      rw [visitSeq_cons] at h
      cases hq : I.visit g v (n + 1) id a s with
      | none => rw [hq] at h; cases h
      | some w =>
        rw [hq] at h
        cases w with
        | err e z => cases h
        | ok z =>
          obtain ⟨ms, hms, hcm⟩ := Impl.visit_ok v (n + 1) [(id, a)] s z (by rw [visitSeq_singleton]; exact hq)
          obtain ⟨ls, hls, hc⟩ := ihp z s' h
          refine ⟨ms ++ ls, .after hms hls, ?_⟩
          rw [callAll_append, hcm]
          exact hc
        | panic z =>
          cases h
          cases hn : g.node id with
          | none =>
            simp only [Impl.visit] at hq
            rw [hn] at hq
            cases hq
            exact ⟨[], .node hn, rfl⟩
          | some node =>
            by_cases h1 : ∃ k, node = .scalar k
            · obtain ⟨k, rfl⟩ := h1
              simp only [Impl.visit] at hq
              rw [hn] at hq
              dsimp only at hq
              split at hq
              · next x hx =>
                simp only [visitLeafA, Option.some.injEq] at hq
                split at hq <;> cases hq
              · next hx =>
                cases hq
                refine ⟨[], .missing hn .none (.unfit fun hf => ?_) .nil, rfl⟩
                generalize I.view a = w at hf hx
                cases hf
                exact hx _ rfl
            · by_cases h2 : node = .opaque
              · subst h2
                simp only [Impl.visit] at hq
                rw [hn] at hq
                dsimp only at hq
                simp only [visitLeafA, Option.some.injEq] at hq
                split at hq <;> cases hq
              · rw [I.visit_parts g v n a s hn (fun k hk => h1 ⟨k, hk⟩) h2] at hq
                obtain ⟨gs, hgs, hv⟩ := visitTurns_panic _ _ _ _ hq
                obtain ⟨hf, hm⟩ := firstParts_of_turns hgs (fun k hk => h1 ⟨k, hk⟩) h2
                rcases hv with hv | ⟨hv, ht⟩
                · obtain ⟨ms, hms, hcm⟩ := ih _ _ _ hv
                  exact ⟨ms, .inside hn hf hms, hcm⟩
                · obtain ⟨ms, hms, hcm⟩ := Impl.visit_ok v n _ _ _ hv
                  exact ⟨ms, .missing hn hf (hm (by rw [Nat.zero_add] at ht; exact ht)) hms, hcm⟩

end

end Mirror
