import Verif.Spec.Impl
import Verif.Lemmas.Containers

/-!
# Lemmas about arbitrary `Reflect` implementations
-/

namespace Mirror

/-! ## The plan and the specification -/

/-- What a plan that walks says about the two views. -/
structure WalkOf {A : Type} (v w : RefView A) (turn : Nat → Option (Option (A × A))) : Prop where
  shape : v.SameShape w
  pair : ∀ i x y, turn i = some (some (x, y)) ↔ v.Counterpart w i x y
  over : ∀ i, turn i = none ↔ v.Over w i

theorem namedTurn_pair {A : Type} {h : Nat → Option String} {g : Nat → Option A}
    {f : String → Option A} {i : Nat} {x y : A} :
    namedTurn h g f i = some (some (x, y)) ↔ ∃ n, h i = some n ∧ g i = some x ∧ f n = some y := by
  unfold namedTurn
  split
  · next e => simp [e]
  · next n e =>
    split
    · next e' => simp [e']
    · next z e' =>
      split
      · next e'' => simp [e, e'']
      · next u e'' => simp [e, e', e'']

theorem namedTurn_none {A : Type} {h : Nat → Option String} {g : Nat → Option A}
    {f : String → Option A} {i : Nat} :
    namedTurn h g f i = none ↔ h i = none ∨ g i = none := by
  unfold namedTurn
  split
  · next e => simp [e]
  · next n e =>
    split
    · next e' => simp [e']
    · next z e' =>
      split <;> simp [e, e']

theorem posTurn_pair {A : Type} {g g' : Nat → Option A} {i : Nat} {x y : A} :
    posTurn g g' i = some (some (x, y)) ↔ g i = some x ∧ g' i = some y := by
  unfold posTurn
  split
  · next e => simp [e]
  · next n e =>
    split
    · next e' => simp [e']
    · next z e' => simp [e, e']

theorem posTurn_none {A : Type} {g g' : Nat → Option A} {i : Nat} :
    posTurn g g' i = none ↔ g i = none ∨ g' i = none := by
  unfold posTurn
  split
  · next e => simp [e]
  · next n e =>
    split
    · next e' => simp [e']
    · next z e' => simp [e, e']

theorem mapTurn_pair {A : Type} {e : Nat → Option (A × A)} {g : A → Option A} {i : Nat} {x y : A} :
    mapTurn e g i = some (some (x, y)) ↔ ∃ k, e i = some (k, x) ∧ g k = some y := by
  unfold mapTurn
  split
  · next h => simp [h]
  · next k z h =>
    split
    · next h' =>
      simp only [Option.some.injEq, reduceCtorEq, h, Prod.mk.injEq, false_iff]
      rintro ⟨k', ⟨rfl, rfl⟩, h''⟩
      rw [h'] at h''; cases h''
    · next u h' =>
      simp only [Option.some.injEq, Prod.mk.injEq, h]
      constructor
      · rintro ⟨rfl, rfl⟩; exact ⟨k, ⟨rfl, rfl⟩, h'⟩
      · rintro ⟨k', ⟨rfl, rfl⟩, h''⟩
        rw [h'] at h''; exact ⟨rfl, by cases h''; rfl⟩

theorem mapTurn_none {A : Type} {e : Nat → Option (A × A)} {g : A → Option A} {i : Nat} :
    mapTurn e g i = none ↔ e i = none := by
  unfold mapTurn
  split
  · next h => simp [h]
  · next k z h => split <;> simp [h]

/-- The plan of two views, seen from the specification. -/
inductive PlanOf {A : Type} : RefView A → RefView A → Plan A → Prop
  | scalar {s t} : PlanOf (.scalar s) (.scalar t) (.answer (some (s.eqv t)))
  | walk {v w turn} : WalkOf v w turn → PlanOf v w (.walk turn)
  | unit {v w} : v.SameShape w → (∀ i, v.Over w i) → (∀ i x y, ¬ v.Counterpart w i x y) →
      PlanOf v w (.answer (some true))
  | left {w} : PlanOf .opaque w (.answer none)
  | right {v} : PlanOf v .opaque (.answer none)
  | differ {v w} : ¬ v.SameShape w → (∀ s t, v = .scalar s → w ≠ .scalar t) → v ≠ .opaque →
      w ≠ .opaque → PlanOf v w (.answer (some false))

theorem planOf {A : Type} (v w : RefView A) : PlanOf v w (v.plan w) := by
  cases v <;> cases w <;> simp only [RefView.plan] <;>
    first
    | exact .scalar
    | exact .left
    | exact .right
    | exact .differ (by rintro ⟨⟩) (by rintro s t ⟨⟩ ⟨⟩) (by simp) (by simp)
    | skip
  case struct.struct =>
    split
    · next h =>
      subst h
      refine .walk ⟨.struct, fun i x y => ?_, fun i => ?_⟩
      · rw [namedTurn_pair]
        exact ⟨fun ⟨n, a, b, c⟩ => .struct a b c, fun h => by cases h; exact ⟨_, ‹_›, ‹_›, ‹_›⟩⟩
      · rw [namedTurn_none]
        exact ⟨fun h => h.elim .structName .struct, fun h => by cases h <;> simp [*]⟩
    · exact .differ (by rintro ⟨⟩; contradiction) (by rintro s t ⟨⟩) (by simp) (by simp)
  case tupleStruct.tupleStruct =>
    split
    · next h =>
      subst h
      refine .walk ⟨.tupleStruct, fun i x y => ?_, fun i => ?_⟩
      · rw [posTurn_pair]
        exact ⟨fun ⟨a, b⟩ => .tupleStruct a b, fun h => by cases h; exact ⟨‹_›, ‹_›⟩⟩
      · rw [posTurn_none]
        exact ⟨fun h => h.elim .tupleStruct .tupleStruct', fun h => by cases h <;> simp [*]⟩
    · exact .differ (by rintro ⟨⟩; contradiction) (by rintro s t ⟨⟩) (by simp) (by simp)
  case tuple.tuple =>
    split
    · next h =>
      subst h
      refine .walk ⟨.tuple, fun i x y => ?_, fun i => ?_⟩
      · rw [posTurn_pair]
        exact ⟨fun ⟨a, b⟩ => .tuple a b, fun h => by cases h; exact ⟨‹_›, ‹_›⟩⟩
      · rw [posTurn_none]
        exact ⟨fun h => h.elim .tuple .tuple', fun h => by cases h <;> simp [*]⟩
    · exact .differ (by rintro ⟨⟩; contradiction) (by rintro s t ⟨⟩) (by simp) (by simp)
  case array.array =>
    split
    · next h =>
      subst h
      refine .walk ⟨.array, fun i x y => ?_, fun i => ?_⟩
      · rw [posTurn_pair]
        exact ⟨fun ⟨a, b⟩ => .array a b, fun h => by cases h; exact ⟨‹_›, ‹_›⟩⟩
      · rw [posTurn_none]
        exact ⟨fun h => h.elim .array .array', fun h => by cases h <;> simp [*]⟩
    · exact .differ (by rintro ⟨⟩; contradiction) (by rintro s t ⟨⟩) (by simp) (by simp)
  case list.list =>
    split
    · next h =>
      subst h
      refine .walk ⟨.list, fun i x y => ?_, fun i => ?_⟩
      · rw [posTurn_pair]
        exact ⟨fun ⟨a, b⟩ => .list a b, fun h => by cases h; exact ⟨‹_›, ‹_›⟩⟩
      · rw [posTurn_none]
        exact ⟨fun h => h.elim .list .list', fun h => by cases h <;> simp [*]⟩
    · exact .differ (by rintro ⟨⟩; contradiction) (by rintro s t ⟨⟩) (by simp) (by simp)
  case map.map =>
    split
    · next h =>
      subst h
      refine .walk ⟨.map, fun i x y => ?_, fun i => ?_⟩
      · rw [mapTurn_pair]
        exact ⟨fun ⟨k, a, b⟩ => .map a b, fun h => by cases h; exact ⟨_, ‹_›, ‹_›⟩⟩
      · rw [mapTurn_none]
        exact ⟨fun h => .map h, fun h => by cases h; assumption⟩
    · exact .differ (by rintro ⟨⟩; contradiction) (by rintro s t ⟨⟩) (by simp) (by simp)
  case enum.enum v k len f g h v' k' len' f' g' h' =>
    split
    · next hh =>
      obtain ⟨rfl, rfl⟩ := hh
      split
      · refine .walk ⟨.enumStruct, fun i x y => ?_, fun i => ?_⟩
        · rw [namedTurn_pair]
          exact ⟨fun ⟨n, a, b, c⟩ => .enumStruct a b c,
            fun h => by cases h; exact ⟨_, ‹_›, ‹_›, ‹_›⟩⟩
        · rw [namedTurn_none]
          exact ⟨fun h => h.elim .enumName .enumStruct, fun h => by cases h <;> simp [*]⟩
      · refine .walk ⟨.enumTuple, fun i x y => ?_, fun i => ?_⟩
        · rw [posTurn_pair]
          exact ⟨fun ⟨a, b⟩ => .enumTuple a b, fun h => by cases h; exact ⟨‹_›, ‹_›⟩⟩
        · rw [posTurn_none]
          exact ⟨fun h => h.elim .enumTuple .enumTuple', fun h => by cases h <;> simp [*]⟩
      · exact .unit .enumUnit (fun i => .enumUnit) (fun i x y => by rintro ⟨⟩)
      · next n1 n2 n3 =>
        exact .differ
          (by
            intro hs
            cases hs
            · exact n1 rfl rfl
            · exact n2 rfl rfl
            · exact n3 rfl rfl)
          (by rintro s t ⟨⟩) (by simp) (by simp)
    · next hn => exact .differ (by intro hs; cases hs <;> exact hn ⟨rfl, rfl⟩) (by rintro s t ⟨⟩) (by simp) (by simp)

theorem walkOf_of_plan {A : Type} {v w : RefView A} {turn : Nat → Option (Option (A × A))}
    (h : v.plan w = .walk turn) : WalkOf v w turn := by
  have hp := planOf v w
  generalize v.plan w = q at hp h
  cases hp <;> cases h
  assumption

/-! ## The loop -/

theorem eqLoop_mono {A : Type} {cmp cmp' : A → A → Option (Option Bool)}
    {turn : Nat → Option (Option (A × A))}
    (hc : ∀ x y r, cmp x y = some r → cmp' x y = some r) (f f' i : Nat) (hf : f ≤ f')
    (r : Option Bool) (h : eqLoop cmp turn f i = some r) : eqLoop cmp' turn f' i = some r := by
  induction f generalizing f' i with
  | zero => cases h
  | succ f ih =>
    obtain ⟨g, rfl⟩ : ∃ g, f' = g + 1 := ⟨f' - 1, by omega⟩
    simp only [eqLoop] at h ⊢
    split at h
    · exact h
    · exact h
    · next x y e =>
      cases hxy : cmp x y with
      | none => rw [hxy] at h; cases h
      | some q =>
        rw [hxy] at h
        rw [hc _ _ _ hxy]
        split at h
        · next e' => cases e'; exact ih g (i + 1) (by omega) h
        · next n =>
          cases q with
          | none => exact h
          | some b => cases b with
            | true => exact (n rfl).elim
            | false => exact h

theorem Impl.reflectEq_mono {A : Type} (I : Impl A) (n n' : Nat) (hn : n ≤ n') (a b : A)
    (r : Option Bool) (h : I.reflectEq n a b = some r) : I.reflectEq n' a b = some r := by
  induction n generalizing n' a b r with
  | zero => cases h
  | succ n ih =>
    obtain ⟨m, rfl⟩ : ∃ m, n' = m + 1 := ⟨n' - 1, by omega⟩
    simp only [Impl.reflectEq] at h ⊢
    split at h
    · exact h
    · exact eqLoop_mono (fun x y r h => ih m (by omega) x y r h) n m 0 (by omega) r h

/-- What a loop that comes to an answer has gone through. -/
inductive LoopOf {A : Type} (P : A → A → Option Bool → Prop) (turn : Nat → Option (Option (A × A)))
    (i : Nat) : Option Bool → Prop
  | over (m : Nat) : i ≤ m →
      (∀ j, i ≤ j → j < m → ∃ x y, turn j = some (some (x, y)) ∧ P x y (some true)) →
      turn m = none → LoopOf P turn i (some true)
  | stop (m : Nat) (x y : A) (r : Option Bool) : i ≤ m →
      (∀ j, i ≤ j → j < m → ∃ x y, turn j = some (some (x, y)) ∧ P x y (some true)) →
      turn m = some (some (x, y)) → P x y r → r ≠ some true → LoopOf P turn i r
  | missing (m : Nat) : i ≤ m →
      (∀ j, i ≤ j → j < m → ∃ x y, turn j = some (some (x, y)) ∧ P x y (some true)) →
      turn m = some none → LoopOf P turn i (some false)

theorem loopOf {A : Type} {cmp : A → A → Option (Option Bool)}
    {turn : Nat → Option (Option (A × A))} (f i : Nat) (r : Option Bool)
    (h : eqLoop cmp turn f i = some r) : LoopOf (fun x y r => cmp x y = some r) turn i r := by
  induction f generalizing i with
  | zero => cases h
  | succ f ih =>
    simp only [eqLoop] at h
    split at h
    · next e =>
      cases h
      exact .over i (Nat.le_refl _) (fun j a b => absurd a (by omega)) e
    · next e =>
      cases h
      exact .missing i (Nat.le_refl _) (fun j a b => absurd a (by omega)) e
    · next x y e =>
      split at h
      · next e' =>
        have pre : ∀ m, (∀ j, i + 1 ≤ j → j < m →
            ∃ x y, turn j = some (some (x, y)) ∧ cmp x y = some (some true)) →
            ∀ j, i ≤ j → j < m →
            ∃ x y, turn j = some (some (x, y)) ∧ cmp x y = some (some true) := by
          intro m hm j a b
          rcases Nat.eq_or_lt_of_le a with rfl | a
          · exact ⟨x, y, e, e'⟩
          · exact hm j a b
        cases ih (i + 1) h with
        | over m a b c => exact .over m (by omega) (pre m b) c
        | stop m x y r a b c d g => exact .stop m x y r (by omega) (pre m b) c d g
        | missing m a b c => exact .missing m (by omega) (pre m b) c
      · next n =>
        refine .stop i x y r (Nat.le_refl _) (fun j a b => absurd a (by omega)) e h ?_
        rintro rfl
        exact n h

/-- Enough turns, with enough steps in each, bring the loop to its answer. -/
theorem eqLoop_of {A : Type} {cmp : A → A → Option (Option Bool)}
    {turn : Nat → Option (Option (A × A))} (i : Nat) (r : Option Bool)
    (h : LoopOf (fun x y r => cmp x y = some r) turn i r) :
    ∃ F, ∀ f, F ≤ f → eqLoop cmp turn f i = some r := by
  have go : ∀ m, i ≤ m →
      (∀ j, i ≤ j → j < m → ∃ x y, turn j = some (some (x, y)) ∧ cmp x y = some (some true)) →
      ∀ f, eqLoop cmp turn (f + (m - i)) i = eqLoop cmp turn f m := by
    intro m hm hj
    obtain ⟨d, rfl⟩ : ∃ d, m = i + d := ⟨m - i, by omega⟩
    intro f
    rw [Nat.add_sub_cancel_left]
    clear hm h
    induction d generalizing i with
    | zero => rfl
    | succ d ih =>
      obtain ⟨x, y, e, e'⟩ := hj i (Nat.le_refl _) (by omega)
      rw [show f + (d + 1) = (f + d) + 1 from rfl]
      simp only [eqLoop, e, e']
      rw [ih (i + 1) (fun j a b => hj j (by omega) (by omega))]
      congr 1
      omega
  cases h with
  | over m a b c =>
    refine ⟨m - i + 1, fun f hf => ?_⟩
    obtain ⟨g, rfl⟩ : ∃ g, f = (g + 1) + (m - i) := ⟨f - (m - i) - 1, by omega⟩
    rw [go m a b]
    simp only [eqLoop, c]
  | missing m a b c =>
    refine ⟨m - i + 1, fun f hf => ?_⟩
    obtain ⟨g, rfl⟩ : ∃ g, f = (g + 1) + (m - i) := ⟨f - (m - i) - 1, by omega⟩
    rw [go m a b]
    simp only [eqLoop, c]
  | stop m x y r a b c d n =>
    refine ⟨m - i + 1, fun f hf => ?_⟩
    obtain ⟨g, rfl⟩ : ∃ g, f = (g + 1) + (m - i) := ⟨f - (m - i) - 1, by omega⟩
    rw [go m a b]
    simp only [eqLoop, c, d]
    split
    · next e => cases e; exact (n rfl).elim
    · rfl


/-! ## Answers -/

theorem bound_steps {P : Nat → Nat → Prop} (hm : ∀ i n n', n ≤ n' → P i n → P i n') (m : Nat)
    (h : ∀ i, i < m → ∃ n, P i n) : ∃ n, ∀ i, i < m → P i n := by
  induction m with
  | zero => exact ⟨0, fun i hi => absurd hi (by omega)⟩
  | succ m ih =>
    obtain ⟨n, hn⟩ := ih fun i hi => h i (by omega)
    obtain ⟨k, hk⟩ := h m (by omega)
    refine ⟨max n k, fun i hi => ?_⟩
    rcases Nat.lt_succ_iff_lt_or_eq.mp hi with hi | rfl
    · exact hm _ _ _ (Nat.le_max_left _ _) (hn i hi)
    · exact hm _ _ _ (Nat.le_max_right _ _) hk

theorem Impl.equal_of {A : Type} (I : Impl A) (n : Nat) (a b : A)
    (h : I.reflectEq n a b = some (some true)) : I.Equal a b := by
  induction n generalizing a b with
  | zero => cases h
  | succ n ih =>
    simp only [Impl.reflectEq] at h
    have hp := planOf (I.view a) (I.view b)
    split at h
    · next r e =>
      rw [e] at hp
      cases h
      generalize hv : I.view a = v at hp
      generalize hw : I.view b = w at hp
      generalize hr : (Plan.answer (some true) : Plan A) = q at hp
      cases hp with
      | scalar => exact .scalar hv hw (by injection hr with hr; injection hr with hr; exact hr.symm)
      | unit hs ho hc =>
        exact .parts 0 (fun _ => a) (fun _ => b) (by rw [hv, hw]; exact hs)
          (fun i hi => absurd hi (by omega)) (fun i hi => absurd hi (by omega))
          (by rw [hv, hw]; exact ho 0)
      | walk => cases hr
      | left => cases hr
      | right => cases hr
      | differ => cases hr
    · next turn e =>
      have hw := walkOf_of_plan e
      cases loopOf _ _ _ h with
      | over m _ hj hm =>
        have : ∀ j, ∃ p : A × A, j < m →
            (I.view a).Counterpart (I.view b) j p.1 p.2 ∧ I.Equal p.1 p.2 := by
          intro j
          by_cases hlt : j < m
          · obtain ⟨x, y, e1, e2⟩ := hj j (Nat.zero_le _) hlt
            exact ⟨(x, y), fun _ => ⟨(hw.pair _ _ _).mp e1, ih _ _ e2⟩⟩
          · exact ⟨(a, b), fun h => absurd h hlt⟩
        choose p hp' using this
        exact .parts m (fun i => (p i).1) (fun i => (p i).2) hw.shape (fun i hi => (hp' i hi).1)
          (fun i hi => (hp' i hi).2) ((hw.over m).mp hm)
      | stop m x y _ _ _ _ _ hn => exact (hn rfl).elim

/-- Two views of the same shape are walked, or are unit variants. -/
theorem plan_of_shape {A : Type} {v w : RefView A} (h : v.SameShape w) :
    (∃ turn, v.plan w = .walk turn ∧ WalkOf v w turn) ∨
      (v.plan w = .answer (some true) ∧ ∀ i x y, ¬ v.Counterpart w i x y) := by
  have hp := planOf v w
  generalize v.plan w = p at hp ⊢
  cases hp with
  | scalar => cases h
  | walk hw => exact .inl ⟨_, rfl, hw⟩
  | unit _ _ hc => exact .inr ⟨rfl, hc⟩
  | left => cases h
  | right => cases h
  | differ hn => exact (hn h).elim

/-- A loop whose turns all come to an answer gives the answer of the comparison. -/
theorem Impl.reflectEq_of_loop {A : Type} (I : Impl A) {a b : A}
    {turn : Nat → Option (Option (A × A))} {r : Option Bool}
    (hp : (I.view a).plan (I.view b) = .walk turn) (N : Nat)
    (h : LoopOf (fun x y r => I.reflectEq N x y = some r) turn 0 r) :
    ∃ n, I.reflectEq n a b = some r := by
  obtain ⟨F, hF⟩ := eqLoop_of 0 r h
  refine ⟨max N F + 1, ?_⟩
  simp only [Impl.reflectEq, hp]
  exact eqLoop_mono (fun x y r h => I.reflectEq_mono N _ (Nat.le_max_left _ _) x y r h) F _ 0
    (Nat.le_max_right _ _) r (hF F (Nat.le_refl _))

theorem Impl.Equal.steps {A : Type} {I : Impl A} {a b : A} (h : I.Equal a b) :
    ∃ n, I.reflectEq n a b = some (some true) := by
  induction h with
  | scalar ha hb hs => exact ⟨1, by simp [Impl.reflectEq, ha, hb, RefView.plan, hs]⟩
  | @parts a b m x y hs hc _ ho ih =>
    rcases plan_of_shape hs with ⟨turn, hp, hw⟩ | ⟨hp, hc'⟩
    · obtain ⟨N, hN⟩ := bound_steps
        (P := fun i n => I.reflectEq n (x i) (y i) = some (some true))
        (fun i n n' hn h => I.reflectEq_mono n n' hn _ _ _ h) m ih
      exact I.reflectEq_of_loop hp N (.over m (Nat.zero_le _)
        (fun j _ hj => ⟨x j, y j, (hw.pair _ _ _).mpr (hc j hj), hN j hj⟩) ((hw.over m).mpr ho))
    · exact ⟨1, by simp [Impl.reflectEq, hp]⟩

theorem Impl.undecided_of {A : Type} (I : Impl A) (n : Nat) (a b : A)
    (h : I.reflectEq n a b = some none) : I.Undecided a b := by
  induction n generalizing a b with
  | zero => cases h
  | succ n ih =>
    simp only [Impl.reflectEq] at h
    have hp := planOf (I.view a) (I.view b)
    split at h
    · next r e =>
      rw [e] at hp
      cases h
      generalize hv : I.view a = v at hp
      generalize hw : I.view b = w at hp
      generalize hr : (Plan.answer none : Plan A) = q at hp
      cases hp with
      | left => exact .left hv
      | right => exact .right hw
      | scalar => cases hr
      | unit => cases hr
      | walk => cases hr
      | differ => cases hr
    · next turn e =>
      have hw := walkOf_of_plan e
      cases loopOf _ _ _ h with
      | stop m x y _ _ hj hm hxy _ =>
        have : ∀ j, ∃ p : A × A, (j ≤ m → (I.view a).Counterpart (I.view b) j p.1 p.2) ∧
            (j < m → I.Equal p.1 p.2) ∧ (j = m → p = (x, y)) := by
          intro j
          rcases Nat.lt_trichotomy j m with hlt | rfl | hgt
          · obtain ⟨x, y, e1, e2⟩ := hj j (Nat.zero_le _) hlt
            exact ⟨(x, y), fun _ => (hw.pair _ _ _).mp e1, fun _ => I.equal_of _ _ _ e2,
              fun h => absurd h (by omega)⟩
          · exact ⟨(x, y), fun _ => (hw.pair _ _ _).mp hm, fun h => absurd h (by omega), fun _ => rfl⟩
          · exact ⟨(a, b), fun h => absurd h (by omega), fun h => absurd h (by omega),
              fun h => absurd h (by omega)⟩
        choose p h1 h2 h3 using this
        exact .part m (fun i => (p i).1) (fun i => (p i).2) hw.shape h1 h2
          (by rw [h3 m rfl]; exact ih _ _ hxy)

theorem Impl.Undecided.steps {A : Type} {I : Impl A} {a b : A} (h : I.Undecided a b) :
    ∃ n, I.reflectEq n a b = some none := by
  induction h with
  | left ha => exact ⟨1, by simp [Impl.reflectEq, ha, RefView.plan]⟩
  | right hb =>
    refine ⟨1, ?_⟩
    simp only [Impl.reflectEq, hb]
    cases I.view _ <;> rfl
  | @part a b m x y hs hc he _ ih =>
    rcases plan_of_shape hs with ⟨turn, hp, hw⟩ | ⟨hp, hc'⟩
    · obtain ⟨k, hk⟩ := ih
      obtain ⟨N, hN⟩ := bound_steps
        (P := fun i n => I.reflectEq n (x i) (y i) = some (some true))
        (fun i n n' hn h => I.reflectEq_mono n n' hn _ _ _ h) m (fun i hi => (he i hi).steps)
      refine I.reflectEq_of_loop hp (max N k) (.stop m (x m) (y m) none (Nat.zero_le _)
        (fun j _ hj => ⟨x j, y j, (hw.pair _ _ _).mpr (hc j (by omega)), ?_⟩)
        ((hw.pair _ _ _).mpr (hc m (Nat.le_refl _))) ?_ (by simp))
      · exact I.reflectEq_mono _ _ (Nat.le_max_left _ _) _ _ _ (hN j hj)
      · exact I.reflectEq_mono _ _ (Nat.le_max_right _ _) _ _ _ hk
    · exact (hc' _ _ _ (hc 0 (Nat.zero_le _))).elim

/-! ## Indistinguishable values -/

/-- Plans that do the same with related parts. -/
inductive Plan.Same {A B : Type} (R : A → B → Prop) : Plan A → Plan B → Prop
  | answer (r : Option Bool) : Plan.Same R (.answer r) (.answer r)
  | walk {t t'} : (∀ i, Option.Rel (Option.Rel fun p q => R p.1 q.1 ∧ R p.2 q.2) (t i) (t' i)) →
      Plan.Same R (.walk t) (.walk t')

theorem namedTurn_same {A B : Type} {R : A → B → Prop} {h : Nat → Option String}
    {g : Nat → Option A} {g' : Nat → Option B} {f : String → Option A} {f' : String → Option B}
    (hg : ∀ i, Option.Rel R (g i) (g' i)) (hf : ∀ n, Option.Rel R (f n) (f' n)) (i : Nat) :
    Option.Rel (Option.Rel fun p q => R p.1 q.1 ∧ R p.2 q.2) (namedTurn h g f i)
      (namedTurn h g' f' i) := by
  unfold namedTurn
  cases h i with
  | none => exact .none
  | some n =>
    dsimp only
    have := hg i
    generalize g i = o, g' i = o' at this
    cases this with
    | none => exact .none
    | some hx =>
      dsimp only
      have := hf n
      generalize f n = q, f' n = q' at this
      cases this with
      | none => exact .some .none
      | some hy => exact .some (.some ⟨hx, hy⟩)

theorem posTurn_same {A B : Type} {R : A → B → Prop} {g k : Nat → Option A} {g' k' : Nat → Option B}
    (hg : ∀ i, Option.Rel R (g i) (g' i)) (hk : ∀ i, Option.Rel R (k i) (k' i)) (i : Nat) :
    Option.Rel (Option.Rel fun p q => R p.1 q.1 ∧ R p.2 q.2) (posTurn g k i)
      (posTurn g' k' i) := by
  unfold posTurn
  have := hg i
  generalize g i = o, g' i = o' at this
  cases this with
  | none => exact .none
  | some hx =>
    dsimp only
    have := hk i
    generalize k i = q, k' i = q' at this
    cases this with
    | none => exact .none
    | some hy => exact .some (.some ⟨hx, hy⟩)

theorem mapTurn_same {A B : Type} {R : A → B → Prop} {e : Nat → Option (A × A)}
    {e' : Nat → Option (B × B)} {g : A → Option A} {g' : B → Option B}
    (he : ∀ i, Option.Rel (fun p q => R p.1 q.1 ∧ R p.2 q.2) (e i) (e' i))
    (hg : ∀ k k', R k k' → Option.Rel R (g k) (g' k')) (i : Nat) :
    Option.Rel (Option.Rel fun p q => R p.1 q.1 ∧ R p.2 q.2) (mapTurn e g i) (mapTurn e' g' i) := by
  unfold mapTurn
  have := he i
  generalize e i = o, e' i = o' at this
  cases this with
  | none => exact .none
  | @some p q hx =>
    obtain ⟨k, x⟩ := p
    obtain ⟨k', x'⟩ := q
    dsimp only at hx ⊢
    have := hg _ _ hx.1
    generalize g k = u, g' k' = u' at this
    cases this with
    | none => exact .some .none
    | some hy => exact .some (.some ⟨hx.2, hy⟩)

theorem plan_same {A B : Type} {R : A → B → Prop} {v w : RefView A} {v' w' : RefView B}
    (hv : RefView.Same R v v') (hw : RefView.Same R w w') : Plan.Same R (v.plan w) (v'.plan w') := by
  cases hv <;> cases hw <;> simp only [RefView.plan] <;>
    first
    | exact .answer _
    | skip
  all_goals
    split
    · first
      | exact .walk (namedTurn_same ‹_› ‹_›)
      | exact .walk (posTurn_same ‹_› ‹_›)
      | exact .walk (mapTurn_same ‹_› ‹_›)
      | (split
         · exact .walk (namedTurn_same ‹_› ‹_›)
         · exact .walk (posTurn_same ‹_› ‹_›)
         · exact .answer _
         · exact .answer _)
    · exact .answer _

theorem eqLoop_same {A B : Type} {R : A → B → Prop} {cmp : A → A → Option (Option Bool)}
    {cmp' : B → B → Option (Option Bool)}
    (hc : ∀ x x' y y', R x x' → R y y' → cmp x y = cmp' x' y')
    {t : Nat → Option (Option (A × A))} {t' : Nat → Option (Option (B × B))}
    (ht : ∀ i, Option.Rel (Option.Rel fun p q => R p.1 q.1 ∧ R p.2 q.2) (t i) (t' i)) (f i : Nat) :
    eqLoop cmp t f i = eqLoop cmp' t' f i := by
  induction f generalizing i with
  | zero => rfl
  | succ f ih =>
    simp only [eqLoop]
    have := ht i
    generalize t i = o, t' i = o' at this
    cases this with
    | none => rfl
    | some h =>
      cases h with
      | none => rfl
      | @some p q h =>
        obtain ⟨x, y⟩ := p
        obtain ⟨x', y'⟩ := q
        dsimp only at h ⊢
        rw [hc x x' y y' h.1 h.2, ih (i + 1)]

theorem Impl.reflectEq_same {A B : Type} {I : Impl A} {J : Impl B} {R : A → B → Prop}
    (h : I.Alike J R) (n : Nat) {a a'} (ha : R a a') {b b'} (hb : R b b') :
    I.reflectEq n a b = J.reflectEq n a' b' := by
  induction n generalizing a a' b b' with
  | zero => rfl
  | succ n ih =>
    simp only [Impl.reflectEq]
    have := plan_same (h.view _ _ ha) (h.view _ _ hb)
    generalize (I.view a).plan (I.view b) = p, (J.view a').plan (J.view b') = q at this
    cases this with
    | answer r => rfl
    | walk ht => exact eqLoop_same (R := R) (fun x x' y y' hx hy => ih hx hy) ht n 0

theorem Impl.atKey_same {A B : Type} {I : Impl A} {J : Impl B} {R : A → B → Prop}
    (h : I.Alike J R) {a a'} (ha : R a a') (k : Key) :
    Option.Rel R (I.atKey a k) (J.atKey a' k) := by
  have hv := h.view _ _ ha
  cases k with
  | named n =>
    simp only [Impl.atKey]
    generalize I.view a = v, J.view a' = v' at hv
    cases hv with
    | struct hf hg => exact hf n
    | @enum _ k _ _ _ _ _ _ hf hg => cases k <;> first | exact hf n | exact .none
    | _ => exact .none
  | numbered i =>
    simp only [Impl.atKey]
    generalize I.view a = v, J.view a' = v' at hv
    cases hv with
    | tupleStruct hg => exact hg i
    | tuple hg => exact hg i
    | @enum _ k _ _ _ _ _ _ hf hg => cases k <;> first | exact hg i | exact .none
    | _ => exact .none
  | get v =>
    simp only [Impl.atKey]
    have bind : ∀ {g : Nat → Option A} {g' : Nat → Option B},
        (∀ i, Option.Rel R (g i) (g' i)) →
        Option.Rel R ((valueToUsize v).bind g) ((valueToUsize v).bind g') := by
      intro g g' hg
      cases valueToUsize v with
      | none => exact .none
      | some i => exact hg i
    generalize I.view a = w, J.view a' = w' at hv
    cases hv with
    | map hg he => exact hg _ _ (h.ofValue v)
    | array hg => exact bind hg
    | list hg => exact bind hg
    | _ => exact .none
  | variant v =>
    simp only [Impl.atKey]
    generalize I.view a = w, J.view a' = w' at hv
    cases hv with
    | enum hf hg =>
      dsimp only
      split
      · exact .some ha
      · exact .none
    | _ => exact .none

theorem Impl.at_same {A B : Type} {I : Impl A} {J : Impl B} {R : A → B → Prop}
    (h : I.Alike J R) {a a'} (ha : R a a') (p : KeyPath) :
    Option.Rel R (I.at a p) (J.at a' p) := by
  have go : ∀ ks {a a'}, R a a' → Option.Rel R (I.atGo a ks) (J.atGo a' ks) := by
    intro ks
    induction ks with
    | nil => intro a a' _; exact .none
    | cons k r ih =>
      intro a a' ha
      have := I.atKey_same h ha k
      cases r with
      | nil =>
        rw [Impl.atGo, Impl.atGo]
        generalize I.atKey a k = o, J.atKey a' k = o' at this
        cases this with
        | none => exact .none
        | some hx => exact .some hx
      | cons k' r' =>
        rw [Impl.atGo, Impl.atGo]
        generalize I.atKey a k = o, J.atKey a' k = o' at this
        cases this with
        | none => exact .none
        | some hx => exact ih hx
  unfold Impl.at
  split
  · exact .some ha
  · exact go p ha

/-! ## The implementation of the modelled types -/

theorem Obj.impl_at (E : Env) (o : Obj) (p : KeyPath) : (Obj.impl E).at o p = atPath E o p := by
  have step : ∀ (o : Obj) k, (Obj.impl E).atKey o k = o.atKey E k := by
    intro o k
    cases k <;> cases o <;>
      simp [Impl.atKey, Obj.impl, Obj.view, Obj.atKey, Obj.kind, Obj.variantKind, Obj.variantName]
  have go : ∀ ks (o : Obj), (Obj.impl E).atGo o ks = Mirror.atGo E o ks := by
    intro ks
    induction ks with
    | nil => intro o; rfl
    | cons k r ih =>
      intro o
      cases r with
      | nil =>
        rw [Impl.atGo, Mirror.atGo, step]
        cases o.atKey E k <;> rfl
      | cons k' r' =>
        rw [Impl.atGo, Mirror.atGo, step]
        cases o.atKey E k with
        | none => rfl
        | some x => exact ih x
  simp only [Impl.at, atPath, go]


/-- A loop whose turns are those of a list. -/
theorem eqLoop_list {A : Type} {cmp : A → A → Option (Option Bool)} {res : A → A → Option Bool}
    {turn : Nat → Option (Option (A × A))} (l : List (Option (A × A))) (i : Nat)
    (ht : ∀ j, j ≤ l.length → turn (i + j) = l[j]?)
    (hc : ∀ p, some p ∈ l → cmp p.1 p.2 = some (res p.1 p.2)) :
    eqLoop cmp turn (l.length + 1) i = some (eqAll (l.map fun t =>
      match t with
      | none => some false
      | some p => res p.1 p.2)) := by
  induction l generalizing i with
  | nil =>
    have := ht 0 (Nat.le_refl _)
    simp only [Nat.add_zero, List.getElem?_nil] at this
    simp [eqLoop, this, eqAll]
  | cons t l ih =>
    have h0 := ht 0 (Nat.zero_le _)
    simp only [Nat.add_zero, List.getElem?_cons_zero] at h0
    rw [List.length_cons, eqLoop, h0]
    cases t with
    | none => simp [eqAll]
    | some p =>
      obtain ⟨x, y⟩ := p
      dsimp only
      have hxy := hc (x, y) (by simp)
      dsimp only at hxy
      rw [hxy]
      have hi := ih (i + 1) (fun j hj => by
        have := ht (j + 1) (by simpa using hj)
        rw [show i + 1 + j = i + (j + 1) by omega, this]
        simp) (fun p hp => hc p (by simp [hp]))
      simp only [List.map_cons]
      cases hr : res x y with
      | none => simp [eqAll]
      | some b =>
        cases b with
        | true => simpa [eqAll] using hi
        | false => simp [eqAll]

/-- Enough steps for every pair of a list. -/
theorem bound_list {A : Type} {I : Impl A} {res : A → A → Option Bool} (l : List (Option (A × A)))
    (h : ∀ p, some p ∈ l → ∃ n, I.reflectEq n p.1 p.2 = some (res p.1 p.2)) :
    ∃ n, ∀ p, some p ∈ l → I.reflectEq n p.1 p.2 = some (res p.1 p.2) := by
  induction l with
  | nil => exact ⟨0, fun p hp => by simp at hp⟩
  | cons t l ih =>
    obtain ⟨n, hn⟩ := ih fun p hp => h p (by simp [hp])
    cases t with
    | none => exact ⟨n, fun p hp => hn p (by simpa using hp)⟩
    | some q =>
      obtain ⟨k, hk⟩ := h q (by simp)
      refine ⟨max n k, fun p hp => ?_⟩
      rcases List.mem_cons.mp hp with hp | hp
      · cases hp
        exact I.reflectEq_mono _ _ (Nat.le_max_right _ _) _ _ _ hk
      · exact I.reflectEq_mono _ _ (Nat.le_max_left _ _) _ _ _ (hn p hp)

/-- A comparison that walks a list of turns answers what its parts answer. -/
theorem Impl.reflectEq_list {A : Type} {I : Impl A} {res : A → A → Option Bool} {a b : A}
    {turn : Nat → Option (Option (A × A))} (hp : (I.view a).plan (I.view b) = .walk turn)
    (l : List (Option (A × A))) (ht : ∀ j, j ≤ l.length → turn j = l[j]?)
    (h : ∀ p, some p ∈ l → ∃ n, I.reflectEq n p.1 p.2 = some (res p.1 p.2)) :
    ∃ n, I.reflectEq n a b = some (eqAll (l.map fun t =>
      match t with
      | none => some false
      | some p => res p.1 p.2)) := by
  obtain ⟨n, hn⟩ := bound_list l h
  have := eqLoop_list (turn := turn) l 0 (fun j hj => by rw [Nat.zero_add]; exact ht j hj) hn
  refine ⟨max n (l.length + 1) + 1, ?_⟩
  simp only [Impl.reflectEq, hp]
  exact eqLoop_mono (fun x y r h => I.reflectEq_mono n _ (Nat.le_max_left _ _) x y r h) _ _ 0
    (Nat.le_max_right _ _) _ this

theorem namedTurn_list {o : Obj} (hk : o.kind = .struct ∨ o.variantKind = some .struct) (b : Obj)
    (j : Nat) (hj : j ≤ (o.namedIter.map fun p => (b.field p.1).map fun y => (p.2, y)).length) :
    namedTurn o.nameAt o.fieldAt b.field j =
      (o.namedIter.map fun p => (b.field p.1).map fun y => (p.2, y))[j]? := by
  rw [List.length_map] at hj
  rw [List.getElem?_map, namedIter_at hk hj]
  unfold namedTurn
  cases o.nameAt j with
  | none => rfl
  | some n =>
    cases o.fieldAt j with
    | none => rfl
    | some x =>
      dsimp only [Option.bind_some, Option.map_some]
      cases b.field n <;> rfl

theorem posTurn_list {a b : Obj}
    (ha : a.kind = .tupleStruct ∨ a.kind = .tuple ∨ a.kind = .list ∨ a.kind = .array ∨
      a.variantKind = some .tuple)
    (hb : b.kind = .tupleStruct ∨ b.kind = .tuple ∨ b.kind = .list ∨ b.kind = .array ∨
      b.variantKind = some .tuple) (j : Nat)
    (hj : j ≤ ((a.posIter.zip b.posIter).map some).length) :
    posTurn a.fieldAt b.fieldAt j = ((a.posIter.zip b.posIter).map some)[j]? := by
  rw [List.length_map, List.length_zip] at hj
  unfold posTurn
  rw [posIter_fieldAt ha (by omega), posIter_fieldAt hb (by omega), List.getElem?_map, List.zip,
    List.getElem?_zipWith]
  cases a.posIter[j]? <;> cases b.posIter[j]? <;> rfl

/-- The loop over named fields, as the model of the derived types writes it. -/
theorem Obj.impl_named (E : Env) {a b : Obj}
    (ih : ∀ x, sizeOf x < sizeOf a → ∀ y, ∃ n, (Obj.impl E).reflectEq n x y = some (reflectEq E x y))
    (hk : a.kind = .struct ∨ a.variantKind = some .struct)
    (hp : (a.view E).plan (b.view E) = .walk (namedTurn a.nameAt a.fieldAt b.field)) :
    ∃ n, (Obj.impl E).reflectEq n a b = some (eqAll (a.namedIter.attach.map fun p =>
      match b.field p.1.1 with
      | none => some false
      | some y => reflectEq E p.1.2 y)) := by
  obtain ⟨n, hn⟩ := Impl.reflectEq_list (I := Obj.impl E) (res := reflectEq E) hp
    (a.namedIter.map fun p => (b.field p.1).map fun y => (p.2, y)) (namedTurn_list hk b)
    (by
      intro p hm
      obtain ⟨q, hq, e⟩ := List.mem_map.mp hm
      cases hf : b.field q.1 with
      | none => rw [hf] at e; cases e
      | some y =>
        rw [hf] at e
        cases e
        exact ih _ (Obj.namedIter_size hq) _)
  refine ⟨n, hn.trans ?_⟩
  congr 2
  rw [List.map_map]
  rw [← List.attach_map_val (l := a.namedIter)]
  apply List.map_congr_left
  intro p _
  simp only [Function.comp]
  cases b.field p.1.1 <;> rfl

/-- The loops over positional fields. -/
theorem Obj.impl_pos (E : Env) {a b : Obj}
    (ih : ∀ x, sizeOf x < sizeOf a → ∀ y, ∃ n, (Obj.impl E).reflectEq n x y = some (reflectEq E x y))
    (ha : a.kind = .tupleStruct ∨ a.kind = .tuple ∨ a.kind = .list ∨ a.kind = .array ∨
      a.variantKind = some .tuple)
    (hb : b.kind = .tupleStruct ∨ b.kind = .tuple ∨ b.kind = .list ∨ b.kind = .array ∨
      b.variantKind = some .tuple)
    (hs : ∀ p ∈ a.posIter, sizeOf p < sizeOf a)
    (hp : (a.view E).plan (b.view E) = .walk (posTurn a.fieldAt b.fieldAt)) :
    ∃ n, (Obj.impl E).reflectEq n a b = some (eqAll ((a.posIter.zip b.posIter).attach.map fun p =>
      reflectEq E p.1.1 p.1.2)) := by
  obtain ⟨n, hn⟩ := Impl.reflectEq_list (I := Obj.impl E) (res := reflectEq E) hp
    ((a.posIter.zip b.posIter).map some) (posTurn_list ha hb)
    (by
      intro p hm
      obtain ⟨q, hq, e⟩ := List.mem_map.mp hm
      cases e
      exact ih _ (hs _ (List.of_mem_zip hq).1) _)
  refine ⟨n, hn.trans ?_⟩
  congr 2
  rw [List.map_map, ← List.attach_map_val (l := a.posIter.zip b.posIter)]
  rfl

theorem Obj.impl_reflectEq_steps (E : Env) (a : Obj) :
    ∀ b, ∃ n, (Obj.impl E).reflectEq n a b = some (reflectEq E a b) := by
  induction a using Obj.ind with
  | h a ih =>
    intro b
    have one : ∀ {r}, (a.view E).plan (b.view E) = .answer r → reflectEq E a b = r →
        ∃ n, (Obj.impl E).reflectEq n a b = some (reflectEq E a b) := by
      intro r h1 h2
      refine ⟨1, ?_⟩
      rw [h2]
      simp [Impl.reflectEq, Obj.impl, h1]
    have twSize : ∀ {fs : List Obj} {p : Obj}, p ∈ fs.takeWhile (fun x => !x.isHidden) →
        sizeOf p < sizeOf fs := fun h => List.sizeOf_lt_of_mem ((List.takeWhile_prefix _).subset h)
    cases a with
    | scalar s =>
      cases b <;> exact one (by simp [Obj.view, RefView.plan]; rfl)
        (by rw [reflectEq]; simp [Obj.asScalar, Obj.kind])
    | nonzero k m =>
      cases b <;> exact one (by simp [Obj.view, RefView.plan]; rfl)
        (by rw [reflectEq]; simp [Obj.asScalar, Obj.kind])
    | hidden i =>
      exact one (by simp [Obj.view, RefView.plan]; rfl) (by rw [reflectEq])
    | enumU tag v =>
      cases b
      case enumU tag' v' =>
        by_cases h : v = v' ∧ (Obj.enumU tag v).fieldsLen = (Obj.enumU tag' v').fieldsLen
        · refine one (by simp only [Obj.view, RefView.plan]; rw [if_pos h]) ?_
          rw [reflectEq, if_pos (show Obj.kind _ = .enum from rfl), if_pos ⟨by rw [h.1]; rfl, h.2⟩]
          rfl
        · refine one (by simp only [Obj.view, RefView.plan]; rw [if_neg h]) ?_
          rw [reflectEq, if_pos (show Obj.kind _ = .enum from rfl), if_neg]
          exact fun h' => h ⟨(Option.some.inj h'.1).symm, h'.2⟩
      case enumS =>
        refine one (r := some false) ?_ ?_
        · simp only [Obj.view, RefView.plan]; split <;> rfl
        · rw [reflectEq, if_pos (show Obj.kind _ = .enum from rfl)]; split <;> simp [Obj.variantKind]
      case enumT =>
        refine one (r := some false) ?_ ?_
        · simp only [Obj.view, RefView.plan]; split <;> rfl
        · rw [reflectEq, if_pos (show Obj.kind _ = .enum from rfl)]; split <;> simp [Obj.variantKind]
      all_goals
        exact one (by simp [Obj.view, RefView.plan]; rfl) (by rw [reflectEq]; simp [Obj.kind])
    | struct tag fs =>
      cases b <;> first
        | exact one (by simp [Obj.view, RefView.plan]; rfl)
            (by rw [reflectEq]; simp [Obj.kind])
        | skip
      next tag' fs' =>
      by_cases h : (Obj.struct tag fs).fieldsLen = (Obj.struct tag' fs').fieldsLen
      · rw [reflectEq, if_pos (show Obj.kind _ = .struct from rfl), if_pos h]
        exact Obj.impl_named E ih (.inl rfl) (by simp only [Obj.view, RefView.plan]; rw [if_pos h])
      · exact one (by simp only [Obj.view, RefView.plan]; rw [if_neg h])
          (by rw [reflectEq, if_pos (show Obj.kind _ = .struct from rfl), if_neg h])
    | enumS tag v fs =>
      cases b
      case enumS tag' v' fs' =>
        by_cases h : v = v' ∧ (Obj.enumS tag v fs).fieldsLen = (Obj.enumS tag' v' fs').fieldsLen
        · rw [reflectEq, if_pos (show Obj.kind _ = .enum from rfl), if_pos ⟨by rw [h.1]; rfl, h.2⟩,
            if_pos (show Obj.variantKind _ = some .struct from rfl)]
          exact Obj.impl_named E ih (.inr rfl) (by simp only [Obj.view, RefView.plan]; rw [if_pos h])
        · refine one (by simp only [Obj.view, RefView.plan]; rw [if_neg h]) ?_
          rw [reflectEq, if_pos (show Obj.kind _ = .enum from rfl), if_neg]
          exact fun h' => h ⟨(Option.some.inj h'.1).symm, h'.2⟩
      case enumT =>
        refine one (r := some false) ?_ ?_
        · simp only [Obj.view, RefView.plan]; split <;> rfl
        · rw [reflectEq, if_pos (show Obj.kind _ = .enum from rfl)]; split <;> simp [Obj.variantKind]
      case enumU =>
        refine one (r := some false) ?_ ?_
        · simp only [Obj.view, RefView.plan]; split <;> rfl
        · rw [reflectEq, if_pos (show Obj.kind _ = .enum from rfl)]; split <;> simp [Obj.variantKind]
      all_goals
        exact one (by simp [Obj.view, RefView.plan]; rfl) (by rw [reflectEq]; simp [Obj.kind])
    | enumT tag v fs =>
      cases b
      case enumT tag' v' fs' =>
        by_cases h : v = v' ∧ (Obj.enumT tag v fs).fieldsLen = (Obj.enumT tag' v' fs').fieldsLen
        · rw [reflectEq, if_pos (show Obj.kind _ = .enum from rfl), if_pos ⟨by rw [h.1]; rfl, h.2⟩,
            if_pos (show Obj.variantKind _ = some .tuple from rfl)]
          exact Obj.impl_pos E (a := .enumT tag v fs) (b := .enumT tag' v' fs') ih
            (by simp [Obj.variantKind]) (by simp [Obj.variantKind])
            (fun p hp => by have := twSize hp; simp; omega)
            (by simp only [Obj.view, RefView.plan]; rw [if_pos h])
        · refine one (by simp only [Obj.view, RefView.plan]; rw [if_neg h]) ?_
          rw [reflectEq, if_pos (show Obj.kind _ = .enum from rfl), if_neg]
          exact fun h' => h ⟨(Option.some.inj h'.1).symm, h'.2⟩
      case enumS =>
        refine one (r := some false) ?_ ?_
        · simp only [Obj.view, RefView.plan]; split <;> rfl
        · rw [reflectEq, if_pos (show Obj.kind _ = .enum from rfl)]; split <;> simp [Obj.variantKind]
      case enumU =>
        refine one (r := some false) ?_ ?_
        · simp only [Obj.view, RefView.plan]; split <;> rfl
        · rw [reflectEq, if_pos (show Obj.kind _ = .enum from rfl)]; split <;> simp [Obj.variantKind]
      all_goals
        exact one (by simp [Obj.view, RefView.plan]; rfl) (by rw [reflectEq]; simp [Obj.kind])
    | tupleStruct tag fs =>
      cases b <;> first
        | exact one (by simp [Obj.view, RefView.plan]; rfl)
            (by rw [reflectEq]; simp [Obj.kind])
        | skip
      next tag' fs' =>
      by_cases h : (Obj.tupleStruct tag fs).fieldsLen = (Obj.tupleStruct tag' fs').fieldsLen
      · rw [reflectEq, if_pos (show Obj.kind _ = .tupleStruct from rfl), if_pos h]
        exact Obj.impl_pos E (a := .tupleStruct tag fs) (b := .tupleStruct tag' fs') ih
          (by simp [Obj.kind]) (by simp [Obj.kind])
          (fun p hp => by have := twSize hp; simp; omega)
          (by simp only [Obj.view, RefView.plan]; rw [if_pos h])
      · exact one (by simp only [Obj.view, RefView.plan]; rw [if_neg h])
          (by rw [reflectEq, if_pos (show Obj.kind _ = .tupleStruct from rfl), if_neg h])
    | tuple tag fs =>
      cases b <;> first
        | exact one (by simp [Obj.view, RefView.plan]; rfl)
            (by rw [reflectEq]; simp [Obj.kind])
        | skip
      next tag' fs' =>
      by_cases h : (Obj.tuple tag fs).fieldsLen = (Obj.tuple tag' fs').fieldsLen
      · rw [reflectEq, if_pos (show Obj.kind _ = .tuple from rfl), if_pos h]
        exact Obj.impl_pos E (a := .tuple tag fs) (b := .tuple tag' fs') ih
          (by simp [Obj.kind]) (by simp [Obj.kind])
          (fun p hp => by have := twSize hp; simp; omega)
          (by simp only [Obj.view, RefView.plan]; rw [if_pos h])
      · exact one (by simp only [Obj.view, RefView.plan]; rw [if_neg h])
          (by rw [reflectEq, if_pos (show Obj.kind _ = .tuple from rfl), if_neg h])
    | vec t xs =>
      cases b <;> first
        | exact one (by simp [Obj.view, RefView.plan]; rfl)
            (by rw [reflectEq]; simp [Obj.kind])
        | skip
      next t' xs' =>
      by_cases h : xs.length = (Obj.vec t' xs').fieldsLen
      · rw [reflectEq, if_pos (show Obj.kind _ = .list from rfl), if_pos h]
        exact Obj.impl_pos E (a := .vec t xs) (b := .vec t' xs') ih
          (by simp [Obj.kind]) (by simp [Obj.kind])
          (fun p hp => by have := List.sizeOf_lt_of_mem (show p ∈ xs from hp); simp; omega)
          (by simp only [Obj.view, RefView.plan]; exact if_pos h)
      · exact one (by simp only [Obj.view, RefView.plan]; exact if_neg h)
          (by rw [reflectEq, if_pos (show Obj.kind _ = .list from rfl), if_neg h])
    | array t xs =>
      cases b <;> first
        | exact one (by simp [Obj.view, RefView.plan]; rfl)
            (by rw [reflectEq]; simp [Obj.kind])
        | skip
      next t' xs' =>
      by_cases h : xs.length = (Obj.array t' xs').fieldsLen
      · rw [reflectEq, if_pos (show Obj.kind _ = .array from rfl), if_pos h]
        exact Obj.impl_pos E (a := .array t xs) (b := .array t' xs') ih
          (by simp [Obj.kind]) (by simp [Obj.kind])
          (fun p hp => by have := List.sizeOf_lt_of_mem (show p ∈ xs from hp); simp; omega)
          (by simp only [Obj.view, RefView.plan]; exact if_pos h)
      · exact one (by simp only [Obj.view, RefView.plan]; exact if_neg h)
          (by rw [reflectEq, if_pos (show Obj.kind _ = .array from rfl), if_neg h])
    | map kt vt kvs =>
      cases b <;> first
        | exact one (by simp [Obj.view, RefView.plan]; rfl)
            (by rw [reflectEq]; simp [Obj.kind])
        | skip
      next kt' vt' kvs' =>
      by_cases h : kvs.length = (Obj.map kt' vt' kvs').fieldsLen
      · rw [reflectEq, if_pos (show Obj.kind _ = .map from rfl), if_pos h]
        obtain ⟨n, hn⟩ := Impl.reflectEq_list (I := Obj.impl E) (res := reflectEq E)
          (a := .map kt vt kvs) (b := .map kt' vt' kvs')
          (turn := mapTurn (kvs[·]?) ((Obj.map kt' vt' kvs').mapGet E))
          (by simp only [Obj.impl, Obj.view, RefView.plan]; exact if_pos h)
          (kvs.map fun p => ((Obj.map kt' vt' kvs').mapGet E p.1).map fun y => (p.2, y))
          (by
            intro j _
            rw [List.getElem?_map]
            unfold mapTurn
            dsimp only
            cases kvs[j]? with
            | none => rfl
            | some p =>
              dsimp only [Option.map_some]
              cases (Obj.map kt' vt' kvs').mapGet E p.1 <;> rfl)
          (by
            intro p hm
            obtain ⟨q, hq, e⟩ := List.mem_map.mp hm
            cases hf : (Obj.map kt' vt' kvs').mapGet E q.1 with
            | none => rw [hf] at e; cases e
            | some y =>
              rw [hf] at e
              cases e
              exact ih _ (by have := sizeOf_snd_lt_of_mem hq; simp; omega) _)
        refine ⟨n, hn.trans ?_⟩
        congr 2
        rw [List.map_map]
        apply List.map_congr_left
        intro p _
        simp only [Function.comp]
        cases (Obj.map kt' vt' kvs').mapGet E p.1 <;> rfl
      · exact one (by simp only [Obj.view, RefView.plan]; exact if_neg h)
          (by rw [reflectEq, if_pos (show Obj.kind _ = .map from rfl), if_neg h])

end Mirror
