import Verif.Spec.WireDefault
import Verif.Lemmas.WireNav
import Verif.Lemmas.SpeedyExact
import Verif.Lemmas.Codec
import Mathlib.Data.List.Nodup
import Mathlib.Data.Finset.Card

set_option linter.unusedSimpArgs false

/-!
# Computing defaults from any descriptor

First a machine that knows nothing of nodes, then the two functions of the model as instances.
-/

namespace Mirror

/-! ## Asking for one part after the other -/

/-- The loop over the parts. -/
def walkL (f : WireId → Option (Ends Bool)) : List (Option WireId) → Option (Ends Bool)
  | [] => some (.ok true)
  | none :: _ => some .panic
  | some i :: is =>
    match f i with
    | none => none
    | some .panic => some .panic
    | some (.ok false) => some (.ok false)
    | some (.ok true) => walkL f is

def walk (st : WireId → Need) : Nat → WireId → Option (Ends Bool)
  | 0, _ => none
  | fuel + 1, i =>
    match st i with
    | .refused => some (.ok false)
    | .broken => some .panic
    | .parts os => walkL (walk st fuel) os

variable {st : WireId → Need} {f g : WireId → Option (Ends Bool)}

theorem walkL_mono (h : ∀ i r, f i = some r → g i = some r) : ∀ os r, walkL f os = some r →
    walkL g os = some r
  | [], r, hr => hr
  | none :: _, r, hr => hr
  | some i :: os, r, hr => by
    rw [walkL] at hr ⊢
    cases hf : f i with
    | none => rw [hf] at hr; cases hr
    | some e =>
      rw [h i e hf]
      rw [hf] at hr
      match e with
      | .panic => exact hr
      | .ok false => exact hr
      | .ok true => exact walkL_mono h os r hr

theorem walk_succ : ∀ fuel i r, walk st fuel i = some r → walk st (fuel + 1) i = some r
  | 0, _, _, h => by cases h
  | fuel + 1, i, r, h => by
    rw [walk] at h ⊢
    cases hs : st i with
    | refused => rw [hs] at h; exact h
    | broken => rw [hs] at h; exact h
    | parts os =>
      rw [hs] at h
      exact walkL_mono (fun j r => walk_succ fuel j r) os r h

theorem walk_mono {a b : Nat} (hab : a ≤ b) {i r} (h : walk st a i = some r) : walk st b i = some r := by
  induction hab with
  | refl => exact h
  | step _ ih => exact walk_succ _ _ _ ih

theorem walk_det {a b : Nat} {i r s} (h : walk st a i = some r) (h' : walk st b i = some s) : r = s := by
  have h1 := walk_mono (Nat.le_max_left a b) h
  have h2 := walk_mono (Nat.le_max_right a b) h'
  rw [h1] at h2
  exact Option.some.inj h2

theorem walkL_true {os : List (Option WireId)} : walkL f os = some (.ok true) ↔
    ∃ js : List WireId, os = js.map some ∧ ∀ j ∈ js, f j = some (.ok true) := by
  induction os with
  | nil => simp [walkL]
  | cons o os ih =>
    cases o with
    | none =>
      simp only [walkL]
      constructor
      · intro h; cases h
      · rintro ⟨js, h, _⟩; cases js <;> simp at h
    | some i =>
      simp only [walkL]
      constructor
      · intro h
        split at h
        · cases h
        · cases h
        · cases h
        · next hi =>
          obtain ⟨js, rfl, hj⟩ := ih.mp h
          exact ⟨i :: js, rfl, by simpa using ⟨hi, hj⟩⟩
      · rintro ⟨js, h, hj⟩
        cases js with
        | nil => cases h
        | cons j js =>
          simp only [List.map_cons, List.cons.injEq, Option.some.injEq] at h
          obtain ⟨rfl, rfl⟩ := h
          rw [hj i (by simp)]
          exact ih.mpr ⟨js, rfl, fun k hk => hj k (by simp [hk])⟩

/-- The loop gets to `o`, if everything before it has a default. -/
theorem walkL_append {pre post : List (Option WireId)} (h : ∀ p ∈ pre, ∃ k, p = some k ∧ f k = some (.ok true)) :
    walkL f (pre ++ post) = walkL f post := by
  induction pre with
  | nil => rfl
  | cons p pre ih =>
    obtain ⟨k, rfl, hk⟩ := h p (by simp)
    rw [List.cons_append, walkL, hk]
    exact ih fun q hq => h q (by simp [hq])

/-- Where the loop stops. -/
theorem walkL_cases (f : WireId → Option (Ends Bool)) : ∀ os : List (Option WireId),
    walkL f os = some (.ok true) ∨
      ∃ pre o post, os = pre ++ o :: post ∧ (∀ p ∈ pre, ∃ k, p = some k ∧ f k = some (.ok true)) ∧
        ((o = none ∧ walkL f os = some .panic) ∨
          ∃ k, o = some k ∧ walkL f os = f k ∧ f k ≠ some (.ok true))
  | [] => .inl rfl
  | none :: os => .inr ⟨[], none, os, rfl, by simp, .inl ⟨rfl, rfl⟩⟩
  | some i :: os => by
    by_cases hi : f i = some (.ok true)
    · have e : walkL f (some i :: os) = walkL f os := by rw [walkL, hi]
      rcases walkL_cases f os with h | ⟨pre, o, post, rfl, hp, h⟩
      · exact .inl (e.trans h)
      · refine .inr ⟨some i :: pre, o, post, rfl, ?_, ?_⟩
        · intro p hpm
          rcases List.mem_cons.mp hpm with rfl | hpm
          · exact ⟨i, rfl, hi⟩
          · exact hp p hpm
        · rw [e]; exact h
    · refine .inr ⟨[], some i, os, rfl, by simp, .inr ⟨i, rfl, ?_, hi⟩⟩
      rw [walkL]
      cases h : f i with
      | none => rfl
      | some e =>
        match e with
        | .panic => rfl
        | .ok false => rfl
        | .ok true => exact absurd h hi

theorem walk_true_has : ∀ fuel i, walk st fuel i = some (.ok true) → Has st i
  | 0, _, h => by cases h
  | fuel + 1, i, h => by
    rw [walk] at h
    cases hs : st i with
    | refused => rw [hs] at h; simp at h
    | broken => rw [hs] at h; simp at h
    | parts os =>
      rw [hs] at h
      obtain ⟨js, rfl, hj⟩ := walkL_true.mp h
      exact .mk i js hs fun j hj' => walk_true_has fuel j (hj j hj')

theorem walk_list {js : List WireId} (h : ∀ j ∈ js, ∃ fuel, walk st fuel j = some (.ok true)) :
    ∃ fuel, ∀ j ∈ js, walk st fuel j = some (.ok true) := by
  induction js with
  | nil => exact ⟨0, by simp⟩
  | cons j js ih =>
    obtain ⟨a, ha⟩ := h j (by simp)
    obtain ⟨b, hb⟩ := ih fun k hk => h k (by simp [hk])
    refine ⟨max a b, ?_⟩
    intro k hk
    rcases List.mem_cons.mp hk with rfl | hk
    · exact walk_mono (Nat.le_max_left _ _) ha
    · exact walk_mono (Nat.le_max_right _ _) (hb k hk)

theorem walk_true_iff {i : WireId} : (∃ fuel, walk st fuel i = some (.ok true)) ↔ Has st i := by
  constructor
  · rintro ⟨fuel, h⟩; exact walk_true_has fuel i h
  · intro h
    induction h with
    | mk i js hs _ ih =>
      obtain ⟨fuel, hf⟩ := walk_list ih
      exact ⟨fuel + 1, by rw [walk, hs]; exact walkL_true.mpr ⟨js, rfl, hf⟩⟩

/-- If something asks for `k` and returns, then `k` has returned. -/
theorem next_returns {fuel : Nat} {i k : WireId} {r} (hn : Next st i (some k))
    (h : walk st (fuel + 1) i = some r) : ∃ s, walk st fuel k = some s := by
  obtain ⟨pre, post, hs, hp⟩ := hn
  rw [walk, hs] at h
  cases hk : walk st fuel k with
  | some s => exact ⟨s, rfl⟩
  | none =>
    exfalso
    have : walkL (walk st fuel) (pre ++ some k :: post) = none := by
      clear hs h
      induction pre with
      | nil => simp [walkL, hk]
      | cons p pre ih =>
        obtain ⟨j, rfl, hj⟩ := hp p (by simp)
        rw [List.cons_append, walkL]
        cases hw : walk st fuel j with
        | none => rfl
        | some e =>
          obtain ⟨b, hb⟩ := walk_true_iff.mpr hj
          cases walk_det hw hb
          exact ih fun q hq => hp q (by simp [hq])
    have h' : walkL (walk st fuel) (pre ++ some k :: post) = some r := h
    rw [this] at h'; cases h'

/-- If something asks for `k`, and `k` comes to something other than a default, then so does it. -/
theorem next_same {i k : WireId} {b : Nat} {r} (hn : Next st i (some k)) (h : walk st b k = some r)
    (hr : r ≠ .ok true) : ∃ fuel, walk st fuel i = some r := by
  obtain ⟨pre, post, hs, hp⟩ := hn
  have : ∃ fuel, ∀ p ∈ pre, ∃ j, p = some j ∧ walk st fuel j = some (.ok true) := by
    have : ∃ js : List WireId, pre = js.map some ∧ ∀ j ∈ js, Has st j := by
      clear hs
      induction pre with
      | nil => exact ⟨[], rfl, by simp⟩
      | cons p pre ih =>
        obtain ⟨j, rfl, hj⟩ := hp p (by simp)
        obtain ⟨js, rfl, hjs⟩ := ih fun q hq => hp q (by simp [hq])
        exact ⟨j :: js, rfl, by simpa using ⟨hj, hjs⟩⟩
    obtain ⟨js, rfl, hjs⟩ := this
    obtain ⟨fuel, hf⟩ := walk_list fun j hj => walk_true_iff.mpr (hjs j hj)
    refine ⟨fuel, fun p hpm => ?_⟩
    obtain ⟨j, hj, rfl⟩ := List.mem_map.mp hpm
    exact ⟨j, rfl, hf j hj⟩
  obtain ⟨a, ha⟩ := this
  refine ⟨max a b + 1, ?_⟩
  rw [walk, hs]
  show walkL (walk st (max a b)) (pre ++ some k :: post) = some r
  rw [walkL_append fun p hpm => by
    obtain ⟨j, e, hj⟩ := ha p hpm
    exact ⟨j, e, walk_mono (Nat.le_max_left _ _) hj⟩]
  rw [walkL, walk_mono (Nat.le_max_right a b) h]
  match r with
  | .panic => rfl
  | .ok false => rfl
  | .ok true => exact absurd rfl hr

theorem asked_same {i j : WireId} (ha : Asked st i j) {b : Nat} {r} (h : walk st b j = some r)
    (hr : r ≠ .ok true) : ∃ fuel, walk st fuel i = some r := by
  induction ha generalizing b with
  | refl => exact ⟨b, h⟩
  | step j k _ hn ih =>
    obtain ⟨fuel, hf⟩ := next_same hn h hr
    exact ih hf

theorem Asked.head {i j k : WireId} (hn : Next st i (some j)) (ha : Asked st j k) : Asked st i k := by
  induction ha with
  | refl => exact .step i j .refl hn
  | step a b _ hab ih => exact .step a b ih hab

theorem Asked.trans {i j k : WireId} (h1 : Asked st i j) (h2 : Asked st j k) : Asked st i k := by
  induction h2 with
  | refl => exact h1
  | step a b _ hab ih => exact .step a b ih hab

/-- One step of the machine: it is done, or what it comes to is what the next one comes to. -/
theorem walk_step (fuel : Nat) (i : WireId) :
    (walk st (fuel + 1) i = some (.ok true)) ∨ (walk st (fuel + 1) i = some (.ok false) ∧ st i = .refused) ∨
      (walk st (fuel + 1) i = some .panic ∧ (st i = .broken ∨ Next st i none)) ∨
      ∃ k, Next st i (some k) ∧ walk st (fuel + 1) i = walk st fuel k := by
  rw [walk]
  cases hs : st i with
  | refused => exact .inr (.inl ⟨rfl, rfl⟩)
  | broken => exact .inr (.inr (.inl ⟨rfl, .inl rfl⟩))
  | parts os =>
    have hp : ∀ {pre : List (Option WireId)}, (∀ p ∈ pre, ∃ k, p = some k ∧ walk st fuel k = some (.ok true)) →
        ∀ p ∈ pre, ∃ k, p = some k ∧ Has st k := by
      intro pre h p hp
      obtain ⟨k, e, hk⟩ := h p hp
      exact ⟨k, e, walk_true_has fuel k hk⟩
    rcases walkL_cases (walk st fuel) os with h | ⟨pre, o, post, rfl, h, ⟨rfl, hw⟩ | ⟨k, rfl, hw, _⟩⟩
    · exact .inl h
    · exact .inr (.inr (.inl ⟨hw, .inr ⟨pre, post, hs, hp h⟩⟩))
    · exact .inr (.inr (.inr ⟨k, ⟨pre, post, hs, hp h⟩, hw⟩))

theorem walk_false : ∀ fuel i, walk st fuel i = some (.ok false) → Lacks st i
  | 0, _, h => by cases h
  | fuel + 1, i, h => by
    rcases walk_step (st := st) fuel i with e | ⟨_, e⟩ | ⟨e, _⟩ | ⟨k, hk, e⟩
    · rw [h] at e; simp at e
    · exact ⟨i, .refl, e⟩
    · rw [h] at e; simp at e
    · obtain ⟨j, hj, hr⟩ := walk_false fuel k (e ▸ h)
      exact ⟨j, hj.head hk, hr⟩

theorem walk_false_iff {i : WireId} : (∃ fuel, walk st fuel i = some (.ok false)) ↔ Lacks st i := by
  constructor
  · rintro ⟨fuel, h⟩; exact walk_false fuel i h
  · rintro ⟨j, hj, hr⟩
    exact asked_same hj (b := 1) (by rw [walk, hr]) (by simp)

theorem walk_panic : ∀ fuel i, walk st fuel i = some .panic → Panics st i
  | 0, _, h => by cases h
  | fuel + 1, i, h => by
    rcases walk_step (st := st) fuel i with e | ⟨e, _⟩ | ⟨_, e⟩ | ⟨k, hk, e⟩
    · rw [h] at e; simp at e
    · rw [h] at e; simp at e
    · exact ⟨i, .refl, e⟩
    · obtain ⟨j, hj, hr⟩ := walk_panic fuel k (e ▸ h)
      exact ⟨j, hj.head hk, hr⟩

theorem walk_panic_iff {i : WireId} : (∃ fuel, walk st fuel i = some .panic) ↔ Panics st i := by
  constructor
  · rintro ⟨fuel, h⟩; exact walk_panic fuel i h
  · rintro ⟨j, hj, hr | ⟨pre, post, hs, hp⟩⟩
    · exact asked_same hj (b := 1) (by rw [walk, hr]) (by simp)
    · have : ∃ js : List WireId, pre = js.map some ∧ ∀ j ∈ js, Has st j := by
        clear hs
        induction pre with
        | nil => exact ⟨[], rfl, by simp⟩
        | cons p pre ih =>
          obtain ⟨j, rfl, hj⟩ := hp p (by simp)
          obtain ⟨js, rfl, hjs⟩ := ih fun q hq => hp q (by simp [hq])
          exact ⟨j :: js, rfl, by simpa using ⟨hj, hjs⟩⟩
      obtain ⟨js, rfl, hjs⟩ := this
      obtain ⟨fuel, hf⟩ := walk_list fun j hj => walk_true_iff.mpr (hjs j hj)
      refine asked_same hj (b := fuel + 1) (r := .panic) ?_ (by simp)
      rw [walk, hs]
      show walkL (walk st fuel) (js.map some ++ none :: post) = some .panic
      rw [walkL_append]
      · rfl
      · intro p hpm
        obtain ⟨j, hj, rfl⟩ := List.mem_map.mp hpm
        exact ⟨j, rfl, hf j hj⟩

/-- In a circle nothing ever returns. -/
theorem circles_stuck : ∀ fuel {i : WireId}, Circles st i → walk st fuel i = none
  | 0, _, _ => rfl
  | fuel + 1, i, h => by
    have : ∃ k, Next st i (some k) ∧ Circles st k := by
      obtain ⟨j, k, hij, hjk, hkj⟩ := h
      have head : ∀ {a b : WireId}, Asked st a b → a = b ∨ ∃ c, Next st a (some c) ∧ Asked st c b := by
        intro a b hab
        induction hab with
        | refl => exact .inl rfl
        | step b c _ hbc ih =>
          rcases ih with rfl | ⟨d, hd, hdb⟩
          · exact .inr ⟨c, hbc, .refl⟩
          · exact .inr ⟨d, hd, .step b c hdb hbc⟩
      rcases head hij with rfl | ⟨c, hc, hcj⟩
      · exact ⟨k, hjk, i, k, hkj, hjk, hkj⟩
      · exact ⟨c, hc, j, k, hcj, hjk, hkj⟩
    obtain ⟨k, hn, hk⟩ := this
    cases hw : walk st (fuel + 1) i with
    | none => rfl
    | some r =>
      obtain ⟨s, hs⟩ := next_returns hn hw
      rw [circles_stuck fuel hk] at hs; cases hs

/-- Not having returned at a call depth means that there is a chain of that many questions. -/
theorem stuck_chain : ∀ fuel {i : WireId}, walk st fuel i = none →
    ∃ l : List WireId, l.length = fuel ∧ (∀ j ∈ l, ∃ os, st j = .parts os) ∧
      l.Pairwise (fun a b => ∃ c, Next st a (some c) ∧ Asked st c b) ∧ (∀ j ∈ l, Asked st i j)
  | 0, i, _ => ⟨[], rfl, by simp, .nil, by simp⟩
  | fuel + 1, i, h => by
    rcases walk_step (st := st) fuel i with e | ⟨e, _⟩ | ⟨e, _⟩ | ⟨k, hk, e⟩
    · rw [h] at e; cases e
    · rw [h] at e; cases e
    · rw [h] at e; cases e
    · obtain ⟨l, hl, hs, hp, ha⟩ := stuck_chain fuel (e ▸ h : walk st fuel k = none)
      refine ⟨i :: l, by simp [hl], ?_, ?_, ?_⟩
      · intro j hj
        rcases List.mem_cons.mp hj with rfl | hj
        · obtain ⟨pre, post, hs, _⟩ := hk
          exact ⟨_, hs⟩
        · exact hs j hj
      · exact List.pairwise_cons.mpr ⟨fun j hj => ⟨k, hk, ha j hj⟩, hp⟩
      · intro j hj
        rcases List.mem_cons.mp hj with rfl | hj
        · exact .refl
        · exact (ha j hj).head hk

/-- If only the ids in `keys` have parts, then whatever returns does so at a call depth of at most one
more than there are such ids. -/
theorem stuck_circles {keys : List WireId} (hk : ∀ i os, st i = .parts os → i ∈ keys) {i : WireId}
    (h : walk st (keys.length + 1) i = none) : Circles st i := by
  obtain ⟨l, hl, hs, hp, ha⟩ := stuck_chain _ h
  have hd : ¬ l.Nodup := by
    intro hn
    have hsub : l ⊆ keys := fun j hj => by
      obtain ⟨os, ho⟩ := hs j hj
      exact hk j os ho
    have := (List.subperm_of_subset hn hsub).length_le
    omega
  obtain ⟨j, hj⟩ : ∃ j ∈ l, ∃ c, Next st j (some c) ∧ Asked st c j := by
    clear hl h hs ha
    induction l with
    | nil => exact absurd List.nodup_nil hd
    | cons a l ih =>
      rw [List.pairwise_cons] at hp
      by_cases hm : a ∈ l
      · exact ⟨a, by simp, hp.1 a hm⟩
      · obtain ⟨j, hj, hc⟩ := ih hp.2 (fun hn => hd (List.nodup_cons.mpr ⟨hm, hn⟩))
        exact ⟨j, by simp [hj], hc⟩
  obtain ⟨hjl, c, h1, h2⟩ := hj
  exact ⟨j, c, ha j hjl, h1, h2⟩


/-! ## The nodes -/

theorem bmGet_find_str {α} {l : List (String × α)} (hs : BMSorted strCmp l) (k : String) :
    bmGet strCmp k l = (l.find? (fun p => p.1 = k)).map (·.2) := by
  cases hf : l.find? (fun p => decide (p.1 = k)) with
  | none =>
    rw [Option.map_none, bmGet_str_none hs]
    intro hm
    obtain ⟨p, hp, rfl⟩ := List.mem_map.mp hm
    have := List.find?_eq_none.mp hf p hp
    simp at this
  | some p =>
    rw [Option.map_some, bmGet_str_iff hs]
    have h1 := List.find?_some hf
    simp only [decide_eq_true_eq] at h1
    rw [← h1]
    exact List.mem_of_find?_eq_some hf

theorem listed_eq {names : List String} {fields : List (String × WireNamed)} (hs : BMSorted strCmp fields) :
    wireFieldTypes names fields = listedFields names fields := by
  simp only [wireFieldTypes, listedFields, bmGet_find_str hs]

theorem wireDescriptor_sorted {x : WireDescriptor} (hx : x.Storable) : BMSorted compare x.graph := by
  unfold BMSorted
  exact hx.2.1.imp fun h => Nat.compare_eq_lt.2 h

theorem wireDescriptor_get {x : WireDescriptor} (hx : x.Storable) {i : WireId} {o : Option WireNode} :
    bmGet compare i x.graph = some o ↔ (i, o) ∈ x.graph := by
  rw [bmGet_iff natCmpOn (by simp) (wireDescriptor_sorted hx) trivial]
  simp [Nat.compare_eq_eq]

theorem wireDescriptor_node {x : WireDescriptor} (hx : x.Storable) {i : WireId} {n : WireNode} :
    x.node i = some n ↔ (i, some n) ∈ x.graph := by
  rw [← wireDescriptor_get hx, WireDescriptor.node]
  constructor
  · intro h
    split at h
    · next m hm => cases h; exact hm
    · cases h
  · intro h; rw [h]

theorem wireDescriptor_find {x : WireDescriptor} (hx : x.Storable) (i : WireId) :
    (x.graph.find? (fun p => p.1 = i)).map (·.2) = bmGet compare i x.graph := by
  cases hf : x.graph.find? (fun p => decide (p.1 = i)) with
  | none =>
    cases hb : bmGet compare i x.graph with
    | none => rfl
    | some o =>
      have := List.find?_eq_none.mp hf _ ((wireDescriptor_get hx).mp hb)
      simp at this
  | some p =>
    symm
    rw [Option.map_some, wireDescriptor_get hx]
    have h1 := List.find?_some hf
    simp only [decide_eq_true_eq] at h1
    rw [← h1]
    exact List.mem_of_find?_eq_some hf

theorem wireDescriptor_need {x : WireDescriptor} (hx : x.Storable) (cap : Option Nat) (i : WireId) :
    x.need cap i = match x.node i with
      | none => .broken
      | some n => n.need cap := by
  rw [WireDescriptor.need, WireDescriptor.node, ← wireDescriptor_find hx]
  cases x.graph.find? (fun p => decide (p.1 = i)) with
  | none => rfl
  | some p =>
    obtain ⟨j, o⟩ := p
    cases o <;> rfl

theorem wireDescriptor_storable {x : WireDescriptor} (hx : x.Storable) {i : WireId} {n : WireNode}
    (h : x.node i = some n) : n.Storable :=
  (hx.2.2 _ ((wireDescriptor_node hx).mp h)).2 n rfl

theorem need_keys {x : WireDescriptor} (hx : x.Storable) {cap : Option Nat} {i : WireId} {os}
    (h : x.need cap i = .parts os) : i ∈ x.graph.map (·.1) := by
  rw [wireDescriptor_need hx] at h
  cases hn : x.node i with
  | none => rw [hn] at h; cases h
  | some n => exact List.mem_map.mpr ⟨_, (wireDescriptor_node hx).mp hn, rfl⟩

/-! ## `has_default_value` -/

theorem wireHasPos_eq (f : WireId → Option (Ends Bool)) : ∀ is : List WireId,
    wireHasPos f is = walkL f (is.map some)
  | [] => rfl
  | i :: is => by
    rw [wireHasPos, List.map_cons, walkL]
    match f i with
    | none => rfl
    | some .panic => rfl
    | some (.ok false) => rfl
    | some (.ok true) => exact wireHasPos_eq f is

theorem wireHasNamed_eq (f : WireId → Option (Ends Bool)) : ∀ ds : List (Option WireNamed),
    wireHasNamed f ds = walkL f (ds.map (Option.map (·.id)))
  | [] => rfl
  | none :: _ => rfl
  | some d :: ds => by
    rw [wireHasNamed, List.map_cons, Option.map_some, walkL]
    match f d.id with
    | none => rfl
    | some .panic => rfl
    | some (.ok false) => rfl
    | some (.ok true) => exact wireHasNamed_eq f ds

theorem walkL_one (f : WireId → Option (Ends Bool)) (i : WireId) : walkL f [some i] = f i := by
  rw [walkL]
  match f i with
  | none => rfl
  | some .panic => rfl
  | some (.ok false) => rfl
  | some (.ok true) => rfl

theorem wireHas_eq {x : WireDescriptor} (hx : x.Storable) : ∀ fuel i,
    wireHas x fuel i = walk (x.need none) fuel i
  | 0, _ => rfl
  | fuel + 1, i => by
    have IH : wireHas x fuel = walk (x.need none) fuel := funext (wireHas_eq hx fuel)
    rw [wireHas, walk, wireDescriptor_need hx]
    cases hn : x.node i with
    | none => rfl
    | some n =>
      have hs := wireDescriptor_storable hx hn
      rw [IH]
      cases n with
      | struct n => simp only [WireNode.need]; rw [listed_eq hs.1.1, wireHasNamed_eq]
      | tupleStruct n => simp only [WireNode.need]; rw [wireHasPos_eq, List.map_map]; rfl
      | tuple n => simp only [WireNode.need]; rw [wireHasPos_eq, List.map_map]; rfl
      | enum n =>
        simp only [WireNode.need]
        cases hv : n.variants with
        | nil => rfl
        | cons v vs =>
          have hsv := hs.1 v (by rw [hv]; simp)
          cases v with
          | struct v =>
            simp only [wireHasVariant, WireVariant.parts]
            rw [listed_eq hsv.1.1, wireHasNamed_eq]
          | tuple v => simp only [wireHasVariant, WireVariant.parts]; rw [wireHasPos_eq, List.map_map]; rfl
          | unit v => rfl
      | list n => rfl
      | array n => simp only [WireNode.need]; rw [walkL_one]
      | map n => rfl
      | scalar k => rfl
      | «opaque» n =>
        simp only [WireNode.need]
        cases n.defaultValue <;> simp [walkL]

/-! ## `default_value` -/

/-- Whether there is a default. -/
def Ends.shape {α : Type} : Ends (Option α) → Ends Bool
  | .ok o => .ok o.isSome
  | .panic => .panic

theorem shape_wrap {α β : Type} (mk : α → β) (r : Option (Ends (Option α))) :
    (Ends.wrap mk r).map Ends.shape = r.map Ends.shape := by
  match r with
  | none => rfl
  | some .panic => rfl
  | some (.ok none) => rfl
  | some (.ok (some a)) => rfl

theorem shape_pos (f : WireId → Option (Ends (Option Value))) : ∀ is : List WireId,
    (wireDefaultPos f is).map Ends.shape = walkL (fun i => (f i).map Ends.shape) (is.map some)
  | [] => rfl
  | i :: is => by
    rw [wireDefaultPos, List.map_cons, walkL]
    match f i with
    | none => rfl
    | some .panic => rfl
    | some (.ok none) => rfl
    | some (.ok (some v)) =>
      simp only [Option.map_some, Ends.shape, Option.isSome_some]
      rw [← shape_pos f is]
      match wireDefaultPos f is with
      | none => rfl
      | some .panic => rfl
      | some (.ok none) => rfl
      | some (.ok (some vs)) => rfl

theorem shape_named (f : WireId → Option (Ends (Option Value))) : ∀ ds : List (Option WireNamed),
    (wireDefaultNamed f ds).map Ends.shape =
      walkL (fun i => (f i).map Ends.shape) (ds.map (Option.map (·.id)))
  | [] => rfl
  | none :: _ => rfl
  | some d :: ds => by
    rw [wireDefaultNamed, List.map_cons, Option.map_some, walkL]
    match f d.id with
    | none => rfl
    | some .panic => rfl
    | some (.ok none) => rfl
    | some (.ok (some v)) =>
      simp only [Option.map_some, Ends.shape, Option.isSome_some]
      rw [← shape_named f ds]
      match wireDefaultNamed f ds with
      | none => rfl
      | some .panic => rfl
      | some (.ok none) => rfl
      | some (.ok (some vs)) => rfl

theorem wireDefault_eq {cap : Nat} {x : WireDescriptor} (hx : x.Storable) : ∀ fuel i,
    (wireDefault cap x fuel i).map Ends.shape = walk (x.need (some cap)) fuel i
  | 0, _ => rfl
  | fuel + 1, i => by
    have IH : (fun i => (wireDefault cap x fuel i).map Ends.shape) = walk (x.need (some cap)) fuel :=
      funext (wireDefault_eq hx fuel)
    rw [wireDefault, walk, wireDescriptor_need hx]
    cases hn : x.node i with
    | none => rfl
    | some n =>
      have hs := wireDescriptor_storable hx hn
      cases n with
      | struct n =>
        simp only [WireNode.need]
        rw [shape_wrap, listed_eq hs.1.1, shape_named, IH]
      | tupleStruct n =>
        simp only [WireNode.need]
        rw [shape_wrap, shape_pos, IH, List.map_map]; rfl
      | tuple n =>
        simp only [WireNode.need]
        rw [shape_wrap, shape_pos, IH, List.map_map]; rfl
      | enum n =>
        simp only [WireNode.need]
        cases hv : n.variants with
        | nil => rfl
        | cons v vs =>
          have hsv := hs.1 v (by rw [hv]; simp)
          cases v with
          | struct v =>
            simp only [wireDefaultVariant, WireVariant.parts]
            rw [shape_wrap, listed_eq hsv.1.1, shape_named, IH]
          | tuple v =>
            simp only [wireDefaultVariant, WireVariant.parts]
            rw [shape_wrap, shape_pos, IH, List.map_map]; rfl
          | unit v => rfl
      | list n => rfl
      | array n =>
        simp only [WireNode.need]
        by_cases hl : n.len ≤ cap
        · rw [if_pos hl, if_neg (by omega), shape_wrap, shape_pos, IH, List.map_replicate]
        · rw [if_neg hl, if_pos (by omega)]; rfl
      | map n => rfl
      | scalar k => rfl
      | «opaque» n =>
        simp only [WireNode.need]
        cases n.defaultValue <;> simp [walkL, Ends.shape]

theorem bmInsert_str_put {α} (k : String) (v : α) (l : List (String × α)) :
    bmInsert strCmp k v l = bmPut strCmp k v l := by
  induction l with
  | nil => rfl
  | cons p r ih =>
    obtain ⟨k', v'⟩ := p
    rw [bmInsert, bmPut]
    cases h : strCmp k k' with
    | lt => rfl
    | eq => rw [(strCmp_eq_iff ..).mp h]
    | gt => simp only [ih]

theorem bmOfList_collect_str {α} (l : List (String × α)) : bmOfList strCmp l = bmCollect strCmp l := by
  simp only [bmOfList, bmCollect, bmInsert_str_put]

theorem record_iff {ds : List WireNamed} {vs : List Value} {names fs} :
    Record ds vs names fs ↔ ds.length = vs.length ∧
      (svOfList ((ds.map (·.name)).zip vs)) = (names, fs) := by
  rw [Record, svOfList_eq, Prod.mk.injEq, bmOfList_collect_str]
  constructor
  · rintro ⟨hl, rfl, hc⟩
    refine ⟨hl, List.map_fst_zip (by simp [hl]), ((collected_iff strCmpOn).mp hc).symm⟩
  · rintro ⟨hl, rfl, rfl⟩
    have e : ((ds.map (·.name)).zip vs).map (·.1) = ds.map (·.name) := List.map_fst_zip (by simp [hl])
    refine ⟨hl, e, ?_⟩
    rw [e]
    exact (collected_iff strCmpOn).mpr rfl

theorem wrap_some {α β : Type} {mk : α → β} {r : Option (Ends (Option α))} {b : β} :
    Ends.wrap mk r = some (.ok (some b)) ↔ ∃ a, r = some (.ok (some a)) ∧ mk a = b := by
  match r with
  | none => simp [Ends.wrap]
  | some .panic => simp [Ends.wrap]
  | some (.ok none) => simp [Ends.wrap]
  | some (.ok (some a)) => simp [Ends.wrap]

theorem wirePos_some {f : WireId → Option (Ends (Option Value))} {is : List WireId} {vs : List Value} :
    wireDefaultPos f is = some (.ok (some vs)) ↔ is.length = vs.length ∧
      ∀ p ∈ is.zip vs, f p.1 = some (.ok (some p.2)) := by
  induction is generalizing vs with
  | nil => cases vs <;> simp [wireDefaultPos]
  | cons i is ih =>
    rw [wireDefaultPos]
    constructor
    · intro h
      split at h
      · cases h
      · cases h
      · cases h
      · next v hv =>
        split at h
        · cases h
        · cases h
        · cases h
        · next ws hw =>
          cases h
          obtain ⟨h1, h2⟩ := ih.mp hw
          refine ⟨by simp [h1], ?_⟩
          intro p hp
          rw [List.zip_cons_cons, List.mem_cons] at hp
          rcases hp with rfl | hp
          · exact hv
          · exact h2 p hp
    · rintro ⟨hl, h⟩
      cases vs with
      | nil => simp at hl
      | cons v vs =>
        have h1 := h (i, v) (by simp)
        have h2 := ih.mpr ⟨by simpa using hl, fun p hp => h p (by simp [hp])⟩
        simp only at h1
        rw [h1, h2]

theorem wireNamed_some {f : WireId → Option (Ends (Option Value))} {os : List (Option WireNamed)}
    {l : List (String × Value)} :
    wireDefaultNamed f os = some (.ok (some l)) ↔ ∃ (ds : List WireNamed) (vs : List Value),
      os = ds.map some ∧ l = (ds.map (·.name)).zip vs ∧
      wireDefaultPos f (ds.map (·.id)) = some (.ok (some vs)) := by
  induction os generalizing l with
  | nil =>
    constructor
    · intro h; cases h; exact ⟨[], [], rfl, rfl, rfl⟩
    · rintro ⟨ds, vs, h, rfl, _⟩
      cases ds with
      | nil => rfl
      | cons _ _ => cases h
  | cons o os ih =>
    cases o with
    | none =>
      constructor
      · intro h; cases h
      · rintro ⟨ds, vs, h, _⟩; cases ds <;> simp at h
    | some d =>
      rw [wireDefaultNamed]
      constructor
      · intro h
        split at h
        · cases h
        · cases h
        · cases h
        · next v hv =>
          split at h
          · cases h
          · cases h
          · cases h
          · next ws hw =>
            cases h
            obtain ⟨ds, vs, rfl, rfl, h3⟩ := ih.mp hw
            refine ⟨d :: ds, v :: vs, rfl, rfl, ?_⟩
            rw [List.map_cons, wireDefaultPos, hv, h3]
      · rintro ⟨ds, vs, h, rfl, h3⟩
        cases ds with
        | nil => cases h
        | cons d' ds =>
          simp only [List.map_cons, List.cons.injEq, Option.some.injEq] at h
          obtain ⟨rfl, rfl⟩ := h
          have h3' := wirePos_some.mp h3
          cases vs with
          | nil => simp at h3'
          | cons v vs =>
            have h1 := h3'.2 (d.id, v) (by simp)
            simp only at h1
            have h2 : wireDefaultNamed f (ds.map some) = some (.ok (some ((ds.map (·.name)).zip vs))) :=
              ih.mpr ⟨ds, vs, rfl, rfl, wirePos_some.mpr ⟨by simpa using h3'.1, fun p hp => h3'.2 p (by simp [hp])⟩⟩
            rw [h1, h2]
            rfl

/-- One step: the default of a type in terms of those of its parts. -/
theorem wireDefault_some {cap : Nat} {x : WireDescriptor} (hx : x.Storable) {fuel : Nat} {i : WireId}
    {v : Value} : wireDefault cap x (fuel + 1) i = some (.ok (some v)) ↔
      ∃ (n : WireNode) (js : List WireId) (vs : List Value), (i, some n) ∈ x.graph ∧ n.need (some cap) = .parts (js.map some) ∧
        js.length = vs.length ∧ (∀ p ∈ js.zip vs, wireDefault cap x fuel p.1 = some (.ok (some p.2))) ∧
        MadeOf n vs v := by
  have inj : ∀ {a b : List WireId}, Need.parts (a.map some) = Need.parts (b.map some) → a = b := by
    intro a b h
    rw [Need.parts.injEq] at h
    exact (List.map_injective_iff.mpr (Option.some_injective _)) h
  have named : ∀ {names : List String} {fields : List (String × WireNamed)} {l}, BMSorted strCmp fields →
      (wireDefaultNamed (wireDefault cap x fuel) (wireFieldTypes names fields) = some (.ok (some l)) ↔
        ∃ (ds : List WireNamed) (vs : List Value), listedFields names fields = ds.map some ∧
          l = (ds.map (·.name)).zip vs ∧
          wireDefaultPos (wireDefault cap x fuel) (ds.map (·.id)) = some (.ok (some vs))) := by
    intro names fields l hs
    rw [listed_eq hs, wireNamed_some]
  have ids : ∀ {ds : List WireNamed}, (ds.map some).map (Option.map (·.id)) = (ds.map (·.id)).map some := by
    intro ds; simp [Function.comp_def]
  have un : ∀ {fs : List WireUnnamed}, (fs.map fun f => some f.id) = (fs.map (·.id)).map some := by
    intro fs; simp [Function.comp_def]
  rw [wireDefault]
  cases hn : x.node i with
  | none =>
    constructor
    · intro h; simp at h
    · rintro ⟨n, _, _, hm, _⟩
      rw [(wireDescriptor_node hx).mpr hm] at hn; cases hn
  | some n =>
    have hs := wireDescriptor_storable hx hn
    have hm := (wireDescriptor_node hx).mp hn
    have uniq : ∀ {n'}, (i, some n') ∈ x.graph → n' = n := by
      intro n' h
      rw [← wireDescriptor_node hx, hn] at h
      exact (Option.some.inj h).symm
    cases n with
    | struct n =>
      simp only [wrap_some, named hs.1.1]
      constructor
      · rintro ⟨l, ⟨ds, vs, h1, rfl, h3⟩, rfl⟩
        obtain ⟨h4, h5⟩ := wirePos_some.mp h3
        refine ⟨_, ds.map (·.id), vs, hm, ?_, h4, h5, ?_⟩
        · simp only [WireNode.need, h1, ids]
        · exact .struct n ds vs _ _ h1 (record_iff.mpr ⟨by simpa using h4, rfl⟩)
      · rintro ⟨_, js, vs, hm', h1, h2, h3, h4⟩
        cases uniq hm'
        cases h4 with
        | struct _ ds _ names fs h5 h6 =>
          simp only [WireNode.need, h5, ids] at h1
          obtain rfl := inj h1
          obtain ⟨_, h7⟩ := record_iff.mp h6
          exact ⟨_, ⟨ds, vs, h5, rfl, wirePos_some.mpr ⟨h2, h3⟩⟩, by rw [h7]⟩
    | tupleStruct n =>
      simp only [wrap_some]
      constructor
      · rintro ⟨vs, h3, rfl⟩
        obtain ⟨h4, h5⟩ := wirePos_some.mp h3
        exact ⟨_, n.fields.map (·.id), vs, hm, by simp only [WireNode.need, un], h4, h5, .tupleStruct n vs⟩
      · rintro ⟨_, js, vs, hm', h1, h2, h3, h4⟩
        cases uniq hm'
        cases h4
        simp only [WireNode.need, un] at h1
        obtain rfl := inj h1
        exact ⟨_, wirePos_some.mpr ⟨h2, h3⟩, rfl⟩
    | tuple n =>
      simp only [wrap_some]
      constructor
      · rintro ⟨vs, h3, rfl⟩
        obtain ⟨h4, h5⟩ := wirePos_some.mp h3
        exact ⟨_, n.fields.map (·.id), vs, hm, by simp only [WireNode.need, un], h4, h5, .tuple n vs⟩
      · rintro ⟨_, js, vs, hm', h1, h2, h3, h4⟩
        cases uniq hm'
        cases h4
        simp only [WireNode.need, un] at h1
        obtain rfl := inj h1
        exact ⟨_, wirePos_some.mpr ⟨h2, h3⟩, rfl⟩
    | enum n =>
      cases hv : n.variants with
      | nil =>
        simp only [hv]
        constructor
        · intro h; simp at h
        · rintro ⟨_, js, vs, hm', h1, _⟩
          cases uniq hm'
          simp only [WireNode.need, hv] at h1
          cases h1
      | cons w ws =>
        have hsv := hs.1 w (by rw [hv]; simp)
        simp only [hv]
        cases w with
        | struct w =>
          simp only [wireDefaultVariant, wrap_some, named hsv.1.1]
          constructor
          · rintro ⟨l, ⟨ds, vs, h1, rfl, h3⟩, rfl⟩
            obtain ⟨h4, h5⟩ := wirePos_some.mp h3
            refine ⟨_, ds.map (·.id), vs, hm, ?_, h4, h5, ?_⟩
            · simp only [WireNode.need, hv, WireVariant.parts, h1, ids]
            · exact .structVariant n w ws ds vs _ _ hv h1 (record_iff.mpr ⟨by simpa using h4, rfl⟩)
          · rintro ⟨_, js, vs, hm', h1, h2, h3, h4⟩
            cases uniq hm'
            cases h4 with
            | structVariant _ w' ws' ds _ names fs h0 h5 h6 =>
              rw [hv] at h0; cases h0
              simp only [WireNode.need, hv, WireVariant.parts, h5, ids] at h1
              obtain rfl := inj h1
              obtain ⟨_, h7⟩ := record_iff.mp h6
              exact ⟨_, ⟨ds, vs, h5, rfl, wirePos_some.mpr ⟨h2, h3⟩⟩, by rw [h7]⟩
            | tupleVariant _ w' ws' _ h0 => rw [hv] at h0; cases h0
            | unitVariant _ w' ws' h0 => rw [hv] at h0; cases h0
        | tuple w =>
          simp only [wireDefaultVariant, wrap_some]
          constructor
          · rintro ⟨vs, h3, rfl⟩
            obtain ⟨h4, h5⟩ := wirePos_some.mp h3
            exact ⟨_, w.fields.map (·.id), vs, hm, by simp only [WireNode.need, hv, WireVariant.parts, un],
              h4, h5, .tupleVariant n w ws vs hv⟩
          · rintro ⟨_, js, vs, hm', h1, h2, h3, h4⟩
            cases uniq hm'
            cases h4 with
            | structVariant _ w' ws' ds _ names fs h0 => rw [hv] at h0; cases h0
            | tupleVariant _ w' ws' _ h0 =>
              rw [hv] at h0; cases h0
              simp only [WireNode.need, hv, WireVariant.parts, un] at h1
              obtain rfl := inj h1
              exact ⟨_, wirePos_some.mpr ⟨h2, h3⟩, rfl⟩
            | unitVariant _ w' ws' h0 => rw [hv] at h0; cases h0
        | unit w =>
          simp only [wireDefaultVariant]
          constructor
          · intro h
            simp only [Option.some.injEq, Ends.ok.injEq] at h
            subst h
            exact ⟨_, [], [], hm, by simp only [WireNode.need, hv, WireVariant.parts, List.map_nil], rfl,
              by simp, .unitVariant n w ws hv⟩
          · rintro ⟨_, js, vs, hm', h1, h2, h3, h4⟩
            cases uniq hm'
            cases h4 with
            | structVariant _ w' ws' ds _ names fs h0 => rw [hv] at h0; cases h0
            | tupleVariant _ w' ws' _ h0 => rw [hv] at h0; cases h0
            | unitVariant _ w' ws' h0 => rw [hv] at h0; cases h0; rfl
    | list n =>
      constructor
      · intro h
        simp only [Option.some.injEq, Ends.ok.injEq] at h
        subst h
        exact ⟨_, [], [], hm, rfl, rfl, by simp, .list n⟩
      · rintro ⟨_, js, vs, hm', h1, h2, h3, h4⟩
        cases uniq hm'
        cases h4; rfl
    | array n =>
      by_cases hl : n.len ≤ cap
      · simp only [if_pos hl, wrap_some]
        have e : (WireNode.array n).need (some cap) = .parts ((List.replicate n.len n.elem).map some) := by
          simp only [WireNode.need, if_neg (show ¬ cap < n.len by omega), List.map_replicate]
        constructor
        · rintro ⟨vs, h3, rfl⟩
          obtain ⟨h4, h5⟩ := wirePos_some.mp h3
          exact ⟨_, _, vs, hm, e, h4, h5, .array n vs⟩
        · rintro ⟨_, js, vs, hm', h1, h2, h3, h4⟩
          cases uniq hm'
          cases h4
          rw [e] at h1
          obtain rfl := inj h1
          exact ⟨_, wirePos_some.mpr ⟨h2, h3⟩, rfl⟩
      · simp only [if_neg hl]
        constructor
        · intro h; simp at h
        · rintro ⟨_, js, vs, hm', h1, _⟩
          cases uniq hm'
          simp only [WireNode.need, if_pos (show cap < n.len by omega)] at h1
          cases h1
    | map n =>
      constructor
      · intro h
        simp only [Option.some.injEq, Ends.ok.injEq] at h
        subst h
        exact ⟨_, [], [], hm, rfl, rfl, by simp, .map n⟩
      · rintro ⟨_, js, vs, hm', h1, h2, h3, h4⟩
        cases uniq hm'
        cases h4; rfl
    | scalar k =>
      constructor
      · intro h
        simp only [Option.some.injEq, Ends.ok.injEq] at h
        subst h
        exact ⟨_, [], [], hm, rfl, rfl, by simp, .scalar k⟩
      · rintro ⟨_, js, vs, hm', h1, h2, h3, h4⟩
        cases uniq hm'
        cases h4; rfl
    | «opaque» n =>
      constructor
      · intro h
        simp only [Option.some.injEq, Ends.ok.injEq] at h
        exact ⟨_, [], [], hm, by simp [WireNode.need, h], rfl, by simp, .opaque n v h⟩
      · rintro ⟨_, js, vs, hm', h1, h2, h3, h4⟩
        cases uniq hm'
        cases h4 with
        | «opaque» _ _ h => simp only [h]

theorem wireDefault_succ {cap : Nat} {x : WireDescriptor} (hx : x.Storable) : ∀ fuel i v,
    wireDefault cap x fuel i = some (.ok (some v)) → wireDefault cap x (fuel + 1) i = some (.ok (some v))
  | 0, _, _, h => by cases h
  | fuel + 1, i, v, h => by
    rw [wireDefault_some hx] at h ⊢
    obtain ⟨n, js, vs, h1, h2, h3, h4, h5⟩ := h
    exact ⟨n, js, vs, h1, h2, h3, fun p hp => wireDefault_succ hx fuel _ _ (h4 p hp), h5⟩

theorem wireDefault_mono {cap : Nat} {x : WireDescriptor} (hx : x.Storable) {a b : Nat} (hab : a ≤ b) {i v}
    (h : wireDefault cap x a i = some (.ok (some v))) : wireDefault cap x b i = some (.ok (some v)) := by
  induction hab with
  | refl => exact h
  | step _ ih => exact wireDefault_succ hx _ _ _ ih

theorem wireDefault_sound {cap : Nat} {x : WireDescriptor} (hx : x.Storable) : ∀ fuel i v,
    wireDefault cap x fuel i = some (.ok (some v)) → HasDefaultOf cap x i v
  | 0, _, _, h => by cases h
  | fuel + 1, i, v, h => by
    rw [wireDefault_some hx] at h
    obtain ⟨n, js, vs, h1, h2, h3, h4, h5⟩ := h
    exact .mk i n js vs v h1 h2 h3 (fun p hp => wireDefault_sound hx fuel _ _ (h4 p hp)) h5

theorem wireDefault_list {cap : Nat} {x : WireDescriptor} (hx : x.Storable) {l : List (WireId × Value)}
    (h : ∀ p ∈ l, ∃ fuel, wireDefault cap x fuel p.1 = some (.ok (some p.2))) :
    ∃ fuel, ∀ p ∈ l, wireDefault cap x fuel p.1 = some (.ok (some p.2)) := by
  induction l with
  | nil => exact ⟨0, by simp⟩
  | cons j js ih =>
    obtain ⟨a, ha⟩ := h j (by simp)
    obtain ⟨b, hb⟩ := ih fun k hk => h k (by simp [hk])
    refine ⟨max a b, ?_⟩
    intro k hk
    rcases List.mem_cons.mp hk with rfl | hk
    · exact wireDefault_mono hx (Nat.le_max_left _ _) ha
    · exact wireDefault_mono hx (Nat.le_max_right _ _) (hb k hk)

theorem wireDefault_complete {cap : Nat} {x : WireDescriptor} (hx : x.Storable) {i v}
    (h : HasDefaultOf cap x i v) : ∃ fuel, wireDefault cap x fuel i = some (.ok (some v)) := by
  induction h with
  | mk i n js vs v h1 h2 h3 _ h5 ih =>
    obtain ⟨fuel, hf⟩ := wireDefault_list hx ih
    exact ⟨fuel + 1, (wireDefault_some hx).mpr ⟨n, js, vs, h1, h2, h3, hf, h5⟩⟩



/-! ## The model of the views of built descriptors -/

/-- Not returning and panicking are one there. -/
def Ends.strip {α : Type} : Option (Ends α) → Option α
  | some (.ok a) => some a
  | _ => none

theorem strip_wrap {α β : Type} (mk : α → β) (r : Option (Ends (Option α))) :
    Ends.strip (Ends.wrap mk r) = (Ends.strip r).map (Option.map mk) := by
  match r with
  | none => rfl
  | some .panic => rfl
  | some (.ok none) => rfl
  | some (.ok (some a)) => rfl

theorem strip_pos {F : Ty → Option (Option Value)} {f : WireId → Option (Ends (Option Value))}
    (h : ∀ i, F (wireTy i) = Ends.strip (f i)) : ∀ is : List WireId,
    defaultPos F (is.map wireTy) = Ends.strip (wireDefaultPos f is)
  | [] => rfl
  | i :: is => by
    rw [List.map_cons, defaultPos, wireDefaultPos, h i, strip_pos h is]
    match f i with
    | none => rfl
    | some .panic => rfl
    | some (.ok none) => rfl
    | some (.ok (some v)) =>
      match wireDefaultPos f is with
      | none => rfl
      | some .panic => rfl
      | some (.ok none) => rfl
      | some (.ok (some vs)) => rfl

theorem strip_hasPos {F : Ty → Option Bool} {f : WireId → Option (Ends Bool)}
    (h : ∀ i, F (wireTy i) = Ends.strip (f i)) : ∀ is : List WireId,
    hasPos F (is.map wireTy) = Ends.strip (wireHasPos f is)
  | [] => rfl
  | i :: is => by
    rw [List.map_cons, hasPos, wireHasPos, h i]
    match f i with
    | none => rfl
    | some .panic => rfl
    | some (.ok false) => rfl
    | some (.ok true) => exact strip_hasPos h is

theorem bmGet_map_val {α β : Type} (g : α → β) (k : String) (l : List (String × α)) :
    bmGet strCmp k (l.map fun p => (p.1, g p.2)) = (bmGet strCmp k l).map g := by
  induction l with
  | nil => rfl
  | cons p r ih =>
    obtain ⟨k', v⟩ := p
    rw [List.map_cons, bmGet, bmGet, ih]
    cases strCmp k k' <;> rfl

theorem namedTypes_wire (names : List String) (fields : List (String × WireNamed)) :
    namedTypes names (fields.map fun p => (p.1, wireTy p.2.id)) =
      names.map fun n => (n, (bmGet strCmp n fields).map fun d => wireTy d.id) := by
  simp only [namedTypes, bmGet_map_val fun d : WireNamed => wireTy d.id]

theorem strip_named {F : Ty → Option (Option Value)} {f : WireId → Option (Ends (Option Value))}
    (h : ∀ i, F (wireTy i) = Ends.strip (f i)) {fields : List (String × WireNamed)}
    (hs : BMSorted strCmp fields) (ha : NamesAgree fields) : ∀ names : List String,
    defaultNamed F (namedTypes names (fields.map fun p => (p.1, wireTy p.2.id))) =
      Ends.strip (wireDefaultNamed f (wireFieldTypes names fields)) := by
  intro names
  rw [namedTypes_wire, wireFieldTypes]
  induction names with
  | nil => rfl
  | cons n names ih =>
    rw [List.map_cons, List.map_cons]
    cases hg : bmGet strCmp n fields with
    | none => rfl
    | some d =>
      have hd : d.name = n := (ha _ ((bmGet_str_iff hs).mp hg)).symm
      rw [Option.map_some, defaultNamed, wireDefaultNamed, h d.id, ih, hd]
      match f d.id with
      | none => rfl
      | some .panic => rfl
      | some (.ok none) => rfl
      | some (.ok (some v)) =>
        match wireDefaultNamed f (names.map fun n => bmGet strCmp n fields) with
        | none => rfl
        | some .panic => rfl
        | some (.ok none) => rfl
        | some (.ok (some vs)) => rfl

theorem strip_hasNamed {F : Ty → Option Bool} {f : WireId → Option (Ends Bool)}
    (h : ∀ i, F (wireTy i) = Ends.strip (f i)) {fields : List (String × WireNamed)} :
    ∀ names : List String,
    hasNamed F (namedTypes names (fields.map fun p => (p.1, wireTy p.2.id))) =
      Ends.strip (wireHasNamed f (wireFieldTypes names fields)) := by
  intro names
  rw [namedTypes_wire, wireFieldTypes]
  induction names with
  | nil => rfl
  | cons n names ih =>
    rw [List.map_cons, List.map_cons]
    cases hg : bmGet strCmp n fields with
    | none => rfl
    | some d =>
      rw [Option.map_some, hasNamed, wireHasNamed, h d.id]
      match f d.id with
      | none => rfl
      | some .panic => rfl
      | some (.ok false) => rfl
      | some (.ok true) => exact ih

theorem wire_nav_node {x : WireDescriptor} (i : WireId) :
    x.nav.graph.node (wireTy i) = (x.node i).map (WireNode.nav wireTy) := by
  simp only [TypeGraph.node, WireDescriptor.nav, WireDescriptor.navGraph, wireTy, WireDescriptor.node]
  match bmGet compare i x.graph with
  | none => rfl
  | some none => rfl
  | some (some n) => rfl

theorem unnamed_nav (fs : List WireUnnamed) :
    (fs.map fun f => wireTy f.id) = (fs.map (·.id)).map wireTy := by simp [Function.comp_def]

theorem strip_default {cap : Nat} {x : WireDescriptor} (hx : x.Storable)
    (hp : ∀ i n, (i, some n) ∈ x.graph → n.Plain cap) : ∀ fuel i,
    defaultValue x.nav.graph fuel (wireTy i) = Ends.strip (wireDefault cap x fuel i)
  | 0, _ => rfl
  | fuel + 1, i => by
    have IH := strip_default hx hp fuel
    rw [defaultValue, wireDefault, wire_nav_node]
    cases hn : x.node i with
    | none => rfl
    | some n =>
      have hs := wireDescriptor_storable hx hn
      have hpl := hp i n ((wireDescriptor_node hx).mp hn)
      rw [Option.map_some]
      cases n with
      | struct n =>
        simp only [WireNode.nav]
        rw [strip_wrap, strip_named IH hs.1.1 hpl]
      | tupleStruct n => simp only [WireNode.nav]; rw [strip_wrap, unnamed_nav, strip_pos IH]
      | tuple n => simp only [WireNode.nav]; rw [strip_wrap, unnamed_nav, strip_pos IH]
      | enum n =>
        simp only [WireNode.nav]
        cases hv : n.variants with
        | nil => rfl
        | cons w ws =>
          have hsv := hs.1 w (by rw [hv]; simp)
          have hpv := hpl w (by rw [hv]; simp)
          cases w with
          | struct w =>
            simp only [List.map_cons, WireVariant.nav, defaultVariant, wireDefaultVariant]
            rw [strip_wrap, strip_named IH hsv.1.1 (hpv _ rfl)]
          | tuple w =>
            simp only [List.map_cons, WireVariant.nav, defaultVariant, wireDefaultVariant]
            rw [strip_wrap, unnamed_nav, strip_pos IH]
          | unit w => rfl
      | list n => rfl
      | array n =>
        simp only [WireNode.nav]
        rw [if_pos (show n.len ≤ cap from hpl), strip_wrap, ← strip_pos IH, List.map_replicate]
      | map n => rfl
      | scalar k => rfl
      | «opaque» n =>
        have : n.defaultValue = none := hpl
        simp only [WireNode.nav, this]
        rfl

theorem strip_has {cap : Nat} {x : WireDescriptor}  (hx : x.Storable)
    (hp : ∀ i n, (i, some n) ∈ x.graph → n.Plain cap) : ∀ fuel i,
    hasDefault x.nav.graph fuel (wireTy i) = Ends.strip (wireHas x fuel i)
  | 0, _ => rfl
  | fuel + 1, i => by
    have IH := strip_has hx hp fuel
    rw [hasDefault, wireHas, wire_nav_node]
    cases hn : x.node i with
    | none => rfl
    | some n =>
      have hpl := hp i n ((wireDescriptor_node hx).mp hn)
      rw [Option.map_some]
      cases n with
      | struct n => simp only [WireNode.nav]; rw [strip_hasNamed IH]
      | tupleStruct n => simp only [WireNode.nav]; rw [unnamed_nav, strip_hasPos IH]
      | tuple n => simp only [WireNode.nav]; rw [unnamed_nav, strip_hasPos IH]
      | enum n =>
        simp only [WireNode.nav]
        cases hv : n.variants with
        | nil => rfl
        | cons w ws =>
          cases w with
          | struct w =>
            simp only [List.map_cons, WireVariant.nav, hasVariant, wireHasVariant]
            rw [strip_hasNamed IH]
          | tuple w =>
            simp only [List.map_cons, WireVariant.nav, hasVariant, wireHasVariant]
            rw [unnamed_nav, strip_hasPos IH]
          | unit w => rfl
      | list n => rfl
      | array n => simp only [WireNode.nav]; exact IH n.elem
      | map n => rfl
      | scalar k => rfl
      | «opaque» n =>
        have : n.defaultValue = none := hpl
        simp only [WireNode.nav, this]
        rfl

/-! ## `has_default_value` against `default_value` -/

theorem has_fields (x : WireDescriptor) (cap : Nat) {i : WireId} {os} (h : x.need none i = .parts os) :
    x.need (some cap) i = .parts os ∨ ∃ n, (i, some (WireNode.array n)) ∈ x.graph ∧ os = [some n.elem] ∧
      x.need (some cap) i = if cap < n.len then .broken else .parts (List.replicate n.len (some n.elem)) := by
  unfold WireDescriptor.need at h ⊢
  cases hf : x.graph.find? (fun p => decide (p.1 = i)) with
  | none => rw [hf] at h; cases h
  | some p =>
    have h1 := List.find?_some hf
    simp only [decide_eq_true_eq] at h1
    have hm := List.mem_of_find?_eq_some hf
    obtain ⟨j, o⟩ := p
    rw [hf] at h
    simp only at h1
    subst h1
    cases o with
    | none => cases h
    | some n =>
      cases n with
      | array n =>
        simp only [WireNode.need, Need.parts.injEq] at h
        exact .inr ⟨n, hm, h.symm, rfl⟩
      | _ => exact .inl h

theorem has_default_or {x : WireDescriptor} {cap : Nat} {i : WireId} (h : Has (x.need none) i) :
    Has (x.need (some cap)) i ∨ ∃ j n, Asked (x.need (some cap)) i j ∧
      (j, some (.array n)) ∈ x.graph ∧ cap < n.len := by
  induction h with
  | mk i js hs _ ih =>
    have go : ∀ (js pre : List WireId) (post : List (Option WireId)),
        (∀ j ∈ js, Has (x.need (some cap)) j ∨ ∃ k n, Asked (x.need (some cap)) j k ∧
          (k, some (.array n)) ∈ x.graph ∧ cap < n.len) →
        (∀ j ∈ pre, Has (x.need (some cap)) j) →
        x.need (some cap) i = .parts (pre.map some ++ js.map some) →
        Has (x.need (some cap)) i ∨ ∃ k n, Asked (x.need (some cap)) i k ∧
          (k, some (.array n)) ∈ x.graph ∧ cap < n.len := by
      intro js
      induction js with
      | nil =>
        intro pre _ _ hp hn
        rw [List.map_nil, List.append_nil] at hn
        exact .inl (.mk i pre hn hp)
      | cons j js ihl =>
        intro pre post hj hp hn
        rcases hj j (by simp) with h | ⟨k, n, hk, hm, hl⟩
        · refine ihl (pre ++ [j]) post (fun a ha => hj a (by simp [ha])) ?_ ?_
          · intro a ha
            rcases List.mem_append.mp ha with ha | ha
            · exact hp a ha
            · rw [List.mem_singleton.mp ha]; exact h
          · rw [hn]; simp
        · refine .inr ⟨k, n, hk.head ⟨pre.map some, js.map some, ?_, ?_⟩, hm, hl⟩
          · rw [hn]; simp
          · intro p hpm
            obtain ⟨a, ha, rfl⟩ := List.mem_map.mp hpm
            exact ⟨a, rfl, hp a ha⟩
    rcases has_fields x cap hs with hn | ⟨n, hm, ho, hn⟩
    · exact go js [] [] ih (by simp) hn
    · by_cases hl : cap < n.len
      · exact .inr ⟨i, n, .refl, hm, hl⟩
      · rw [if_neg hl] at hn
        have hjs : js = [n.elem] := by
          have : js.map some = [n.elem].map some := ho
          exact (List.map_injective_iff.mpr (Option.some_injective _)) this
        subst hjs
        refine go (List.replicate n.len n.elem) [] [] ?_ (by simp) (by rw [hn]; simp)
        intro j hj
        rw [List.eq_of_mem_replicate hj]
        exact ih n.elem (by simp)


end Mirror
