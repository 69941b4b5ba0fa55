import Verif.Lemmas.WireDefault
import Verif.Props.SerdeType

set_option linter.unusedSimpArgs false

/-!
# C89: the default of a type, from any descriptor

For every descriptor that the Rust type can hold, which are exactly those that can be read (C67).
-/

namespace Mirror

variable {cap : Nat} {x : WireDescriptor}

theorem shaped {fuel : Nat} {i : WireId} (hx : x.Storable) {r : Ends (Option Value)}
    (h : wireDefault cap x fuel i = some r) : walk (x.need (some cap)) fuel i = some r.shape := by
  rw [← wireDefault_eq hx, h]; rfl

theorem shaped_iff {i : WireId} (hx : x.Storable) {e : Ends Bool} :
    (∃ fuel, walk (x.need (some cap)) fuel i = some e) ↔
      ∃ fuel r, wireDefault cap x fuel i = some r ∧ r.shape = e := by
  simp only [← wireDefault_eq hx, Option.map_eq_some_iff]

/-- C89: `default_value` returns `Some(v)` exactly if `v` is put together from the defaults of the parts
in the way `MadeOf` says. -/
theorem C89_value_iff (hx : x.Storable) {i : WireId} {v : Value} :
    (∃ fuel, wireDefault cap x fuel i = some (.ok (some v))) ↔ HasDefaultOf cap x i v :=
  ⟨fun ⟨fuel, h⟩ => wireDefault_sound hx fuel i v h, wireDefault_complete hx⟩

/-- C89: `default_value` returns `Some` exactly if everything that is needed has a default. -/
theorem C89_some_iff (hx : x.Storable) {i : WireId} :
    (∃ fuel v, wireDefault cap x fuel i = some (.ok (some v))) ↔ Has (x.need (some cap)) i := by
  rw [← walk_true_iff, shaped_iff hx]
  constructor
  · rintro ⟨fuel, v, h⟩; exact ⟨fuel, _, h, rfl⟩
  · rintro ⟨fuel, r, h, hr⟩
    match r with
    | .ok (some v) => exact ⟨fuel, v, h⟩
    | .ok none => simp [Ends.shape] at hr
    | .panic => simp [Ends.shape] at hr

/-- C89: `default_value` returns `None` exactly if something that is asked for refuses. -/
theorem C89_none_iff (hx : x.Storable) {i : WireId} :
    (∃ fuel, wireDefault cap x fuel i = some (.ok none)) ↔ Lacks (x.need (some cap)) i := by
  rw [← walk_false_iff, shaped_iff hx]
  constructor
  · rintro ⟨fuel, h⟩; exact ⟨fuel, _, h, rfl⟩
  · rintro ⟨fuel, r, h, hr⟩
    match r with
    | .ok (some v) => simp [Ends.shape] at hr
    | .ok none => exact ⟨fuel, h⟩
    | .panic => simp [Ends.shape] at hr

/-- C89: `default_value` panics exactly if something that is asked for has no node, is an array that is too
long, or lists a field it does not have, after fields with defaults. -/
theorem C89_panic_iff (hx : x.Storable) {i : WireId} :
    (∃ fuel, wireDefault cap x fuel i = some .panic) ↔ Panics (x.need (some cap)) i := by
  rw [← walk_panic_iff, shaped_iff hx]
  constructor
  · rintro ⟨fuel, h⟩; exact ⟨fuel, _, h, rfl⟩
  · rintro ⟨fuel, r, h, hr⟩
    match r with
    | .ok _ => simp [Ends.shape] at hr
    | .panic => exact ⟨fuel, h⟩

/-- C89: `default_value` never returns, at whatever call depth, exactly if something that is asked for
asks for itself. -/
theorem C89_never_iff (hx : x.Storable) {i : WireId} :
    (∀ fuel, wireDefault cap x fuel i = none) ↔ Circles (x.need (some cap)) i := by
  constructor
  · intro h
    refine stuck_circles (keys := x.graph.map (·.1)) (fun j os hj => need_keys hx hj) ?_
    rw [← wireDefault_eq hx, h]; rfl
  · intro h fuel
    have := circles_stuck fuel h
    rwa [← wireDefault_eq hx, Option.map_eq_none_iff] at this

/-- C89: whatever `default_value` comes to, it does so without more nested calls than there are ids in
the graph, and one more. -/
theorem C89_depth (hx : x.Storable) {i : WireId} {fuel : Nat} {r : Ends (Option Value)}
    (h : wireDefault cap x fuel i = some r) : wireDefault cap x (x.graph.length + 1) i = some r := by
  cases hw : wireDefault cap x (x.graph.length + 1) i with
  | none =>
    have hc : Circles (x.need (some cap)) i := by
      refine stuck_circles (keys := x.graph.map (·.1)) (fun j os hj => need_keys hx hj) ?_
      rw [List.length_map, ← wireDefault_eq hx, hw]; rfl
    have := circles_stuck fuel hc
    rw [← wireDefault_eq hx, h] at this
    cases this
  | some s =>
    have e := walk_det (shaped hx h) (shaped hx hw)
    match r, s with
    | .panic, .panic => rfl
    | .ok none, .ok none => rfl
    | .ok (some v), .ok (some w) =>
      have h1 := wireDefault_mono hx (Nat.le_max_left fuel (x.graph.length + 1)) h
      have h2 := wireDefault_mono hx (Nat.le_max_right fuel (x.graph.length + 1)) hw
      rw [h1] at h2
      simp only [Option.some.injEq, Ends.ok.injEq] at h2
      rw [h2]
    | .ok none, .ok (some _) => simp [Ends.shape] at e
    | .ok (some _), .ok none => simp [Ends.shape] at e
    | .panic, .ok _ => simp [Ends.shape] at e
    | .ok _, .panic => simp [Ends.shape] at e

/-- C89: `has_default_value` returns true exactly if everything needed has a default, an array needing its
element type once whatever its length. -/
theorem C89_has_true_iff (hx : x.Storable) {i : WireId} :
    (∃ fuel, wireHas x fuel i = some (.ok true)) ↔ Has (x.need none) i := by
  simp only [wireHas_eq hx, walk_true_iff]

theorem C89_has_false_iff (hx : x.Storable) {i : WireId} :
    (∃ fuel, wireHas x fuel i = some (.ok false)) ↔ Lacks (x.need none) i := by
  simp only [wireHas_eq hx, walk_false_iff]

theorem C89_has_panic_iff (hx : x.Storable) {i : WireId} :
    (∃ fuel, wireHas x fuel i = some .panic) ↔ Panics (x.need none) i := by
  simp only [wireHas_eq hx, walk_panic_iff]

theorem C89_has_never_iff (hx : x.Storable) {i : WireId} :
    (∀ fuel, wireHas x fuel i = none) ↔ Circles (x.need none) i := by
  simp only [wireHas_eq hx]
  exact ⟨fun h => stuck_circles (keys := x.graph.map (·.1)) (fun j os hj => need_keys hx hj) (h _),
    fun h fuel => circles_stuck fuel h⟩

/-- C89: the same for `has_default_value`. -/
theorem C89_has_depth (hx : x.Storable) {i : WireId} {fuel : Nat} {r : Ends Bool}
    (h : wireHas x fuel i = some r) : wireHas x (x.graph.length + 1) i = some r := by
  rw [wireHas_eq hx] at h ⊢
  cases hw : walk (x.need none) (x.graph.length + 1) i with
  | none =>
    have hc : Circles (x.need none) i :=
      stuck_circles (keys := x.graph.map (·.1)) (fun j os hj => need_keys hx hj)
        (by rw [List.length_map]; exact hw)
    rw [circles_stuck fuel hc] at h; cases h
  | some s => rw [walk_det h hw]

/-- C89: of a type exactly one is true: it has a default, it lacks one, looking for it panics, looking for
it goes round in circles. -/
theorem C89_one_of_four (hx : x.Storable) (c : Option Nat) (i : WireId) :
    (Has (x.need c) i ∨ Lacks (x.need c) i ∨ Panics (x.need c) i ∨ Circles (x.need c) i) ∧
      ¬ (Has (x.need c) i ∧ Lacks (x.need c) i) ∧ ¬ (Has (x.need c) i ∧ Panics (x.need c) i) ∧
      ¬ (Has (x.need c) i ∧ Circles (x.need c) i) ∧ ¬ (Lacks (x.need c) i ∧ Panics (x.need c) i) ∧
      ¬ (Lacks (x.need c) i ∧ Circles (x.need c) i) ∧ ¬ (Panics (x.need c) i ∧ Circles (x.need c) i) := by
  have hne : ∀ {a b : Ends Bool}, a ≠ b → ¬ ((∃ fuel, walk (x.need c) fuel i = some a) ∧
      ∃ fuel, walk (x.need c) fuel i = some b) := by
    rintro a b hab ⟨⟨_, h1⟩, ⟨_, h2⟩⟩
    exact hab (walk_det h1 h2)
  have hnc : ∀ {a : Ends Bool}, ¬ ((∃ fuel, walk (x.need c) fuel i = some a) ∧ Circles (x.need c) i) := by
    rintro a ⟨⟨fuel, h1⟩, h2⟩
    rw [circles_stuck fuel h2] at h1; cases h1
  refine ⟨?_, ?_, ?_, ?_, ?_, ?_, ?_⟩
  · cases hw : walk (x.need c) ((x.graph.map (·.1)).length + 1) i with
    | none => exact .inr (.inr (.inr (stuck_circles (fun j os hj => need_keys hx hj) hw)))
    | some e =>
      match e with
      | .ok true => exact .inl (walk_true_iff.mp ⟨_, hw⟩)
      | .ok false => exact .inr (.inl (walk_false_iff.mp ⟨_, hw⟩))
      | .panic => exact .inr (.inr (.inl (walk_panic_iff.mp ⟨_, hw⟩)))
  · rw [← walk_true_iff, ← walk_false_iff]; exact hne (by simp)
  · rw [← walk_true_iff, ← walk_panic_iff]; exact hne (by simp)
  · rw [← walk_true_iff]; exact hnc
  · rw [← walk_false_iff, ← walk_panic_iff]; exact hne (by simp)
  · rw [← walk_false_iff]; exact hnc
  · rw [← walk_panic_iff]; exact hnc

/-- C89: if `has_default_value` returns true, `default_value` returns a value, unless an array that is asked
for is too long for a `Vec`. -/
theorem C89_has_then_some (hx : x.Storable) {i : WireId} {fuel : Nat} (h : wireHas x fuel i = some (.ok true))
    (hl : ∀ j n, Asked (x.need (some cap)) i j → (j, some (.array n)) ∈ x.graph → n.len ≤ cap) :
    ∃ fuel v, wireDefault cap x fuel i = some (.ok (some v)) := by
  rw [C89_some_iff hx]
  rcases has_default_or (cap := cap) ((C89_has_true_iff hx).mp ⟨fuel, h⟩) with h | ⟨j, n, hj, hn, hc⟩
  · exact h
  · have := hl j n hj hn; omega

/-- C89: on a descriptor without hand-written nodes this is what the model of the views of built
descriptors says, on which C38 to C40 and C76 rest. -/
theorem C89_agrees (hx : x.Storable) (hp : ∀ i n, (i, some n) ∈ x.graph → n.Plain cap) (fuel : Nat)
    (i : WireId) :
    defaultValue x.nav.graph fuel (wireTy i) =
        (match wireDefault cap x fuel i with
        | some (.ok r) => some r
        | _ => none) ∧
      hasDefault x.nav.graph fuel (wireTy i) =
        match wireHas x fuel i with
        | some (.ok b) => some b
        | _ => none := by
  refine ⟨(strip_default hx hp fuel i).trans ?_, (strip_has hx hp fuel i).trans ?_⟩
  · match wireDefault cap x fuel i with
    | none => rfl
    | some .panic => rfl
    | some (.ok r) => rfl
  · match wireHas x fuel i with
    | none => rfl
    | some .panic => rfl
    | some (.ok r) => rfl

/-! ## Size -/

/-- `n + 1` types: a scalar, and pairs of the type before. -/
def wireDouble : Nat → List (WireId × Option WireNode)
  | 0 => [(0, some (.scalar .bool))]
  | n + 1 => wireDouble n ++ [(n + 1, some (.tuple ⟨"", [⟨n, [], []⟩, ⟨n, [], []⟩], [], []⟩))]

/-- The default of the last one. -/
def doubled : Nat → Value
  | 0 => .scalar (.bool false)
  | n + 1 => .tuple [doubled n, doubled n]

theorem wireDouble_mem {n : Nat} {p : WireId × Option WireNode} : p ∈ wireDouble n ↔
    p = (0, some (.scalar .bool)) ∨ ∃ k < n,
      p = (k + 1, some (.tuple ⟨"", [⟨k, [], []⟩, ⟨k, [], []⟩], [], []⟩)) := by
  induction n with
  | zero => simp [wireDouble]
  | succ n ih =>
    rw [wireDouble, List.mem_append, ih, List.mem_singleton]
    constructor
    · rintro ((h | ⟨k, hk, h⟩) | h)
      · exact .inl h
      · exact .inr ⟨k, by omega, h⟩
      · exact .inr ⟨n, by omega, h⟩
    · rintro (h | ⟨k, hk, h⟩)
      · exact .inl (.inl h)
      · by_cases hkn : k = n
        · subst hkn; exact .inr h
        · exact .inl (.inr ⟨k, by omega, h⟩)

theorem wireDouble_storable {n : Nat} (hn : Fits64 n) : (⟨n, wireDouble n⟩ : WireDescriptor).Storable := by
  refine ⟨hn, ?_, ?_⟩
  · show (wireDouble n).Pairwise _
    clear hn
    induction n with
    | zero => simp [wireDouble]
    | succ n ih =>
      rw [wireDouble, List.pairwise_append]
      refine ⟨ih, by simp, ?_⟩
      intro p hp q hq
      rw [List.mem_singleton] at hq
      subst hq
      rcases wireDouble_mem.mp hp with rfl | ⟨k, hk, rfl⟩
      · simp
      · simp; omega
  · intro p hp
    have hp : p ∈ wireDouble n := hp
    unfold Fits64 at *
    rcases wireDouble_mem.mp hp with rfl | ⟨k, hk, rfl⟩
    · exact ⟨by simp, by intro m hm; cases hm; trivial⟩
    · refine ⟨by simp only; omega, ?_⟩
      intro m hm
      cases hm
      refine ⟨?_, by simp [MetaStorable, BMSorted]⟩
      intro f hf
      have : f = ⟨k, [], []⟩ := by simpa using hf
      subst this
      exact ⟨by unfold Fits64; simp only; omega, by simp [MetaStorable, BMSorted]⟩

/-- C89: the default can be exponentially larger than the descriptor. -/
theorem C89_exponential {n : Nat} (hn : Fits64 n) : ∃ (x : WireDescriptor) (v : Value), x.Storable ∧
    x.graph.length = n + 1 ∧ HasDefaultOf cap x x.root v ∧ 2 ^ n ≤ sizeOf v := by
  have hs := wireDouble_storable hn
  refine ⟨⟨n, wireDouble n⟩, doubled n, hs, ?_, ?_, ?_⟩
  · show (wireDouble n).length = n + 1
    clear hs hn
    induction n with
    | zero => rfl
    | succ n ih => simp [wireDouble, ih]
  · have : ∀ k ≤ n, HasDefaultOf cap ⟨n, wireDouble n⟩ k (doubled k) := by
      intro k
      induction k with
      | zero =>
        intro _
        exact .mk 0 _ [] [] _ (wireDouble_mem.mpr (.inl rfl)) rfl rfl (by simp) (.scalar .bool)
      | succ k ih =>
        intro hk
        refine .mk (k + 1) _ [k, k] [doubled k, doubled k] _ (wireDouble_mem.mpr (.inr ⟨k, hk, rfl⟩)) rfl rfl
          ?_ (.tuple _ _)
        intro p hp
        have : p = (k, doubled k) := by simpa using hp
        subst this
        exact ih (by omega)
    exact this n (Nat.le_refl n)
  · clear hs hn
    induction n with
    | zero => simp [doubled]
    | succ n ih => simp [doubled, Nat.pow_succ]; omega

/-! ## Cases -/

/-- A struct of an opaque type with a default of its own and an array of two booleans, whose fields are
listed in an order other than that of their names, one of them having another name than it is kept
under. -/
def wireHand : WireDescriptor :=
  ⟨1, [(1, some (.struct ⟨"Hand", [("a", ⟨"a", 2, [], []⟩), ("b", ⟨"c", 3, [], []⟩)], ["b", "a"], [], []⟩)),
    (2, some (.opaque ⟨"Id", [], some (.scalar (.int .i32 1337))⟩)),
    (3, some (.array ⟨"[bool; 2]", 4, 2⟩)), (4, some (.scalar .bool))]⟩

theorem wireHand_storable : wireHand.Storable := by
  refine ⟨by simp [Fits64, wireHand], by simp [wireHand], ?_⟩
  intro p hp
  simp only [wireHand, List.mem_cons, List.not_mem_nil, or_false] at hp
  rcases hp with rfl | rfl | rfl | rfl
  · refine ⟨by simp [Fits64], ?_⟩
    rintro n hn; cases hn
    refine ⟨⟨?_, ?_⟩, by simp [MetaStorable, BMSorted]⟩
    · simp only [BMSorted, List.pairwise_cons, List.mem_singleton, forall_eq]
      exact ⟨by decide, by simp⟩
    · intro p hp
      simp only [List.mem_cons, List.not_mem_nil, or_false] at hp
      rcases hp with rfl | rfl <;> exact ⟨by simp [Fits64], by simp [MetaStorable, BMSorted]⟩
  · refine ⟨by simp [Fits64], ?_⟩
    rintro n hn; cases hn
    exact ⟨by simp [MetaStorable, BMSorted], by rintro v hv; cases hv; exact .scalar _ (by simp [Scalar.Fits]; decide)⟩
  · refine ⟨by simp [Fits64], ?_⟩
    rintro n hn; cases hn
    simp [WireNode.Storable, Fits64]
  · refine ⟨by simp [Fits64], ?_⟩
    rintro n hn; cases hn; trivial

/-- Non-vacuity: its default, with the fields under the names they have. -/
example : HasDefaultOf 100 wireHand 1 (.struct ["c", "a"]
    [("a", .scalar (.int .i32 1337)), ("c", .list [.scalar (.bool false), .scalar (.bool false)])]) :=
  wireDefault_sound wireHand_storable 3 _ _ rfl

/-- And `has_default_value` says so. -/
example : wireHas wireHand 3 1 = some (.ok true) := rfl

/-- C89: with room for one value only, `default_value` panics although `has_default_value` returns true. -/
theorem C89_too_long : ∃ x : WireDescriptor, x.Storable ∧ wireHas x 3 x.root = some (.ok true) ∧
    wireDefault 1 x 3 x.root = some .panic :=
  ⟨wireHand, wireHand_storable, rfl, rfl⟩


/-- A type that needs an array of itself, without elements. -/
def wireKnot : WireDescriptor := ⟨1, [(1, some (.array ⟨"[Self; 0]", 1, 0⟩))]⟩

theorem wireKnot_storable : wireKnot.Storable := by
  refine ⟨by simp [Fits64, wireKnot], by simp [wireKnot], ?_⟩
  intro p hp
  simp only [wireKnot, List.mem_singleton] at hp
  subst hp
  refine ⟨by simp [Fits64], ?_⟩
  rintro n hn; cases hn
  simp [WireNode.Storable, Fits64]

/-- C89: `default_value` can return where `has_default_value` never does. -/
theorem C89_has_never : ∃ x : WireDescriptor, x.Storable ∧ (∀ fuel, wireHas x fuel x.root = none) ∧
    wireDefault 0 x 1 x.root = some (.ok (some (.list []))) := by
  refine ⟨wireKnot, wireKnot_storable, (C89_has_never_iff wireKnot_storable).mpr ?_, rfl⟩
  exact ⟨1, 1, .refl, ⟨[], [], rfl, by simp⟩, .refl⟩

/-- C89: a struct that contains itself, which no Rust type does, never gets a default; with the field of a
node that is not there listed first, looking for it panics; with one of a type that has none first,
there is none. -/
theorem C89_order_matters : ∃ x y z : WireDescriptor, x.Storable ∧ y.Storable ∧ z.Storable ∧
    Circles (x.need (some cap)) x.root ∧ Panics (y.need (some cap)) y.root ∧
    Lacks (z.need (some cap)) z.root := by
  have hs : ∀ ids : List WireId, (∀ i ∈ ids, Fits64 i) → (⟨1, [(1, some (.tuple ⟨"T",
      ids.map fun i => ⟨i, [], []⟩, [], []⟩)), (2, some (.enum ⟨"Never", [], [], []⟩))]⟩ :
      WireDescriptor).Storable := by
    intro ids hi
    refine ⟨by simp [Fits64], by simp, ?_⟩
    intro p hp
    simp only [List.mem_cons, List.not_mem_nil, or_false] at hp
    rcases hp with rfl | rfl
    · refine ⟨by simp [Fits64], ?_⟩
      rintro n hn; cases hn
      refine ⟨?_, by simp [MetaStorable, BMSorted]⟩
      intro f hf
      obtain ⟨i, him, rfl⟩ := List.mem_map.mp hf
      exact ⟨hi i him, by simp [MetaStorable, BMSorted]⟩
    · refine ⟨by simp [Fits64], ?_⟩
      rintro n hn; cases hn
      exact ⟨by simp, by simp [MetaStorable, BMSorted]⟩
  refine ⟨_, _, _, hs [1, 3, 2] (by simp [Fits64]), hs [3, 1, 2] (by simp [Fits64]),
    hs [2, 3, 1] (by simp [Fits64]), ?_, ?_, ?_⟩
  · exact ⟨1, 1, .refl, ⟨[], [some 3, some 2], rfl, by simp⟩, .refl⟩
  · exact ⟨3, .step 1 3 .refl ⟨[], [some 1, some 2], rfl, by simp⟩, .inl rfl⟩
  · exact ⟨2, .step 1 2 .refl ⟨[], [some 3, some 1], rfl, by simp⟩, rfl⟩



theorem ScalarKind.default_fits (k : ScalarKind) : k.default.Fits := by
  cases k with
  | int k => cases k <;> simp [ScalarKind.default, Scalar.Fits] <;> decide
  | _ => trivial

theorem record_storable {ds : List WireNamed} {vs : List Value} {names fs} (h : Record ds vs names fs)
    (hv : ∀ v ∈ vs, v.Storable) : BMSorted strCmp fs ∧ ∀ p ∈ fs, p.2.Storable := by
  obtain ⟨_, _, h1, h2⟩ := h
  refine ⟨h1, fun p hp => ?_⟩
  have := List.mem_of_find?_eq_some ((h2 p).mp hp)
  rw [List.mem_reverse] at this
  exact hv _ (List.of_mem_zip (a := p.1) (b := p.2) this).2

/-- C89: a default is a value the Rust type can hold, so that it can be written and read back (C65). -/
theorem C89_storable (hx : x.Storable) {i : WireId} {v : Value} (h : HasDefaultOf cap x i v) :
    v.Storable := by
  induction h with
  | mk i n js vs v hm _ hl _ hmade ih =>
    have hv : ∀ w ∈ vs, w.Storable := by
      intro w hw
      obtain ⟨k, hk, rfl⟩ := List.mem_iff_getElem.mp hw
      refine ih (js[k], vs[k]) ?_
      rw [List.mem_iff_getElem]
      exact ⟨k, by simp; omega, by simp⟩
    cases hmade with
    | struct n ds _ names fs _ hr =>
      obtain ⟨h1, h2⟩ := record_storable hr hv
      exact .struct _ _ h1 h2
    | tupleStruct => exact .tupleStruct _ hv
    | tuple => exact .tuple _ hv
    | structVariant n w ws ds _ names fs _ _ hr =>
      obtain ⟨h1, h2⟩ := record_storable hr hv
      exact .enumS _ _ _ h1 h2
    | tupleVariant => exact .enumT _ _ hv
    | unitVariant => exact .enumU _
    | list => exact .list _ (by simp)
    | array => exact .list _ hv
    | map => exact .map _ (by simp [BMSorted]) (by simp) (by simp)
    | scalar k => exact .scalar _ k.default_fits
    | «opaque» n w he => exact ((hx.2.2 _ hm).2 _ rfl).2 _ he



/-- The hypotheses of `C89_has_then_some`: with room for a hundred values no array that is asked for is too long. -/
example : ∃ fuel v, wireDefault 100 wireHand fuel 1 = some (.ok (some v)) := by
  refine C89_has_then_some wireHand_storable (fuel := 3) rfl fun j n _ hn => ?_
  simp only [wireHand, List.mem_cons, List.not_mem_nil, or_false, Prod.mk.injEq] at hn
  rcases hn with ⟨_, h⟩ | ⟨_, h⟩ | ⟨_, h⟩ | ⟨_, h⟩ <;> cases h
  decide

/-- The hypotheses of `C89_agrees`: the descriptors of `C89_exponential` have no hand-written nodes. -/
example (n : Nat) (hn : Fits64 n) : (⟨n, wireDouble n⟩ : WireDescriptor).Storable ∧
    ∀ i m, (i, some m) ∈ (⟨n, wireDouble n⟩ : WireDescriptor).graph → m.Plain cap := by
  refine ⟨wireDouble_storable hn, fun i m hm => ?_⟩
  rcases wireDouble_mem.mp hm with h | ⟨k, _, h⟩ <;> cases h <;> trivial

end Mirror
