import Verif.Lemmas.VisitPath
import Verif.Props.VisitAny
import Verif.Props.Path
import Verif.Props.StandIn

set_option linter.unusedSimpArgs false

/-!
# What a visit sees and what paths reach (C91)
-/

namespace Mirror

variable {E : Env}

/-- C91: what a path leads to is visited. If `type_at(p)` is a scalar or opaque type and `at(p)` finds something
there, a visit that comes to an end has seen it. This holds for any value, along any type whose structs list all
their names. -/
theorem C91_reached_is_visited {d : TypeDescriptor} (hN : NamesListed d.graph) {x : Obj} {l : List Leaf}
    (hv : VisitsAll d x l) {p : KeyPath} {a : Leaf} (h : LeafAt E d x p a) : a ∈ l :=
  leafAt_walked hN (visitsAll_iff.mp hv) h

/-- C91: the types of the crate do so. -/
theorem C91_names_listed (hD : DeclsOK E) {fuel t d} (h : describe E fuel t = some d) : NamesListed d.graph :=
  namesListed_of_ok hD (describe_graphOK hD h)

/-- C91, exactly, for a value and its own type: a visit sees the leaves that paths lead to, the leaves of the keys of
maps, and the leaves of those entries of maps that no key of a path finds; and nothing else. -/
theorem C91_visited_iff (hD : DeclsOK E) {fuel t d} (h : describe E fuel t = some d) {x : Obj} (hx : HasTy E t x)
    (hI : Indexable E x) {l : List Leaf} (hv : VisitsAll d x l) (a : Leaf) :
    a ∈ l ↔ (∃ p, LeafAt E d x p a) ∨ InMapEntry E d x a := by
  have hG := describe_graphOK hD h
  have hN := namesListed_of_ok hD hG
  have hr := descriptor_root hD h
  have hx' : HasTy E d.root x := by rw [hr]; exact hasTy_unbox.mpr hx
  have hw := visitsAll_iff.mp hv
  constructor
  · exact walked_reached hD hG hw hx' hI a
  · rintro (⟨p, hp⟩ | hm)
    · exact leafAt_walked hN hw hp
    · exact inMap_walked hN hw hm

/-- C91 for values without maps: what a visit sees and what paths lead to is the same. -/
theorem C91_no_maps (hD : DeclsOK E) {fuel t d} (h : describe E fuel t = some d) {x : Obj} (hx : HasTy E t x)
    (hI : Indexable E x) (hm : ∀ p y, atPath E x p = some y → y.kind ≠ .map) {l : List Leaf} (hv : VisitsAll d x l)
    (a : Leaf) : a ∈ l ↔ ∃ p, LeafAt E d x p a := by
  rw [C91_visited_iff hD h hx hI hv]
  refine ⟨?_, .inl⟩
  rintro (hp | ⟨p, _, _, _, y, k, v, _, hy, hkv, _⟩)
  · exact hp
  · exfalso
    have := hm p y hy
    cases y <;> simp [Obj.mapIter, Obj.kind] at hkv this

/-- C91: a value without misplaced skips has such a visit. -/
theorem C91_own (hD : DeclsOK E) {fuel t d} (h : describe E fuel t = some d) {x : Obj} (hx : HasTy E t x)
    (hg : x.NoGaps) (hI : Indexable E x) :
    ∃ l, VisitsAll d x l ∧ Leaves E t x l ∧ ∀ a, a ∈ l ↔ (∃ p, LeafAt E d x p a) ∨ InMapEntry E d x a := by
  obtain ⟨l, h1, h2⟩ := C41_visits_leaves hD h hx hg
  have hv : VisitsAll d x l := by
    have := h2 (List Leaf) Empty (fun a s => (none, s ++ [a])) []
    rw [runVisit_record] at this
    exact this
  exact ⟨l, hv, h1, C91_visited_iff hD h hx hI hv⟩

/-- C91: leaves at paths can be changed, and the change is seen. `at_mut` points to the leaf; after another scalar
has been written there, a visit that comes to an end has seen that scalar. -/
theorem C91_written_is_visited (hO : OrdLaws E) {d : TypeDescriptor} (hN : NamesListed d.graph) {t : Ty} {x : Obj}
    (hx : HasTy E t x) {p : KeyPath} (hp : KeyPath.WF p) {s : Scalar} (h : LeafAt E d x p (.scalar s)) :
    ∃ pl, atMutPath E x p = some pl ∧ pl.get.asScalar = some s ∧
      ∀ (s' : Scalar) l, VisitsAll d (pl.put (.scalar s')) l → .scalar s' ∈ l := by
  obtain ⟨id, n, y, ht, hy, hs⟩ := h
  have hm := C28_at_mut_agrees E x p
  rw [hy, Option.map_eq_some_iff] at hm
  obtain ⟨pl, hpl, rfl⟩ := hm
  rcases hs with ⟨k, s₀, rfl, hs, e⟩ | ⟨_, e⟩
  · cases e
    refine ⟨pl, hpl, hs, fun s' l hv => ?_⟩
    have hnv : ∀ v, p.getLast? = some (.variant v) → (Obj.scalar s').variantName = some v := by
      intro v hl
      exfalso
      obtain ⟨q, rfl⟩ := List.getLast?_eq_some_iff.mp hl
      simp only [TypeDescriptor.typeAt] at ht
      split at ht
      · cases ht
      · next ta _ =>
        rw [type_at_append] at ht
        obtain ⟨r, _, ht⟩ := Option.bind_eq_some_iff.mp ht
        cases r with
        | none => cases ht
        | some tb =>
          simp only at ht
          rw [typeAtGo_cons] at ht
          obtain ⟨r, hr, ht⟩ := Option.bind_eq_some_iff.mp ht
          cases r with
          | none => cases ht
          | some tc =>
            have e : tc = .ty id (.scalar k) := by simpa [TypeAt.typeAt, KeyPath.isEmpty] using ht
            subst e
            cases tb with
            | ty j m => cases m <;> simp [TypeAt.atKey] at hr
            | variant w =>
              have e : (TypeAt.variant w).atKey d.graph (.variant v) =
                some (if w.name = v then some (.variant w) else none) := by cases w <;> rfl
              rw [e] at hr
              split at hr <;> cases hr
    refine C91_reached_is_visited (E := E) hN hv (p := p) ⟨id, _, .scalar s', ht, ?_, .inl ⟨k, s', rfl, rfl, rfl⟩⟩
    exact C28_write_then_read E hO t x (.scalar s') p pl hx hp hpl ⟨_, .scalar s'⟩ hnv
  · cases e

/-! ## Non-vacuity -/

theorem indexable_of_everywhere {x : Obj} (hx : x.OK E)
    (h : x.Everywhere fun o => o.posIter.length ≤ usizeSize) : Indexable E x :=
  fun p _ hy => (everywhere_atPath p hx h hy).2.here

/-- `demoTree` has `NonZero` leaves, which are opaque, nested in a list, and a map. Its visit sees `9`, which is at
`.kids[0].val`, `2`, which is at `.names["b"]`, and the key `"b"`, to which no path leads. -/
example : ∃ d, describe demoEnv 10 (.named "Tree") = some d ∧ Indexable demoEnv demoTree ∧
    VisitsAll d demoTree [.opaque (.nonzero .u8 5) (.nonzero .u8), .opaque (.nonzero .u8 9) (.nonzero .u8),
      .scalar (.string "a"), .scalar (.int .u8 1), .scalar (.string "b"), .scalar (.int .u8 2)] ∧
    LeafAt demoEnv d demoTree [.named "kids", .get (.scalar (.int .u8 0)), .named "val"]
      (.opaque (.nonzero .u8 9) (.nonzero .u8)) ∧
    LeafAt demoEnv d demoTree [.named "names", .get (.scalar (.string "b"))] (.scalar (.int .u8 2)) ∧
    InMapEntry demoEnv d demoTree (.scalar (.string "b")) := by
  refine ⟨_, rfl, indexable_of_everywhere ⟨_, demoTree_hasTy⟩ ?_, by unfold VisitsAll; cbv, ?_, ?_, ?_⟩
  · have leaf : ∀ o : Obj, o.parts = [] → o.posIter.length ≤ usizeSize →
        o.Everywhere fun o => o.posIter.length ≤ usizeSize :=
      fun o h1 h2 => .mk _ h2 fun x hx => by rw [h1] at hx; cases hx
    refine .mk _ (by simp [demoTree, Obj.posIter]) fun x hx => ?_
    simp [demoTree, Obj.parts, visFields, Obj.isHidden] at hx
    rcases hx with rfl | rfl | rfl
    · exact leaf _ rfl (by simp [Obj.posIter])
    · refine .mk _ (by simp [Obj.posIter, usizeSize]) fun x hx => ?_
      simp [Obj.parts] at hx
      subst hx
      refine .mk _ (by simp [Obj.posIter]) fun x hx => ?_
      simp [Obj.parts, visFields, Obj.isHidden] at hx
      rcases hx with rfl | rfl | rfl
      · exact leaf _ rfl (by simp [Obj.posIter])
      · exact leaf _ rfl (by simp [Obj.posIter])
      · exact leaf _ rfl (by simp [Obj.posIter])
    · refine .mk _ (by simp [Obj.posIter]) fun x hx => ?_
      simp [Obj.parts] at hx
      rcases hx with rfl | rfl | rfl | rfl <;> exact leaf _ rfl (by simp [Obj.posIter])
  · exact ⟨.nonzero .u8, .opaque, .nonzero .u8 9, by cbv, by cbv, .inr ⟨rfl, rfl⟩⟩
  · exact ⟨.scalar (.int .u8), .scalar (.int .u8), .scalar (.int .u8 2), by cbv, by cbv, .inl ⟨_, _, rfl, rfl, rfl⟩⟩
  · exact ⟨[.named "names"], .map (.scalar .string) (.scalar (.int .u8)), .scalar .string, .scalar (.int .u8), 
      .map (.scalar .string) (.scalar (.int .u8))
        [(.scalar (.string "a"), .scalar (.int .u8 1)), (.scalar (.string "b"), .scalar (.int .u8 2))],
      .scalar (.string "b"), .scalar (.int .u8 2), by cbv, by cbv, by simp [Obj.mapIter],
      .inl ⟨[.scalar (.string "b")], by unfold VisitsAll; cbv, by simp⟩⟩

end Mirror
