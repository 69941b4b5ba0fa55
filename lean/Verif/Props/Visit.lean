import Verif.Lemmas.Visit
import Verif.Lemmas.Demo
import Verif.Props.Views
import Verif.Props.TypePath
import Verif.Props.TypeInfo

set_option linter.unusedSimpArgs false

/-!
# `try_visit` (C41, C42)
-/

namespace Mirror

variable {E : Env}

/-! ## C41: every leaf once, in order, no panic -/

/-- C41. Visiting a value with its own type calls the visitor on each leaf once, in declaration order, as
long as the visitor accepts, and does nothing else; in particular it does not panic. Missing for the full
property: tuple structs and tuple variants with a skipped field before a reflected one, for which it
fails (`try_visit_panics_on_misplaced_skip`). -/
theorem try_visit_all_leaves_partial (hD : DeclsOK E) (hS : SkipsLast E) {fuel t d}
    (h : describe E fuel t = some d) {x : Obj} (hx : HasTy E t x) :
    ∃ l, Leaves E t x l ∧
      ∀ (σ ε : Type) (v : Visitor σ ε) (s : σ), tryVisit d.graph v d.root x s = runVisit v l s := by
  obtain ⟨node, hn⟩ := descriptor_closed hD h .root
  have hr := descriptor_root hD h
  have hx' : HasTy E d.root x := by rw [hr]; exact hasTy_unbox.mpr hx
  obtain ⟨l, h1, h2⟩ := tryVisit_leaves hD (describe_graphOK hD h) hn hx' (hx'.noGaps hS)
  exact ⟨l, leaves_unbox (hr ▸ h1), h2⟩

/-- C41: no panic. -/
theorem try_visit_never_panics_partial (hD : DeclsOK E) (hS : SkipsLast E) {fuel t d}
    (h : describe E fuel t = some d) {x : Obj} (hx : HasTy E t x) {σ ε : Type} (v : Visitor σ ε)
    (s s' : σ) : tryVisit d.graph v d.root x s ≠ .panic s' := by
  obtain ⟨l, _, h2⟩ := try_visit_all_leaves_partial hD hS h hx
  rw [h2]; exact runVisit_not_panic v l s s'

/-- C41, as seen by a visitor that records what it is called with: it ends with exactly the leaves. -/
theorem try_visit_records_partial (hD : DeclsOK E) (hS : SkipsLast E) {fuel t d}
    (h : describe E fuel t = some d) {x : Obj} (hx : HasTy E t x) :
    ∃ l, Leaves E t x l ∧
      tryVisit (ε := Empty) d.graph (fun a (s : List Leaf) => (none, s ++ [a])) d.root x [] = .ok l := by
  obtain ⟨l, h1, h2⟩ := try_visit_all_leaves_partial hD hS h hx
  refine ⟨l, h1, ?_⟩
  rw [h2]
  have : ∀ (l s : List Leaf), runVisit (ε := Empty) (fun a (s : List Leaf) => (none, s ++ [a])) l s =
      .ok (s ++ l) := by
    intro l
    induction l with
    | nil => intro s; simp [runVisit]
    | cons a r ih => intro s; simp [runVisit, ih]
  exact this l []

/-- C41 fails for every tuple struct with a skipped field in front of a reflected one: visiting any value
panics, unless the visitor fails first. -/
theorem try_visit_panics_on_misplaced_skip (hD : DeclsOK E) {fuel t d} (h : describe E fuel t = some d)
    {n fds c} (hd : E.decl n = some ⟨.tupleStruct fds, c⟩) {i j : Nat} {fd fd' : FieldDef}
    (hi : fds[i]? = some fd) (hj : fds[j]? = some fd') (hs : fd.skip = true) (hs' : fd'.skip = false)
    (hij : i < j) (hnav : Nav d.graph d.root (.named n)) {x : Obj} (hx : HasTy E (.named n) x)
    {σ ε : Type} (v : Visitor σ ε) (hv : ∀ a s, (v a s).1 = none) (s : σ) :
    ∃ s', tryVisit d.graph v (.named n) x s = .panic s' := by
  obtain ⟨fields, k, u, hn, hk, hnone⟩ := tuple_struct_type_info_misfits hD h hd hi hj hs hs' hij hnav
  have hnone := hnone x hx
  rw [tryVisit_loop hn (by simp) (by simp)]
  have hrun : ∀ (l : List Leaf) s, ∃ s', runVisit v l s = .ok s' := by
    intro l
    induction l with
    | nil => exact fun s => ⟨s, rfl⟩
    | cons a r ih =>
      intro s
      have := hv a s
      rcases hh : v a s with ⟨_ | e, s₁⟩
      · obtain ⟨s', h'⟩ := ih s₁
        exact ⟨s', by rw [runVisit, hh]; exact h'⟩
      · simp [hh] at this
  have loop : ∀ (st : List (Option (Ty × x.Part))) s, none ∈ st → ∃ s', visitLoop (fun st s =>
      match st with
      | none => .panic s
      | some (t, x) => tryVisit d.graph v t x.1 s) st s = .panic s' := by
    intro st
    induction st with
    | nil => intro s h; simp at h
    | cons a r ih =>
      intro s h
      cases a with
      | none => exact ⟨s, rfl⟩
      | some q =>
        obtain ⟨l, p, hp⟩ := tryVisit_plan d.graph q.1 q.2.1
        obtain ⟨s₁, hs₁⟩ := hrun l s
        rw [visitLoop]
        simp only [hp σ ε v s, hs₁, thenPanic]
        cases p with
        | true => exact ⟨s₁, rfl⟩
        | false => exact ih s₁ (by simpa using h)
  apply loop
  have hkind : x.kind = .tupleStruct := by
    obtain ⟨_, _, hk, _⟩ := tuple_struct_type_info_counts hD h hd hnav hn hx
    exact hk
  rw [visitSteps, if_pos hkind]
  refine List.mem_of_getElem? (i := k) ?_
  rw [List.getElem?_mapIdx, hk]
  simp only [Option.map_some, Option.some.injEq]
  have : ∀ r (hh : ∀ y, r = some y → sizeOf y < sizeOf x), r = none →
      visitStep (some u) (x.part r hh) = none := by
    intro r hh hr; subst hr; rfl
  exact this _ _ hnone

/-- A visitor that accepts every leaf. -/
theorem runVisit_accepts {σ ε : Type} {v : Visitor σ ε} (hv : ∀ a s, (v a s).1 = none)
    (l : List Leaf) (s : σ) : ∃ s', runVisit v l s = .ok s' := by
  induction l generalizing s with
  | nil => exact ⟨s, rfl⟩
  | cons a r ih =>
    have := hv a s
    rcases hh : v a s with ⟨_ | e, s₁⟩
    · obtain ⟨s', h'⟩ := ih s₁
      exact ⟨s', by rw [runVisit, hh]; exact h'⟩
    · simp [hh] at this

/-- C41, value by value and without a condition on the declarations: if nowhere inside the value a
skipped position comes before a reflected one, each leaf is visited once, in declaration order, and
nothing else happens. -/
theorem C41_visits_leaves (hD : DeclsOK E) {fuel t d} (h : describe E fuel t = some d) {x : Obj}
    (hx : HasTy E t x) (hg : x.NoGaps) :
    ∃ l, Leaves E t x l ∧
      ∀ (σ ε : Type) (v : Visitor σ ε) (s : σ), tryVisit d.graph v d.root x s = runVisit v l s := by
  obtain ⟨node, hn⟩ := descriptor_closed hD h .root
  have hr := descriptor_root hD h
  have hx' : HasTy E d.root x := by rw [hr]; exact hasTy_unbox.mpr hx
  obtain ⟨l, h1, h2⟩ := tryVisit_leaves hD (describe_graphOK hD h) hn hx' hg
  exact ⟨l, leaves_unbox (hr ▸ h1), h2⟩

/-- C41, the other way: if somewhere inside the value a skipped position does come before a reflected
one, every visit panics, unless the visitor fails first. -/
theorem C41_gap_panics (hD : DeclsOK E) {fuel t d} (h : describe E fuel t = some d) {x : Obj}
    (hx : HasTy E t x) (hg : ¬ x.NoGaps) {σ ε : Type} (v : Visitor σ ε)
    (hv : ∀ a s, (v a s).1 = none) (s : σ) : ∃ s', tryVisit d.graph v d.root x s = .panic s' := by
  obtain ⟨node, hn⟩ := descriptor_closed hD h .root
  have hr := descriptor_root hD h
  have hx' : HasTy E d.root x := by rw [hr]; exact hasTy_unbox.mpr hx
  obtain ⟨l, p, hp⟩ := tryVisit_plan d.graph d.root x
  obtain ⟨s', hs'⟩ := runVisit_accepts hv l s
  have hrun := hp σ ε v s
  rw [hs'] at hrun
  cases p with
  | true => exact ⟨s', hrun⟩
  | false => exact absurd (noGaps_of_tryVisit hD (describe_graphOK hD h) hn hx' hrun) hg

/-- C41, exactly: visiting a value of a described type panics for some visitor if and only if somewhere
inside the value a skipped position comes before a reflected one. -/
theorem C41_panics_iff (hD : DeclsOK E) {fuel t d} (h : describe E fuel t = some d) {x : Obj}
    (hx : HasTy E t x) :
    (∃ (σ ε : Type) (v : Visitor σ ε) (s s' : σ), tryVisit d.graph v d.root x s = .panic s') ↔
      ¬ x.NoGaps := by
  constructor
  · rintro ⟨σ, ε, v, s, s', hp⟩ hg
    obtain ⟨l, _, h2⟩ := C41_visits_leaves hD h hx hg
    rw [h2] at hp
    exact runVisit_not_panic v l s s' hp
  · intro hg
    obtain ⟨s', hs'⟩ := C41_gap_panics hD h hx hg (ε := Empty) (fun _ (s : Unit) => (none, s))
      (fun _ _ => rfl) ()
    exact ⟨Unit, Empty, _, (), s', hs'⟩

/-! ## C42: the first error stops the visit -/

/-- C42, for every value and every type, fitting or not: there is a sequence of leaves, and whether a
panic follows it, that does not depend on the visitor; either the visitor accepts all of them, or it
fails on one, all earlier ones were accepted, no later one is visited, and its error is returned. -/
theorem try_visit_stops_at_first_error (g : TypeGraph) (id : Ty) (o : Obj) :
    ∃ (l : List Leaf) (panics : Bool), ∀ (σ ε : Type) (v : Visitor σ ε) (s : σ),
      (∃ s', Accepts v l s s' ∧
        tryVisit g v id o s = (if panics then .panic s' else .ok s')) ∨
      (∃ pre a post s₁ e s₂, l = pre ++ a :: post ∧ Accepts v pre s s₁ ∧ v a s₁ = (some e, s₂) ∧
        tryVisit g v id o s = .err e s₂) := by
  obtain ⟨l, p, h⟩ := tryVisit_plan g id o
  refine ⟨l, p, fun σ ε v s => ?_⟩
  rcases runVisit_cases v l s with ⟨s', h1, h2⟩ | ⟨pre, a, post, s₁, e, s₂, h1, h2, h3, h4⟩
  · refine .inl ⟨s', h1, ?_⟩
    rw [h, h2]; cases p <;> rfl
  · refine .inr ⟨pre, a, post, s₁, e, s₂, h1, h2, h3, ?_⟩
    rw [h, h4]; rfl

/-- C42 for values of the type: the sequence is that of all leaves, and there is no panic. -/
theorem try_visit_error_or_all_partial (hD : DeclsOK E) (hS : SkipsLast E) {fuel t d}
    (h : describe E fuel t = some d) {x : Obj} (hx : HasTy E t x) {σ ε : Type} (v : Visitor σ ε) (s : σ) :
    ∃ l, Leaves E t x l ∧
      ((∃ s', Accepts v l s s' ∧ tryVisit d.graph v d.root x s = .ok s') ∨
      (∃ pre a post s₁ e s₂, l = pre ++ a :: post ∧ Accepts v pre s s₁ ∧ v a s₁ = (some e, s₂) ∧
        tryVisit d.graph v d.root x s = .err e s₂)) := by
  obtain ⟨l, h1, h2⟩ := try_visit_all_leaves_partial hD hS h hx
  refine ⟨l, h1, ?_⟩
  rw [h2]; exact runVisit_cases v l s

/-! ## Leaves are determined -/

theorem Parts.unique (hD : DeclsOK E) {t o ps ps'} (h : Parts E t o ps) (h' : Parts E t o ps') : ps = ps' := by
  cases h with
  | struct n fds c fs hd =>
    cases h' with
    | struct _ fds' c' _ hd' => rw [hd] at hd'; cases hd'; rfl
  | tupleStruct n fds c fs hd =>
    cases h' with
    | tupleStruct _ fds' c' _ hd' => rw [hd] at hd'; cases hd'; rfl
  | enumS n vds c vn fds fs hd hm =>
    cases h' with
    | enumS _ vds' c' _ fds' _ hd' hm' =>
      rw [hd] at hd'; cases hd'
      have := variantDef_unique (hD.variant_names n vds c hd) hm hm' rfl
      cases this; rfl
  | enumT n vds c vn fds fs hd hm =>
    cases h' with
    | enumT _ vds' c' _ fds' _ hd' hm' =>
      rw [hd] at hd'; cases hd'
      have := variantDef_unique (hD.variant_names n vds c hd) hm hm' rfl
      cases this; rfl
  | enumU n vds c vn hd hm => cases h'; rfl
  | tuple ts fs => cases h'; rfl
  | vec t xs => cases h'; rfl
  | array t xs =>
    generalize he : Ty.array t xs.length = q at h'
    generalize ho : Obj.array t xs = o at h'
    cases h' <;> first | (cases ho; rfl) | cases he
  | map k v kvs => cases h'; rfl

/-- A value of a type has one sequence of leaves. -/
theorem leaves_unique (hD : DeclsOK E) {t o l l'} (h : Leaves E t o l) (h' : Leaves E t o l') : l = l' := by
  have nopart : ∀ {t o ps}, Parts E t o ps → ¬ t.IsOpaque ∧ (∀ k, t ≠ .scalar k) ∧ ∀ u, t ≠ .box u := by
    intro t o ps h; cases h <;> simp [Ty.IsOpaque]
  induction h generalizing l' with
  | scalar s =>
    generalize he : Ty.scalar s.kind = q at h'
    generalize ho : Obj.scalar s = o at h'
    cases h' with
    | scalar s' => cases ho; rfl
    | «opaque» t o hk => subst he; exact absurd hk (by simp [Ty.IsOpaque])
    | box => cases he
    | parts _ _ ps ls hp => subst he; exact absurd rfl ((nopart hp).2.1 _)
  | «opaque» t o hk =>
    cases h' with
    | scalar s' => exact absurd hk (by simp [Ty.IsOpaque])
    | «opaque» _ _ _ => rfl
    | box => exact absurd hk (by simp [Ty.IsOpaque])
    | parts _ _ ps ls hp => exact absurd hk (nopart hp).1
  | box t o l _ ih =>
    cases h' with
    | «opaque» _ _ hk => exact absurd hk (by simp [Ty.IsOpaque])
    | box _ _ _ h' => exact ih h'
    | parts _ _ ps ls hp => exact absurd rfl ((nopart hp).2.2 _)
  | parts t o ps ls hp hl _ ih =>
    cases h' with
    | scalar s' => exact absurd rfl ((nopart hp).2.1 _)
    | «opaque» _ _ hk => exact absurd hk (nopart hp).1
    | box => exact absurd rfl ((nopart hp).2.2 _)
    | parts _ _ ps' ls' hp' hl' h' =>
      have := hp.unique hD hp'
      subst this
      congr 1
      apply List.ext_getElem (by omega)
      intro i h1 h2
      have hi : i < ps.length := by omega
      exact ih i _ _ (List.getElem?_eq_getElem hi) (List.getElem?_eq_getElem h1)
        (h' i _ _ (List.getElem?_eq_getElem hi) (List.getElem?_eq_getElem h2))

/-! ## Concrete cases -/

/-- A visitor that records the leaves it is called with, and fails at the second. -/
def demoVisitor : Visitor (List Leaf) String := fun a s =>
  (if s.length = 1 then some "second" else none, s ++ [a])

/-- The leaves of `Secret { a: 7, hidden, b: vec![1, 2] }` are 7, 1 and 2. -/
theorem demoSecret_leaves : Leaves demoEnv (.named "Secret") demoSecret
    [.scalar (.int .u8 7), .scalar (.int .u8 1), .scalar (.int .u8 2)] := by
  have hv : Leaves demoEnv (.vec (.scalar (.int .u8)))
      (.vec (.scalar (.int .u8)) [.scalar (.int .u8 1), .scalar (.int .u8 2)])
      [.scalar (.int .u8 1), .scalar (.int .u8 2)] := by
    refine .parts _ _ _ [[.scalar (.int .u8 1)], [.scalar (.int .u8 2)]] (.vec _ _) rfl ?_
    intro i p l hp hl
    match i with
    | 0 => simp at hp hl; subst hp hl; exact .scalar (.int .u8 _)
    | 1 => simp at hp hl; subst hp hl; exact .scalar (.int .u8 _)
    | i + 2 => simp at hl
  refine .parts _ _ _ [[.scalar (.int .u8 7)], [.scalar (.int .u8 1), .scalar (.int .u8 2)]]
    (.struct "Secret" _ false _ rfl) rfl ?_
  intro i p l hp hl
  match i with
  | 0 => simp at hp hl; subst hp hl; exact .scalar (.int .u8 _)
  | 1 => simp at hp hl; subst hp hl; exact hv
  | i + 2 => simp at hl

/-- Visiting `demoSecret` sees the three leaves; `demoVisitor` stops at the second with its error. -/
example : ∃ d, describe demoEnv 10 (.named "Secret") = some d ∧
    tryVisit (ε := Empty) d.graph (fun a (s : List Leaf) => (none, s ++ [a])) d.root demoSecret [] =
      .ok [.scalar (.int .u8 7), .scalar (.int .u8 1), .scalar (.int .u8 2)] ∧
    tryVisit d.graph demoVisitor d.root demoSecret [] =
      .err "second" [.scalar (.int .u8 7), .scalar (.int .u8 1)] := by
  obtain ⟨l, h1, h2⟩ := try_visit_all_leaves_partial demo_declsOK demo_skipsLast (fuel := 10)
    (t := .named "Secret") rfl demoSecret_hasTy
  cases leaves_unique demo_declsOK h1 demoSecret_leaves
  exact ⟨_, rfl, by rw [h2]; rfl, by rw [h2]; rfl⟩

/-- `Shifted` has a misplaced skip: visiting any value of it panics. -/
example : ∃ d s', describe shiftedEnv 10 (.named "Shifted") = some d ∧
    tryVisit (ε := Empty) d.graph (fun a (s : List Leaf) => (none, s ++ [a])) (.named "Shifted") shifted [] =
      .panic s' := by
  obtain ⟨s', h⟩ := try_visit_panics_on_misplaced_skip (E := shiftedEnv) shifted_declsOK (fuel := 10)
    (t := .named "Shifted") rfl (n := "Shifted") rfl (i := 0) (j := 1) rfl rfl rfl rfl (by omega) .root
    shifted_hasTy (ε := Empty) (fun a (s : List Leaf) => (none, s ++ [a])) (fun _ _ => rfl) []
  exact ⟨_, s', rfl, h⟩

/-- `demoSecret` meets the condition of `C41_visits_leaves`, `shifted` that of `C41_gap_panics`. -/
example : demoSecret.NoGaps ∧ ¬ shifted.NoGaps :=
  ⟨demoSecret_hasTy.noGaps demo_skipsLast, fun h => by
    have := (h.here.1 _ _ rfl) 0 1 _ _ rfl rfl
    revert this; decide⟩

end Mirror
