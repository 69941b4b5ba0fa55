import Verif.Lemmas.Containers
import Verif.Spec.TypeInfo

set_option linter.unusedSimpArgs false

/-!
# Building the type graph
-/

namespace Mirror

variable {E : Env}

/-! ## Field maps -/

theorem namedNodes_types {fds : List FieldDef} (hn : (fds.map (·.name)).Nodup) :
    namedTypes ((visDefs fds).map (·.name)) (namedNodes fds ((visDefs fds).map fun fd => fd.ty.unbox)) =
      ((visDefs fds).map fun fd => (fd.name, some fd.ty.unbox)) ∧
    (namedNodes fds ((visDefs fds).map fun fd => fd.ty.unbox)).length = (visDefs fds).length ∧
    BMSorted strCmp (namedNodes fds ((visDefs fds).map fun fd => fd.ty.unbox)) ∧
    ∀ p ∈ namedNodes fds ((visDefs fds).map fun fd => fd.ty.unbox),
      p.2 ∈ (visDefs fds).map fun fd => fd.ty.unbox := by
  have hz : ((visDefs fds).map (·.name)).zip ((visDefs fds).map fun fd => fd.ty.unbox) =
      (visDefs fds).map fun fd => (fd.name, fd.ty.unbox) := by
    rw [List.zip_map', ]
  have hn' : (((visDefs fds).map fun fd => (fd.name, fd.ty.unbox)).map (·.1)).Nodup := by
    rw [List.map_map]
    exact ((List.filter_sublist (p := fun fd => !fd.skip) (l := fds)).map (·.name)).nodup hn
  have hp := bmOfList_str_perm hn'
  rw [namedNodes, hz]
  refine ⟨?_, ?_, bmOfList_sorted strCmpOn (by simp), ?_⟩
  · simp only [namedTypes, List.map_map]
    apply List.map_congr_left
    intro fd hfd
    simp only [Function.comp, Prod.mk.injEq, true_and]
    refine (bmGet_iff strCmpOn (by simp) (bmOfList_sorted strCmpOn (by simp)) trivial).mpr ?_
    exact ⟨fd.name, hp.mem_iff.mpr (List.mem_map.mpr ⟨fd, hfd, rfl⟩), (strCmp_eq_iff _ _).mpr rfl⟩
  · rw [hp.length_eq]; simp
  · intro p h
    obtain ⟨fd, hfd, rfl⟩ := List.mem_map.mp (hp.mem_iff.mp h)
    exact List.mem_map.mpr ⟨fd, hfd, rfl⟩

/-! ## What building does to the graph -/

/-- Ids of types reachable from `t`. -/
def Ty.ReachId (E : Env) (t i : Ty) : Prop := ∃ u, t.Reach E u ∧ i = u.unbox

/-- From `g` to `g'`: old entries are kept, new entries are finished, correct and closed. -/
structure Grow (E : Env) (R : Ty → Prop) (g g' : TypeGraph) : Prop where
  old : ∀ i, g i ≠ none → g' i = g i
  new : ∀ i, g i = none → g' i ≠ none → R i ∧ Acc (Ty.EagerComp E) i ∧
    ∃ n, g' i = some (some n) ∧ Describes E i n ∧ ∀ c ∈ n.ids, g' c ≠ none

theorem Grow.keep {R g g'} (h : Grow E R g g') {i} (hi : g i ≠ none) : g' i ≠ none := by
  rw [h.old i hi]; exact hi

theorem Grow.refl {R} (g) : Grow E R g g := ⟨fun _ _ => rfl, fun _ h h' => absurd h h'⟩

theorem Grow.trans {R g g' g''} (h : Grow E R g g') (h' : Grow E R g' g'') : Grow E R g g'' where
  old i hi := by rw [h'.old i (h.keep hi), h.old i hi]
  new i hi hi'' := by
    by_cases hm : g' i = none
    · exact h'.new i hm hi''
    · obtain ⟨r, a, n, e, d, c⟩ := h.new i hi hm
      exact ⟨r, a, n, by rw [h'.old i hm, e], d, fun j hj => h'.keep (c j hj)⟩

theorem Grow.weaken {R R' : Ty → Prop} {g g'} (h : Grow E R g g') (hr : ∀ i, R i → R' i) :
    Grow E R' g g' :=
  ⟨h.old, fun i hi hi' => by
    obtain ⟨r, q⟩ := h.new i hi hi'
    exact ⟨hr i r, q⟩⟩

/-- What is required of the recursive call. -/
def GoodBuild (E : Env) (b : TypeGraph → Ty → Option (Ty × TypeGraph)) : Prop :=
  ∀ g t id g', b g t = some (id, g') →
    Grow E (t.ReachId E) g g' ∧ id = t.unbox ∧ g' id ≠ none ∧ Acc (Ty.EagerComp E) t

theorem buildList_good {b} (hb : GoodBuild E b) : ∀ ts g ids g', buildList b g ts = some (ids, g') →
    Grow E (fun i => ∃ t ∈ ts, t.ReachId E i) g g' ∧ ids = ts.map Ty.unbox ∧
    (∀ i ∈ ids, g' i ≠ none) ∧ ∀ t ∈ ts, Acc (Ty.EagerComp E) t
  | [], g, ids, g', h => by
    simp only [buildList, Option.some.injEq, Prod.mk.injEq] at h
    obtain ⟨rfl, rfl⟩ := h
    exact ⟨.refl _, rfl, by simp, by simp⟩
  | t :: ts, g, ids, g', h => by
    simp only [buildList] at h
    split at h
    · simp at h
    · next id g1 h1 =>
      split at h
      · simp at h
      · next ids' g2 h2 =>
        simp only [Option.some.injEq, Prod.mk.injEq] at h
        obtain ⟨rfl, rfl⟩ := h
        obtain ⟨s1, rfl, p1, a1⟩ := hb _ _ _ _ h1
        obtain ⟨s2, rfl, p2, a2⟩ := buildList_good hb ts _ _ _ h2
        refine ⟨(s1.weaken ?_).trans (s2.weaken ?_), rfl, ?_, ?_⟩
        · intro i hi; exact ⟨t, by simp, hi⟩
        · rintro i ⟨u, hu, hi⟩; exact ⟨u, by simp [hu], hi⟩
        · intro i hi
          rcases List.mem_cons.mp hi with rfl | hi
          · exact s2.keep p1
          · exact p2 i hi
        · intro u hu
          rcases List.mem_cons.mp hu with rfl | hu
          · exact a1
          · exact a2 u hu

theorem comps_filter (fds : List FieldDef) :
    (fds.filter fun fd => !fd.skip).map (·.ty) = (visDefs fds).map (·.ty) := rfl

/-- Component types of a variant. -/
def variantComps : VariantDef → List Ty
  | .struct _ fds => (visDefs fds).map (·.ty)
  | .tuple _ fds => (visDefs fds).map (·.ty)
  | .unit _ => []

theorem buildVariants_good {b} (hb : GoodBuild E b) : ∀ vds g vs g',
    buildVariants b g vds = some (vs, g') →
    (∀ n fds, VariantDef.struct n fds ∈ vds → (fds.map (·.name)).Nodup) →
    Grow E (fun i => ∃ t ∈ vds.flatMap variantComps, t.ReachId E i) g g' ∧
    vs.length = vds.length ∧
    (∀ (i : Nat) vd v, vds[i]? = some vd → vs[i]? = some v → DescribesVariant vd v) ∧
    (∀ i ∈ vs.flatMap VariantNode.ids, g' i ≠ none) ∧
    ∀ t ∈ vds.flatMap variantComps, Acc (Ty.EagerComp E) t
  | [], g, vs, g', h, _ => by
    simp only [buildVariants, Option.some.injEq, Prod.mk.injEq] at h
    obtain ⟨rfl, rfl⟩ := h
    exact ⟨.refl _, rfl, by simp, by simp, by simp⟩
  | vd :: vds, g, vs, g', h, hn => by
    have hn' : ∀ n fds, VariantDef.struct n fds ∈ vds → (fds.map (·.name)).Nodup :=
      fun n fds h => hn n fds (List.mem_cons_of_mem _ h)
    -- the part common to all three cases
    suffices H : ∃ v g1 vs', buildVariants b g1 vds = some (vs', g') ∧ vs = v :: vs' ∧
        Grow E (fun i => ∃ t ∈ variantComps vd, t.ReachId E i) g g1 ∧ DescribesVariant vd v ∧
        (∀ i ∈ v.ids, g1 i ≠ none) ∧ ∀ t ∈ variantComps vd, Acc (Ty.EagerComp E) t by
      obtain ⟨v, g1, vs', h2, rfl, s1, d1, p1, a1⟩ := H
      obtain ⟨s2, l2, d2, p2, a2⟩ := buildVariants_good hb vds _ _ _ h2 hn'
      refine ⟨(s1.weaken ?_).trans (s2.weaken ?_), by simp [l2], ?_, ?_, ?_⟩
      · rintro i ⟨t, ht, hi⟩; exact ⟨t, by simp [ht], hi⟩
      · rintro i ⟨t, ht, hi⟩
        refine ⟨t, ?_, hi⟩
        rw [List.flatMap_cons, List.mem_append]; exact .inr ht
      · intro i vd' v' h1 h2
        cases i with
        | zero => simp at h1 h2; subst h1 h2; exact d1
        | succ i => simp at h1 h2; exact d2 i _ _ h1 h2
      · intro i hi
        rw [List.flatMap_cons, List.mem_append] at hi
        rcases hi with hi | hi
        · exact s2.keep (p1 i hi)
        · exact p2 i hi
      · intro t ht
        rw [List.flatMap_cons, List.mem_append] at ht
        exact ht.elim (a1 t) (a2 t)
    cases vd with
    | struct n fds =>
      simp only [buildVariants] at h
      split at h
      · simp at h
      · next ids g1 h1 =>
        split at h
        · simp at h
        · next vs' g2 h2 =>
          simp only [Option.some.injEq, Prod.mk.injEq] at h
          obtain ⟨rfl, rfl⟩ := h
          obtain ⟨s1, hids, p1, a1⟩ := buildList_good hb _ _ _ _ h1
          have hnd := namedNodes_types (hn n fds List.mem_cons_self)
          have hids' : ids = (visDefs fds).map fun fd => fd.ty.unbox := by
            rw [hids, List.map_map]; rfl
          subst hids'
          refine ⟨_, g1, vs', h2, rfl, s1, .struct n fds _ _ hnd.1 hnd.2.1 hnd.2.2.1, ?_, a1⟩
          intro i hi
          simp only [VariantNode.ids, List.mem_map] at hi
          obtain ⟨p, hp, rfl⟩ := hi
          exact p1 _ (hnd.2.2.2 p hp)
    | tuple n fds =>
      simp only [buildVariants] at h
      split at h
      · simp at h
      · next ids g1 h1 =>
        split at h
        · simp at h
        · next vs' g2 h2 =>
          simp only [Option.some.injEq, Prod.mk.injEq] at h
          obtain ⟨rfl, rfl⟩ := h
          obtain ⟨s1, hids, p1, a1⟩ := buildList_good hb _ _ _ _ h1
          have hids' : ids = (visDefs fds).map fun fd => fd.ty.unbox := by
            rw [hids, List.map_map]; rfl
          subst hids'
          exact ⟨_, g1, vs', h2, rfl, s1, .tuple n fds, p1, a1⟩
    | unit n =>
      simp only [buildVariants] at h
      split at h
      · simp at h
      · next vs' g2 h2 =>
        simp only [Option.some.injEq, Prod.mk.injEq] at h
        obtain ⟨rfl, rfl⟩ := h
        exact ⟨_, g, vs', h2, rfl, .refl _, .unit n, by simp [VariantNode.ids], by simp [variantComps]⟩

theorem getOrBuild_good {g : TypeGraph} {t id g'} {f : TypeGraph → Option (TypeNode × TypeGraph)}
    (h : getOrBuild g t f = some (id, g')) (ht : t.unbox = t) (ha : Acc (Ty.EagerComp E) t)
    (hf : ∀ n g2, f (g.set t none) = some (n, g2) →
      Grow E (t.ReachId E) (g.set t none) g2 ∧ Describes E t n ∧ ∀ c ∈ n.ids, g2 c ≠ none) :
    Grow E (t.ReachId E) g g' ∧ id = t.unbox ∧ g' id ≠ none ∧ Acc (Ty.EagerComp E) t := by
  simp only [getOrBuild] at h
  split at h
  · next e he =>
    simp only [Option.some.injEq, Prod.mk.injEq] at h
    obtain ⟨rfl, rfl⟩ := h
    exact ⟨.refl _, ht.symm, by simp [he], ha⟩
  · next he =>
    split at h
    · simp at h
    · next n g2 h2 =>
      simp only [Option.some.injEq, Prod.mk.injEq] at h
      obtain ⟨rfl, rfl⟩ := h
      obtain ⟨s, d, c⟩ := hf n g2 h2
      have hset : ∀ i, g2 i ≠ none → g2.set t (some n) i ≠ none := by
        intro i hi; simp only [TypeGraph.set]; split <;> simp [hi]
      refine ⟨⟨?_, ?_⟩, ht.symm, by simp [TypeGraph.set], ha⟩
      · intro i hi
        have hit : i ≠ t := by rintro rfl; exact hi he
        have := s.old i (by simp [TypeGraph.set, hit, hi])
        simp [TypeGraph.set, hit] at this ⊢
        exact this
      · intro i hi hi'
        by_cases hit : i = t
        · subst hit
          exact ⟨⟨i, .refl, ht.symm⟩, ha, n, by simp [TypeGraph.set], d, fun j hj => hset j (c j hj)⟩
        · obtain ⟨r, a, m, e, d', c'⟩ := s.new i (by simp [TypeGraph.set, hit, hi])
            (by simpa [TypeGraph.set, hit] using hi')
          exact ⟨r, a, m, by simp [TypeGraph.set, hit, e], d', fun j hj => hset j (c' j hj)⟩

theorem Ty.Reach.head {t u v : Ty} (h : u ∈ t.comps E) (h' : u.Reach E v) : t.Reach E v := by
  induction h' with
  | refl => exact .step _ _ .refl h
  | step a b _ hb ih => exact .step _ _ ih hb

theorem Ty.Reach.trans {t u v : Ty} (h : t.Reach E u) (h' : u.Reach E v) : t.Reach E v := by
  induction h' with
  | refl => exact h
  | step a b _ hb ih => exact .step _ _ ih hb

theorem Ty.ReachId.head {t u i : Ty} (h : u ∈ t.comps E) (h' : u.ReachId E i) : t.ReachId E i := by
  obtain ⟨v, hv, rfl⟩ := h'
  exact ⟨v, hv.head h, rfl⟩

theorem acc_of_not_eager {t : Ty} (h : ¬ t.Eager E) : Acc (Ty.EagerComp E) t :=
  ⟨_, fun _ hu => absurd hu.1 h⟩

theorem acc_of_comps {t : Ty} (h : ∀ u ∈ t.comps E, Acc (Ty.EagerComp E) u) :
    Acc (Ty.EagerComp E) t := ⟨_, fun u hu => h u hu.2⟩

theorem comps_enum {n vds c} (h : E.decl n = some ⟨.enum vds, c⟩) :
    (Ty.named n).comps E = vds.flatMap variantComps := by
  simp only [Ty.comps, h]; rfl

theorem not_eager_struct {n fds c} (h : E.decl n = some ⟨.struct fds, c⟩) :
    ¬ (Ty.named n).Eager E := by
  simp [Ty.Eager, h]

theorem build_good (hD : DeclsOK E) : ∀ fuel, GoodBuild E (build E fuel)
  | 0 => by intro g t id g' h; simp [build] at h
  | fuel + 1 => by
    have ih := build_good hD fuel
    intro g t id g' h
    have plain : ∀ (u : Ty) (n : TypeNode), u.unbox = u → ¬ u.Eager E → Describes E u n → n.ids = [] →
        getOrBuild g u (fun g => some (n, g)) = some (id, g') →
        Grow E (u.ReachId E) g g' ∧ id = u.unbox ∧ g' id ≠ none ∧ Acc (Ty.EagerComp E) u := by
      intro u n hu he hd hn h
      refine getOrBuild_good h hu (acc_of_not_eager he) ?_
      intro n' g2 h2
      simp only [Option.some.injEq, Prod.mk.injEq] at h2
      obtain ⟨rfl, rfl⟩ := h2
      exact ⟨.refl _, hd, by simp [hn]⟩
    cases t with
    | scalar k => exact plain _ _ rfl (by simp [Ty.Eager]) (.scalar k) rfl h
    | nonzero k => exact plain _ _ rfl (by simp [Ty.Eager]) (.nonzero k) rfl h
    | value => exact plain _ _ rfl (by simp [Ty.Eager]) .value rfl h
    | structValue => exact plain _ _ rfl (by simp [Ty.Eager]) .structValue rfl h
    | tupleStructValue => exact plain _ _ rfl (by simp [Ty.Eager]) .tupleStructValue rfl h
    | tupleValue => exact plain _ _ rfl (by simp [Ty.Eager]) .tupleValue rfl h
    | enumValue => exact plain _ _ rfl (by simp [Ty.Eager]) .enumValue rfl h
    | box u =>
      obtain ⟨s, e, p, a⟩ := ih g u id g' h
      have hu : u ∈ (Ty.box u).comps E := by simp [Ty.comps]
      refine ⟨s.weaken fun i hi => hi.head hu, e, p, acc_of_comps ?_⟩
      intro v hv; simp [Ty.comps] at hv; subst hv; exact a
    | vec u =>
      simp only [build] at h
      refine getOrBuild_good h rfl (acc_of_not_eager (by simp [Ty.Eager])) ?_
      intro n g2 h2
      simp only [Option.map_eq_some_iff, Prod.mk.injEq, Prod.exists] at h2
      obtain ⟨i, g3, h3, rfl, rfl⟩ := h2
      obtain ⟨s, rfl, p, a⟩ := ih _ _ _ _ h3
      refine ⟨s.weaken fun i hi => hi.head (by simp [Ty.comps]), .vec u, ?_⟩
      simpa [TypeNode.ids] using p
    | array u len =>
      simp only [build] at h
      refine getOrBuild_good h rfl (acc_of_not_eager (by simp [Ty.Eager])) ?_
      intro n g2 h2
      simp only [Option.map_eq_some_iff, Prod.mk.injEq, Prod.exists] at h2
      obtain ⟨i, g3, h3, rfl, rfl⟩ := h2
      obtain ⟨s, rfl, p, a⟩ := ih _ _ _ _ h3
      refine ⟨s.weaken fun i hi => hi.head (by simp [Ty.comps]), .array u len, ?_⟩
      simpa [TypeNode.ids] using p
    | map k v =>
      simp only [build] at h
      refine getOrBuild_good h rfl (acc_of_not_eager (by simp [Ty.Eager])) ?_
      intro n g2 h2
      split at h2
      · simp at h2
      · next kid gk hk =>
        simp only [Option.map_eq_some_iff, Prod.mk.injEq, Prod.exists] at h2
        obtain ⟨i, g3, h3, rfl, rfl⟩ := h2
        obtain ⟨sk, rfl, pk, ak⟩ := ih _ _ _ _ hk
        obtain ⟨s, rfl, p, a⟩ := ih _ _ _ _ h3
        refine ⟨(sk.weaken fun i hi => hi.head (by simp [Ty.comps])).trans
          (s.weaken fun i hi => hi.head (by simp [Ty.comps])), .map k v, ?_⟩
        simp only [TypeNode.ids, List.mem_cons, List.not_mem_nil, or_false]
        rintro c (rfl | rfl)
        · exact s.keep pk
        · exact p
    | tuple ts =>
      simp only [build] at h
      refine getOrBuild_good h rfl (acc_of_not_eager (by simp [Ty.Eager])) ?_
      intro n g2 h2
      simp only [Option.map_eq_some_iff, Prod.mk.injEq, Prod.exists] at h2
      obtain ⟨i, g3, h3, rfl, rfl⟩ := h2
      obtain ⟨s, rfl, p, a⟩ := buildList_good ih _ _ _ _ h3
      refine ⟨s.weaken ?_, .tuple ts, p⟩
      rintro i ⟨u, hu, hi⟩
      exact hi.head (by simpa [Ty.comps] using hu)
    | named n =>
      simp only [build] at h
      split at h
      · simp at h
      · next fds c hd =>
        have hc : (Ty.named n).comps E = (visDefs fds).map (·.ty) := by simp only [Ty.comps, hd]; rfl
        refine getOrBuild_good h rfl (acc_of_not_eager (not_eager_struct hd)) ?_
        intro n g2 h2
        simp only [Option.map_eq_some_iff, Prod.mk.injEq, Prod.exists] at h2
        obtain ⟨ids, g3, h3, rfl, rfl⟩ := h2
        obtain ⟨s, hids, p, a⟩ := buildList_good ih _ _ _ _ h3
        have hids' : ids = (visDefs fds).map fun fd => fd.ty.unbox := by
          rw [hids, List.map_map]; rfl
        subst hids'
        have hnd := namedNodes_types (hD.struct_names _ _ _ hd)
        refine ⟨s.weaken ?_, .struct _ fds c _ _ hd hnd.1 hnd.2.1 hnd.2.2.1, ?_⟩
        · rintro i ⟨u, hu, hi⟩
          exact hi.head (by rw [hc]; exact hu)
        · intro i hi
          simp only [TypeNode.ids, List.mem_map] at hi
          obtain ⟨q, hq, rfl⟩ := hi
          exact p _ (hnd.2.2.2 q hq)
      · next fds c hd =>
        have hc : (Ty.named n).comps E = (visDefs fds).map (·.ty) := by simp only [Ty.comps, hd]; rfl
        split at h
        · simp at h
        · next ids g1 h1 =>
          obtain ⟨s, hids, p, a⟩ := buildList_good ih _ _ _ _ h1
          have hids' : ids = (visDefs fds).map fun fd => fd.ty.unbox := by
            rw [hids, List.map_map]; rfl
          subst hids'
          have hset : ∀ i, g1 i ≠ none → g1.set (.named n) none i ≠ none := by
            intro i hi; simp only [TypeGraph.set]; split <;> simp [hi]
          obtain ⟨s2, e, q, ac⟩ := getOrBuild_good (E := E) h rfl (acc_of_comps (by rw [hc]; exact a)) (by
            intro m g2 h2
            simp only [Option.some.injEq, Prod.mk.injEq] at h2
            obtain ⟨rfl, rfl⟩ := h2
            exact ⟨.refl _, .tupleStruct n fds c hd, fun i hi => hset i (p i hi)⟩)
          refine ⟨(s.weaken ?_).trans s2, e, q, ac⟩
          rintro i ⟨u, hu, hi⟩
          exact hi.head (by rw [hc]; exact hu)
      · next vds c hd =>
        have hc := comps_enum hd
        split at h
        · simp at h
        · next vs g1 h1 =>
          obtain ⟨s, hl, d, p, a⟩ := buildVariants_good ih _ _ _ _ h1
            (fun vn fds hv => hD.variant_fields _ _ _ vn fds hd hv)
          have hset : ∀ i, g1 i ≠ none → g1.set (.named n) none i ≠ none := by
            intro i hi; simp only [TypeGraph.set]; split <;> simp [hi]
          obtain ⟨s2, e, q, ac⟩ := getOrBuild_good (E := E) h rfl (acc_of_comps (by rw [hc]; exact a)) (by
            intro m g2 h2
            simp only [Option.some.injEq, Prod.mk.injEq] at h2
            obtain ⟨rfl, rfl⟩ := h2
            exact ⟨.refl _, .enum n vds c vs hd hl d, fun i hi => hset i (p i hi)⟩)
          refine ⟨(s.weaken ?_).trans s2, e, q, ac⟩
          rintro i ⟨u, hu, hi⟩
          exact hi.head (by rw [hc]; exact hu)

/-! ## Finished graphs -/

/-- In the graph of a finished build every present entry is finished. -/
theorem describe_good (hD : DeclsOK E) {fuel t d} (h : describe E fuel t = some d) :
    d.root = t.unbox ∧ d.graph d.root ≠ none ∧ Acc (Ty.EagerComp E) t ∧
    ∀ i, d.graph i ≠ none → t.ReachId E i ∧ Acc (Ty.EagerComp E) i ∧
      ∃ n, d.graph i = some (some n) ∧ Describes E i n ∧ ∀ c ∈ n.ids, d.graph c ≠ none := by
  simp only [describe, Option.map_eq_some_iff, Prod.exists] at h
  obtain ⟨id, g', h, rfl⟩ := h
  obtain ⟨s, rfl, p, a⟩ := build_good hD _ _ _ _ _ h
  exact ⟨rfl, p, a, fun i hi => s.new i rfl hi⟩

theorem DescribesVariant.ids_mem {vd v} (h : DescribesVariant vd v) {u : Ty}
    (hu : u ∈ variantComps vd) : u.unbox ∈ v.ids := by
  cases h with
  | struct n fds names fields h _ _ =>
    simp only [variantComps, List.mem_map] at hu
    obtain ⟨fd, hfd, rfl⟩ := hu
    have : (fd.name, some fd.ty.unbox) ∈ namedTypes names fields := by
      rw [h]; exact List.mem_map.mpr ⟨fd, hfd, rfl⟩
    simp only [namedTypes, List.mem_map, Prod.mk.injEq] at this
    obtain ⟨m, _, rfl, hg⟩ := this
    obtain ⟨k', hk', _⟩ := bmGet_mem hg
    exact List.mem_map.mpr ⟨_, hk', rfl⟩
  | tuple n fds =>
    simp only [variantComps, List.mem_map] at hu
    obtain ⟨fd, hfd, rfl⟩ := hu
    exact List.mem_map.mpr ⟨fd, hfd, rfl⟩
  | unit n => simp [variantComps] at hu

/-- The components of a type are ids of its node. -/
theorem Describes.ids_mem {t n} (h : Describes E t n) {u : Ty} (hu : u ∈ t.comps E) :
    u.unbox ∈ n.ids := by
  cases h with
  | struct m fds c names fields hd h _ _ =>
    simp only [Ty.comps, hd, List.mem_map] at hu
    obtain ⟨fd, hfd, rfl⟩ := hu
    have : (fd.name, some fd.ty.unbox) ∈ namedTypes names fields := by
      rw [h]; exact List.mem_map.mpr ⟨fd, hfd, rfl⟩
    simp only [namedTypes, List.mem_map, Prod.mk.injEq] at this
    obtain ⟨m, _, rfl, hg⟩ := this
    obtain ⟨k', hk', _⟩ := bmGet_mem hg
    exact List.mem_map.mpr ⟨_, hk', rfl⟩
  | tupleStruct m fds c hd =>
    simp only [Ty.comps, hd, List.mem_map] at hu
    obtain ⟨fd, hfd, rfl⟩ := hu
    exact List.mem_map.mpr ⟨fd, hfd, rfl⟩
  | enum m vds c vs hd hl hv =>
    rw [comps_enum hd, List.mem_flatMap] at hu
    obtain ⟨vd, hvd, hu⟩ := hu
    obtain ⟨i, hi, rfl⟩ := List.mem_iff_getElem.mp hvd
    have hi' : i < vs.length := by omega
    have := hv i _ _ (List.getElem?_eq_getElem hi) (List.getElem?_eq_getElem hi')
    simp only [TypeNode.ids, List.mem_flatMap]
    exact ⟨vs[i], List.getElem_mem _, this.ids_mem hu⟩
  | tuple ts => simp only [Ty.comps] at hu; exact List.mem_map.mpr ⟨u, hu, rfl⟩
  | vec v => simp [Ty.comps] at hu; subst hu; simp [TypeNode.ids]
  | array v k => simp [Ty.comps] at hu; subst hu; simp [TypeNode.ids]
  | map k v => simp [Ty.comps] at hu; rcases hu with rfl | rfl <;> simp [TypeNode.ids]
  | _ => simp [Ty.comps] at hu

theorem unbox_ne_box (t u : Ty) : t.unbox ≠ .box u := by
  intro h
  induction t using Ty.unbox.induct with
  | case1 t ih => exact ih h
  | case2 t hn => rw [Ty.unbox] at h <;> first | exact hn _ h | exact hn

theorem unbox_unbox (t : Ty) : t.unbox.unbox = t.unbox := by
  cases h : t.unbox with
  | box u => exact absurd h (unbox_ne_box t u)
  | _ => rfl

theorem acc_unbox {t : Ty} : Acc (Ty.EagerComp E) t.unbox ↔ Acc (Ty.EagerComp E) t := by
  induction t using Ty.unbox.induct with
  | case1 t ih =>
    rw [Ty.unbox, ih]
    constructor
    · intro h; exact acc_of_comps (by simp [Ty.comps, h])
    · intro h; exact h.inv ⟨trivial, by simp [Ty.comps]⟩
  | case2 t hn => rw [Ty.unbox]; exact hn

theorem reach_unbox (t : Ty) : t.Reach E t.unbox := by
  induction t using Ty.unbox.induct with
  | case1 t ih => exact .head (by simp [Ty.comps]) ih
  | case2 t hn => rw [Ty.unbox]; exact .refl; exact hn

/-- Every type reachable from the root has a node. -/
theorem describe_complete (hD : DeclsOK E) {fuel t d} (h : describe E fuel t = some d) {u : Ty}
    (hu : t.Reach E u) : d.graph u.unbox ≠ none := by
  obtain ⟨hr, hp, _, hg⟩ := describe_good hD h
  induction hu with
  | refl => rw [← hr]; exact hp
  | step u v _ hv ih =>
    obtain ⟨_, _, n, _, hd, hc⟩ := hg _ ih
    by_cases hb : ∃ w, u = .box w
    · obtain ⟨w, rfl⟩ := hb
      simp [Ty.comps] at hv; subst hv
      exact ih
    · have : u.unbox = u := by
        rw [Ty.unbox]; exact fun w hw => hb ⟨w, hw⟩
      rw [this] at hd
      exact hc _ (hd.ids_mem hv)

/-! ## Nodes are determined by the declaration -/

theorem namedTypes_unique {fds : List FieldDef} (hn : (fds.map (·.name)).Nodup) {names fields}
    (h : namedTypes names fields = ((visDefs fds).map fun fd => (fd.name, some fd.ty.unbox)))
    (hl : fields.length = (visDefs fds).length) (hs : BMSorted strCmp fields) :
    names = (visDefs fds).map (·.name) ∧
    fields = bmOfList strCmp ((visDefs fds).map fun fd => (fd.name, fd.ty.unbox)) := by
  have hnames : names = (visDefs fds).map (·.name) := by
    have := congrArg (List.map Prod.fst) h
    simp only [namedTypes, List.map_map] at this
    simpa [Function.comp_def] using this
  refine ⟨hnames, ?_⟩
  have hn' : (((visDefs fds).map fun fd => (fd.name, fd.ty.unbox)).map (·.1)).Nodup := by
    rw [List.map_map]
    exact ((List.filter_sublist (p := fun fd => !fd.skip) (l := fds)).map (·.name)).nodup hn
  have hsub : ∀ p ∈ (visDefs fds).map fun fd => (fd.name, fd.ty.unbox), p ∈ fields := by
    intro p hp
    obtain ⟨fd, hfd, rfl⟩ := List.mem_map.mp hp
    have : (fd.name, some fd.ty.unbox) ∈ namedTypes names fields := by
      rw [h]; exact List.mem_map.mpr ⟨fd, hfd, rfl⟩
    simp only [namedTypes, List.mem_map, Prod.mk.injEq] at this
    obtain ⟨m, _, rfl, hg⟩ := this
    obtain ⟨k', hk', he⟩ := bmGet_mem hg
    rw [(strCmp_eq_iff _ _).mp he]; exact hk'
  have hp : ((visDefs fds).map fun fd => (fd.name, fd.ty.unbox)).Perm fields :=
    (List.subperm_of_subset hn'.of_map hsub).perm_of_length_le (by simp [hl])
  exact (bmOfList_eq_of_perm strCmpOn (by simp) hs hp).symm

theorem DescribesVariant.unique {vd v v'}
    (hn : ∀ n fds, vd = VariantDef.struct n fds → (fds.map (·.name)).Nodup)
    (h : DescribesVariant vd v) (h' : DescribesVariant vd v') : v = v' := by
  cases h with
  | struct n fds names fields h hl hs =>
    cases h' with
    | struct _ _ names' fields' h' hl' hs' =>
      obtain ⟨rfl, rfl⟩ := namedTypes_unique (hn _ _ rfl) h hl hs
      obtain ⟨rfl, rfl⟩ := namedTypes_unique (hn _ _ rfl) h' hl' hs'
      rfl
  | tuple n fds => cases h'; rfl
  | unit n => cases h'; rfl

theorem Describes.unique (hD : DeclsOK E) {t n n'} (h : Describes E t n) (h' : Describes E t n') :
    n = n' := by
  cases h with
  | struct m fds c names fields hd h hl hs =>
    cases h' with
    | struct _ fds' c' names' fields' hd' h' hl' hs' =>
      rw [hd] at hd'; simp only [Option.some.injEq, TyDef.mk.injEq, Shape.struct.injEq] at hd'
      obtain ⟨rfl, _⟩ := hd'
      obtain ⟨rfl, rfl⟩ := namedTypes_unique (hD.struct_names _ _ _ hd) h hl hs
      obtain ⟨rfl, rfl⟩ := namedTypes_unique (hD.struct_names _ _ _ hd) h' hl' hs'
      rfl
    | tupleStruct _ fds' c' hd' => simp [hd] at hd'
    | enum _ vds' c' vs' hd' _ _ => simp [hd] at hd'
  | tupleStruct m fds c hd =>
    cases h' with
    | struct _ fds' c' names' fields' hd' h' hl' hs' => simp [hd] at hd'
    | tupleStruct _ fds' c' hd' => simp [hd] at hd'; rw [hd'.1]
    | enum _ vds' c' vs' hd' _ _ => simp [hd] at hd'
  | enum m vds c vs hd hl hv =>
    cases h' with
    | struct _ fds' c' names' fields' hd' h' hl' hs' => simp [hd] at hd'
    | tupleStruct _ fds' c' hd' => simp [hd] at hd'
    | enum _ vds' c' vs' hd' hl' hv' =>
      rw [hd] at hd'; simp only [Option.some.injEq, TyDef.mk.injEq, Shape.enum.injEq] at hd'
      obtain ⟨rfl, _⟩ := hd'
      congr 1
      apply List.ext_getElem (by omega)
      intro i h1 h2
      have hi : i < vds.length := by omega
      refine DescribesVariant.unique ?_ (hv i _ _ (List.getElem?_eq_getElem hi) (List.getElem?_eq_getElem h1))
        (hv' i _ _ (List.getElem?_eq_getElem hi) (List.getElem?_eq_getElem h2))
      intro vn fds he
      exact hD.variant_fields _ _ _ vn fds hd (he ▸ List.getElem_mem _)
  | _ => cases h'; rfl

/-! ## Fuel -/

theorem buildList_mono {b b' : TypeGraph → Ty → Option (Ty × TypeGraph)}
    (h : ∀ g t r, b g t = some r → b' g t = some r) :
    ∀ ts g r, buildList b g ts = some r → buildList b' g ts = some r
  | [], g, r, hr => hr
  | t :: ts, g, r, hr => by
    simp only [buildList] at hr ⊢
    split at hr
    · simp at hr
    · next id g1 h1 =>
      rw [h _ _ _ h1]
      simp only
      split at hr
      · simp at hr
      · next ids g2 h2 => rw [buildList_mono h _ _ _ h2]; exact hr

theorem buildVariants_mono {b b' : TypeGraph → Ty → Option (Ty × TypeGraph)}
    (h : ∀ g t r, b g t = some r → b' g t = some r) :
    ∀ vds g r, buildVariants b g vds = some r → buildVariants b' g vds = some r
  | [], g, r, hr => hr
  | vd :: vds, g, r, hr => by
    cases vd with
    | struct n fds =>
      simp only [buildVariants] at hr ⊢
      split at hr
      · simp at hr
      · next id g1 h1 =>
        rw [buildList_mono h _ _ _ h1]
        simp only
        split at hr
        · simp at hr
        · next ids g2 h2 => rw [buildVariants_mono h _ _ _ h2]; exact hr
    | tuple n fds =>
      simp only [buildVariants] at hr ⊢
      split at hr
      · simp at hr
      · next id g1 h1 =>
        rw [buildList_mono h _ _ _ h1]
        simp only
        split at hr
        · simp at hr
        · next ids g2 h2 => rw [buildVariants_mono h _ _ _ h2]; exact hr
    | unit n =>
      simp only [buildVariants] at hr ⊢
      split at hr
      · simp at hr
      · next ids g2 h2 => rw [buildVariants_mono h _ _ _ h2]; exact hr

theorem getOrBuild_mono {g : TypeGraph} {t r} {f f' : TypeGraph → Option (TypeNode × TypeGraph)}
    (h : ∀ g r, f g = some r → f' g = some r) (hr : getOrBuild g t f = some r) :
    getOrBuild g t f' = some r := by
  simp only [getOrBuild] at hr ⊢
  split at hr
  · next e he => rw [← hr]
  · next he =>
    split at hr
    · simp at hr
    · next n g2 h2 => rw [h _ _ h2]; exact hr

theorem build_succ : ∀ fuel g t r, build E fuel g t = some r → build E (fuel + 1) g t = some r
  | 0, g, t, r, h => by simp [build] at h
  | fuel + 1, g, t, r, h => by
    have ih := build_succ fuel
    cases t with
    | box u => exact ih _ _ _ h
    | vec u =>
      rw [build] at h ⊢
      refine getOrBuild_mono ?_ h
      intro g r hr
      rw [Option.map_eq_some_iff] at hr ⊢
      obtain ⟨a, ha, e⟩ := hr
      exact ⟨a, ih _ _ _ ha, e⟩
    | array u k =>
      rw [build] at h ⊢
      refine getOrBuild_mono ?_ h
      intro g r hr
      rw [Option.map_eq_some_iff] at hr ⊢
      obtain ⟨a, ha, e⟩ := hr
      exact ⟨a, ih _ _ _ ha, e⟩
    | map k v =>
      rw [build] at h ⊢
      refine getOrBuild_mono ?_ h
      intro g r hr
      split at hr
      · simp at hr
      · next kid gk hk =>
        rw [ih _ _ _ hk]
        simp only
        rw [Option.map_eq_some_iff] at hr ⊢
        obtain ⟨a, ha, e⟩ := hr
        exact ⟨a, ih _ _ _ ha, e⟩
    | tuple ts =>
      rw [build] at h ⊢
      refine getOrBuild_mono ?_ h
      intro g r hr
      rw [Option.map_eq_some_iff] at hr ⊢
      obtain ⟨a, ha, e⟩ := hr
      exact ⟨a, buildList_mono ih _ _ _ ha, e⟩
    | named n =>
      rw [build] at h ⊢
      split at h
      · simp at h
      · next fds c hd =>
        refine getOrBuild_mono ?_ h
        intro g r hr
        rw [Option.map_eq_some_iff] at hr ⊢
        obtain ⟨a, ha, e⟩ := hr
        exact ⟨a, buildList_mono ih _ _ _ ha, e⟩
      · next fds c hd =>
        split at h
        · simp at h
        · next ids g1 h1 =>
          rw [buildList_mono ih _ _ _ h1]
          exact h
      · next vds c hd =>
        split at h
        · simp at h
        · next ids g1 h1 =>
          rw [buildVariants_mono ih _ _ _ h1]
          exact h
    | _ => exact h

theorem build_mono {fuel fuel' : Nat} (hle : fuel ≤ fuel') {g t r} (h : build E fuel g t = some r) :
    build E fuel' g t = some r := by
  induction hle with
  | refl => exact h
  | step _ ih => exact build_succ _ _ _ _ ih

/-! ## Divergence -/

theorem buildList_none {b : TypeGraph → Ty → Option (Ty × TypeGraph)} {u : Ty}
    (hu : ∀ g, b g u = none) : ∀ ts g, u ∈ ts → buildList b g ts = none
  | t :: ts, g, h => by
    simp only [buildList]
    rcases List.mem_cons.mp h with rfl | h
    · simp [hu]
    · split
      · rfl
      · rw [buildList_none hu ts _ h]

theorem buildVariants_none {b : TypeGraph → Ty → Option (Ty × TypeGraph)} {u : Ty}
    (hu : ∀ g, b g u = none) : ∀ vds g, u ∈ vds.flatMap variantComps → buildVariants b g vds = none
  | vd :: vds, g, h => by
    rw [List.flatMap_cons, List.mem_append] at h
    cases vd with
    | struct n fds =>
      simp only [buildVariants]
      rcases h with h | h
      · rw [buildList_none hu ((visDefs fds).map fun fd : FieldDef => fd.ty) g h]
      · split
        · rfl
        · rw [buildVariants_none hu vds _ h]
    | tuple n fds =>
      simp only [buildVariants]
      rcases h with h | h
      · rw [buildList_none hu ((visDefs fds).map fun fd : FieldDef => fd.ty) g h]
      · split
        · rfl
        · rw [buildVariants_none hu vds _ h]
    | unit n =>
      simp only [buildVariants]
      rcases h with h | h
      · simp [variantComps] at h
      · rw [buildVariants_none hu vds _ h]

/-- A type with an infinite descent through tuple structs, enums and boxes is never described. -/
theorem build_diverges : ∀ fuel g t, ¬ Acc (Ty.EagerComp E) t → build E fuel g t = none
  | 0, _, _, _ => rfl
  | fuel + 1, g, t, h => by
    have ih := build_diverges fuel
    have hex : ∃ u, Ty.EagerComp E u t ∧ ¬ Acc (Ty.EagerComp E) u := by
      by_contra hno
      exact h ⟨_, fun u hu => by_contra fun ha => hno ⟨u, hu, ha⟩⟩
    obtain ⟨u, ⟨he, hc⟩, hu⟩ := hex
    have ihu : ∀ g, build E fuel g u = none := fun g => ih g u hu
    cases t with
    | box v => simp [Ty.comps] at hc; subst hc; exact ihu g
    | named n =>
      rw [build]
      rcases he with ⟨fds, c, hd⟩ | ⟨vds, c, hd⟩
      · simp only [hd]
        simp only [Ty.comps, hd] at hc
        rw [buildList_none ihu ((visDefs fds).map (·.ty)) g hc]
      · simp only [hd]
        rw [comps_enum hd] at hc
        rw [buildVariants_none ihu _ _ hc]
    | _ => simp [Ty.Eager] at he

/-! ## Termination -/

theorem absent_filter_lt {S : List Ty} {p q : Ty → Bool} (h : ∀ u, q u = true → p u = true) {t : Ty}
    (ht : t ∈ S) (hp : p t = true) (hq : q t = false) :
    (S.filter q).length < (S.filter p).length := by
  induction S with
  | nil => simp at ht
  | cons a r ih =>
    have hle : ∀ r : List Ty, (r.filter q).length ≤ (r.filter p).length := by
      intro r
      induction r with
      | nil => simp
      | cons b r ih =>
        simp only [List.filter_cons]
        cases hqb : q b with
        | true => simp [h b hqb]; exact ih
        | false => cases hpb : p b <;> simp <;> omega
    simp only [List.filter_cons]
    rcases List.mem_cons.mp ht with rfl | ht
    · simp [hp, hq]; have := hle r; omega
    · have := ih ht
      cases hqa : q a with
      | true => simp [h a hqa]; exact this
      | false => cases hpa : p a <;> simp <;> omega

/-- How many types of `S` have no entry yet. -/
def absent (S : List Ty) (g : TypeGraph) : Nat := (S.filter fun u => (g u).isNone).length

theorem absent_filter_le {S : List Ty} {p q : Ty → Bool} (h : ∀ u, q u = true → p u = true) :
    (S.filter q).length ≤ (S.filter p).length := by
  induction S with
  | nil => simp
  | cons b r ih =>
    simp only [List.filter_cons]
    cases hqb : q b with
    | true => simp [h b hqb]; exact ih
    | false => cases hpb : p b <;> simp <;> omega

theorem absent_grow {R S g g'} (h : Grow E R g g') : absent S g' ≤ absent S g := by
  apply absent_filter_le
  intro u hu
  simp only [Option.isNone_iff_eq_none] at hu ⊢
  by_contra hn
  exact h.keep hn hu

theorem absent_set {S} {g : TypeGraph} {t : Ty} (ht : t ∈ S) (hg : g t = none) :
    absent S (g.set t none) < absent S g := by
  refine absent_filter_lt (t := t) ?_ ht (by simp [hg]) (by simp [TypeGraph.set])
  intro u hu
  simp only [TypeGraph.set, Option.isNone_iff_eq_none] at hu ⊢
  split at hu
  · simp at hu
  · exact hu

theorem buildList_terminates (hD : DeclsOK E) {S n} : ∀ (ts : List Ty),
    (∀ t ∈ ts, ∀ g, absent S g ≤ n → ∃ fuel r, build E fuel g t = some r) →
    ∀ g, absent S g ≤ n → ∃ fuel r, buildList (build E fuel) g ts = some r
  | [], _, g, _ => ⟨0, ([], g), rfl⟩
  | t :: ts, h, g, hg => by
    obtain ⟨f1, ⟨id, g1⟩, h1⟩ := h t (by simp) g hg
    have s1 := (build_good hD _ _ _ _ _ h1).1
    obtain ⟨f2, ⟨ids, g2⟩, h2⟩ := buildList_terminates hD ts (fun u hu => h u (by simp [hu])) g1
      (Nat.le_trans (absent_grow s1) hg)
    refine ⟨max f1 f2, (id :: ids, g2), ?_⟩
    simp only [buildList, build_mono (Nat.le_max_left f1 f2) h1]
    rw [buildList_mono (fun g t r hr => build_mono (Nat.le_max_right f1 f2) hr) _ _ _ h2]

theorem buildVariants_terminates (hD : DeclsOK E) {S n} : ∀ (vds : List VariantDef),
    (∀ vn fds, VariantDef.struct vn fds ∈ vds → (fds.map (·.name)).Nodup) →
    (∀ t ∈ vds.flatMap variantComps, ∀ g, absent S g ≤ n → ∃ fuel r, build E fuel g t = some r) →
    ∀ g, absent S g ≤ n → ∃ fuel r, buildVariants (build E fuel) g vds = some r
  | [], _, _, g, _ => ⟨0, ([], g), rfl⟩
  | vd :: vds, hn, h, g, hg => by
    have hn' : ∀ vn fds, VariantDef.struct vn fds ∈ vds → (fds.map (·.name)).Nodup :=
      fun n fds h => hn n fds (List.mem_cons_of_mem _ h)
    have hrest : ∀ t ∈ vds.flatMap variantComps, ∀ g, absent S g ≤ n →
        ∃ fuel r, build E fuel g t = some r := fun t ht => h t (by
      rw [List.flatMap_cons, List.mem_append]; exact .inr ht)
    have hfst : ∀ t ∈ variantComps vd, ∀ g, absent S g ≤ n →
        ∃ fuel r, build E fuel g t = some r := fun t ht => h t (by
      rw [List.flatMap_cons, List.mem_append]; exact .inl ht)
    cases vd with
    | struct vn fds =>
      obtain ⟨f1, ⟨ids, g1⟩, h1⟩ := buildList_terminates hD _ hfst g hg
      have s1 := (buildList_good (build_good hD f1) _ _ _ _ h1).1
      obtain ⟨f2, ⟨vs, g2⟩, h2⟩ := buildVariants_terminates hD vds hn' hrest g1
        (Nat.le_trans (absent_grow s1) hg)
      simp only [variantComps] at h1
      refine ⟨max f1 f2, (.struct vn ((visDefs fds).map (·.name)) (namedNodes fds ids) :: vs, g2), ?_⟩
      · simp only [buildVariants]
        rw [buildList_mono (fun g t r hr => build_mono (Nat.le_max_left f1 f2) hr) _ _ _ h1]
        simp only
        rw [buildVariants_mono (fun g t r hr => build_mono (Nat.le_max_right f1 f2) hr) _ _ _ h2]
    | tuple vn fds =>
      obtain ⟨f1, ⟨ids, g1⟩, h1⟩ := buildList_terminates hD _ hfst g hg
      have s1 := (buildList_good (build_good hD f1) _ _ _ _ h1).1
      obtain ⟨f2, ⟨vs, g2⟩, h2⟩ := buildVariants_terminates hD vds hn' hrest g1
        (Nat.le_trans (absent_grow s1) hg)
      simp only [variantComps] at h1
      refine ⟨max f1 f2, (.tuple vn ids :: vs, g2), ?_⟩
      · simp only [buildVariants]
        rw [buildList_mono (fun g t r hr => build_mono (Nat.le_max_left f1 f2) hr) _ _ _ h1]
        simp only
        rw [buildVariants_mono (fun g t r hr => build_mono (Nat.le_max_right f1 f2) hr) _ _ _ h2]
    | unit vn =>
      obtain ⟨f2, ⟨vs, g2⟩, h2⟩ := buildVariants_terminates hD vds hn' hrest g hg
      exact ⟨f2, (.unit vn :: vs, g2), by simp only [buildVariants, h2]⟩

theorem getOrBuild_terminates {S n} {g : TypeGraph} {t : Ty} (ht : t ∈ S) (hg : absent S g ≤ n)
    {f : Nat → TypeGraph → Option (TypeNode × TypeGraph)}
    (h : ∀ m, m < n → ∀ g, absent S g ≤ m → ∃ fuel r, f fuel g = some r) :
    ∃ fuel r, getOrBuild g t (f fuel) = some r := by
  by_cases he : g t = none
  · have := absent_set ht he
    obtain ⟨fuel, ⟨nd, g2⟩, hf⟩ := h (n - 1) (by omega) (g.set t none) (by omega)
    exact ⟨fuel, (t, g2.set t (some nd)), by simp [getOrBuild, he, hf]⟩
  · obtain ⟨e, he⟩ := Option.ne_none_iff_exists'.mp he
    exact ⟨0, (t, g), by simp [getOrBuild, he]⟩

theorem getOrBuild_pure (g : TypeGraph) (t : Ty) (n : TypeNode) :
    ∃ r, getOrBuild g t (fun g => some (n, g)) = some r := by
  simp only [getOrBuild]
  split <;> exact ⟨_, rfl⟩

theorem build_terminates (hD : DeclsOK E) {S : List Ty} (hc : ∀ u ∈ S, ∀ v ∈ u.comps E, v ∈ S)
    (hdecl : ∀ n, Ty.named n ∈ S → (E.decl n).isSome)
    (ha : ∀ u ∈ S, Acc (Ty.EagerComp E) u) :
    ∀ n, ∀ t ∈ S, ∀ g, absent S g ≤ n → ∃ fuel r, build E fuel g t = some r := by
  intro n
  induction n using Nat.strongRecOn with
  | ind n ihn =>
    intro t ht
    induction ha t ht with
    | intro t _ iht =>
      have ihc : t.Eager E → ∀ u ∈ t.comps E, ∀ g, absent S g ≤ n →
          ∃ fuel r, build E fuel g u = some r :=
        fun he u hu => iht u ⟨he, hu⟩ (hc t ht u hu)
      have ihm : ∀ m, m < n → ∀ u ∈ t.comps E, ∀ g, absent S g ≤ m →
          ∃ fuel r, build E fuel g u = some r :=
        fun m hm u hu g hg => ihn m hm u (hc t ht u hu) g hg
      intro g hg
      have plain : ∀ u n, (∃ fuel, build E (fuel + 1) g t = getOrBuild g u fun g => some (n, g)) →
          ∃ fuel r, build E fuel g t = some r := by
        rintro u n ⟨fuel, h⟩
        obtain ⟨r, hr⟩ := getOrBuild_pure g u n
        exact ⟨fuel + 1, r, by rw [h, hr]⟩
      cases t with
      | scalar k => exact plain _ _ ⟨0, rfl⟩
      | nonzero k => exact plain _ _ ⟨0, rfl⟩
      | value => exact plain _ _ ⟨0, rfl⟩
      | structValue => exact plain _ _ ⟨0, rfl⟩
      | tupleStructValue => exact plain _ _ ⟨0, rfl⟩
      | tupleValue => exact plain _ _ ⟨0, rfl⟩
      | enumValue => exact plain _ _ ⟨0, rfl⟩
      | box u =>
        obtain ⟨fuel, r, h⟩ := ihc trivial u (by simp [Ty.comps]) g hg
        exact ⟨fuel + 1, r, h⟩
      | vec u =>
        obtain ⟨fuel, r, h⟩ := getOrBuild_terminates (t := .vec u) ht hg
          (f := fun fuel g => (build E fuel g u).map fun r => (.list r.1, r.2)) (by
            intro m hm g hg
            obtain ⟨fuel, r, h⟩ := ihm m hm u (by simp [Ty.comps]) g hg
            exact ⟨fuel, _, by simp [h]; rfl⟩)
        exact ⟨fuel + 1, r, by rw [build]; exact h⟩
      | array u k =>
        obtain ⟨fuel, r, h⟩ := getOrBuild_terminates (t := .array u k) ht hg
          (f := fun fuel g => (build E fuel g u).map fun r => (.array r.1 k, r.2)) (by
            intro m hm g hg
            obtain ⟨fuel, r, h⟩ := ihm m hm u (by simp [Ty.comps]) g hg
            exact ⟨fuel, _, by simp [h]; rfl⟩)
        exact ⟨fuel + 1, r, by rw [build]; exact h⟩
      | map k v =>
        obtain ⟨fuel, r, h⟩ := getOrBuild_terminates (t := .map k v) ht hg
          (f := fun fuel g => match build E fuel g k with
            | none => none
            | some (kid, g) => (build E fuel g v).map fun r => (.map kid r.1, r.2)) (by
            intro m hm g hg
            obtain ⟨f1, ⟨i1, g1⟩, h1⟩ := ihm m hm k (by simp [Ty.comps]) g hg
            have s1 := (build_good hD _ _ _ _ _ h1).1
            obtain ⟨f2, r2, h2⟩ := ihm m hm v (by simp [Ty.comps]) g1
              (Nat.le_trans (absent_grow s1) hg)
            refine ⟨max f1 f2, (.map i1 r2.1, r2.2), ?_⟩
            simp only [build_mono (Nat.le_max_left f1 f2) h1, build_mono (Nat.le_max_right f1 f2) h2,
              Option.map_some])
        exact ⟨fuel + 1, r, by rw [build]; exact h⟩
      | tuple ts =>
        obtain ⟨fuel, r, h⟩ := getOrBuild_terminates (t := .tuple ts) ht hg
          (f := fun fuel g => (buildList (build E fuel) g ts).map fun r => (.tuple r.1, r.2)) (by
            intro m hm g hg
            obtain ⟨fuel, r, h⟩ := buildList_terminates hD ts (fun u hu => ihm m hm u hu) g hg
            exact ⟨fuel, _, by simp [h]; rfl⟩)
        exact ⟨fuel + 1, r, by rw [build]; exact h⟩
      | named nm =>
        obtain ⟨⟨sh, c⟩, hd⟩ := Option.isSome_iff_exists.mp (hdecl nm ht)
        cases sh with
        | struct fds =>
          have hcs : (Ty.named nm).comps E = (visDefs fds).map (·.ty) := by
            simp only [Ty.comps, hd]; rfl
          obtain ⟨fuel, r, h⟩ := getOrBuild_terminates (t := .named nm) ht hg
            (f := fun fuel g => (buildList (build E fuel) g ((visDefs fds).map (·.ty))).map fun r =>
              (.struct ((visDefs fds).map (·.name)) (namedNodes fds r.1), r.2)) (by
              intro m hm g hg
              obtain ⟨fuel, r, h⟩ := buildList_terminates hD ((visDefs fds).map (·.ty))
                (fun u hu => ihm m hm u (by rw [hcs]; exact hu)) g hg
              exact ⟨fuel, (.struct ((visDefs fds).map (·.name)) (namedNodes fds r.1), r.2), by
                simp only [h, Option.map_some]⟩)
          exact ⟨fuel + 1, r, by rw [build]; simp only [hd]; exact h⟩
        | tupleStruct fds =>
          have hcs : (Ty.named nm).comps E = (visDefs fds).map (·.ty) := by
            simp only [Ty.comps, hd]; rfl
          obtain ⟨fuel, ⟨ids, g1⟩, h⟩ := buildList_terminates hD ((visDefs fds).map (·.ty))
            (fun u hu => ihc (.inl ⟨_, _, hd⟩) u (by rw [hcs]; exact hu)) g hg
          obtain ⟨r, hr⟩ := getOrBuild_pure g1 (.named nm) (.tupleStruct ids)
          exact ⟨fuel + 1, r, by rw [build]; simp only [hd, h, hr]⟩
        | enum vds =>
          have hcs := comps_enum hd
          obtain ⟨fuel, ⟨vs, g1⟩, h⟩ := buildVariants_terminates hD vds
            (fun vn fds hv => hD.variant_fields _ _ _ vn fds hd hv)
            (fun u hu => ihc (.inr ⟨_, _, hd⟩) u (by rw [hcs]; exact hu)) g hg
          obtain ⟨r, hr⟩ := getOrBuild_pure g1 (.named nm) (.enum vs)
          exact ⟨fuel + 1, r, by rw [build]; simp only [hd, h, hr]⟩

theorem describe_mono {fuel fuel' : Nat} (hle : fuel ≤ fuel') {t d} (h : describe E fuel t = some d) :
    describe E fuel' t = some d := by
  rw [describe, Option.map_eq_some_iff] at h ⊢
  obtain ⟨r, hr, e⟩ := h
  exact ⟨r, build_mono hle hr, e⟩

end Mirror
