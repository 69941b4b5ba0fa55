import Verif.Spec.NodeId
import Verif.Lemmas.TypeInfo

set_option linter.unusedSimpArgs false

/-! # Hashed node ids: simulation -/

namespace Mirror

variable {ι : Type} [DecidableEq ι] {E : Env} {h : Ty → ι} {P : Ty → Prop}

theorem bmInsert_map {κ α β : Type} (cmp : κ → κ → Ordering) (f : α → β) (k : κ) (v : α) (l : List (κ × α)) :
    bmInsert cmp k (f v) (l.map fun p => (p.1, f p.2)) = (bmInsert cmp k v l).map fun p => (p.1, f p.2) := by
  induction l with
  | nil => rfl
  | cons p r ih =>
    simp only [List.map_cons, bmInsert]
    cases cmp k p.1 <;> simp [ih]

theorem bmOfList_map {κ α β : Type} (cmp : κ → κ → Ordering) (f : α → β) (l : List (κ × α)) :
    bmOfList cmp (l.map fun p => (p.1, f p.2)) = (bmOfList cmp l).map fun p => (p.1, f p.2) := by
  unfold bmOfList
  have : ∀ (m : List (κ × α)), (l.map fun p => (p.1, f p.2)).foldl (fun m p => bmInsert cmp p.1 p.2 m)
      (m.map fun p => (p.1, f p.2)) =
      (l.foldl (fun m p => bmInsert cmp p.1 p.2 m) m).map fun p => (p.1, f p.2) := by
    induction l with
    | nil => intro m; rfl
    | cons p r ih =>
      intro m
      simp only [List.map_cons, List.foldl_cons]
      rw [bmInsert_map, ih]
  exact this []

theorem namedNodesH_map (fds : List FieldDef) (ids : List Ty) :
    namedNodesH fds (ids.map h) = (namedNodes fds ids).map fun p => (p.1, h p.2) := by
  unfold namedNodesH namedNodes
  rw [← bmOfList_map, List.zip_map_right]
  congr 1

/-- The hashed graph is the image of the graph, as far as the types in `P` go. -/
def Sim (h : Ty → ι) (P : Ty → Prop) (g : TypeGraph) (G : HGraph ι) : Prop :=
  ∀ i, P i → G (h i) = (g i).map (Option.map (·.mapIds h))

/-- Both computations fail, or both succeed with related results. -/
def SimO (h : Ty → ι) (P : Ty → Prop) {α β : Type} (R : α → β → Prop) :
    Option (α × TypeGraph) → Option (β × HGraph ι) → Prop
  | none, none => True
  | some (a, g), some (b, G) => R a b ∧ Sim h P g G
  | _, _ => False

theorem Sim.set (hinj : ∀ i j, P i → P j → h i = h j → i = j) {g : TypeGraph} {G : HGraph ι}
    (hs : Sim h P g G) {t : Ty} (ht : P t) (e : Option TypeNode) :
    Sim h P (g.set t e) (G.set (h t) (e.map (·.mapIds h))) := by
  intro i hi
  unfold TypeGraph.set HGraph.set
  by_cases he : i = t
  · subst he; simp
  · have : h i ≠ h t := fun hh => he (hinj i t hi ht hh)
    simp [he, this, hs i hi]

theorem getOrBuild_sim (hinj : ∀ i j, P i → P j → h i = h j → i = j) {g : TypeGraph} {G : HGraph ι}
    (hs : Sim h P g G) {t : Ty} (ht : P t) {f : TypeGraph → Option (TypeNode × TypeGraph)}
    {F : HGraph ι → Option (HNode ι × HGraph ι)}
    (hf : ∀ g G, Sim h P g G → SimO h P (fun n m => m = n.mapIds h) (f g) (F G)) :
    SimO h P (fun i j => j = h i) (getOrBuild g t f) (getOrBuildH h G t F) := by
  unfold getOrBuild getOrBuildH
  have h1 := hs t ht
  cases hg : g t with
  | some e => rw [hg] at h1; rw [h1]; exact ⟨rfl, hs⟩
  | none =>
    rw [hg] at h1; rw [h1]
    have h2 := hf _ _ (hs.set hinj ht none)
    simp only [Option.map_none] at h2 ⊢
    cases hf1 : f (g.set t none) with
    | none =>
      rw [hf1] at h2
      cases hF1 : F (G.set (h t) none) with
      | none => trivial
      | some r => rw [hF1] at h2; exact h2.elim
    | some r =>
      obtain ⟨n, g'⟩ := r
      rw [hf1] at h2
      cases hF1 : F (G.set (h t) none) with
      | none => rw [hF1] at h2; exact h2.elim
      | some r =>
        obtain ⟨m, G'⟩ := r
        rw [hF1] at h2
        obtain ⟨rfl, h3⟩ := h2
        exact ⟨rfl, h3.set hinj ht (some n)⟩

theorem buildList_sim {b : TypeGraph → Ty → Option (Ty × TypeGraph)}
    {B : HGraph ι → Ty → Option (ι × HGraph ι)} :
    ∀ (ts : List Ty), (∀ t ∈ ts, ∀ g G, Sim h P g G → SimO h P (fun i j => j = h i) (b g t) (B G t)) →
    ∀ g G, Sim h P g G → SimO h P (fun is js => js = is.map h) (buildList b g ts) (buildListH B G ts) := by
  intro ts
  induction ts with
  | nil => intro _ g G hs; exact ⟨rfl, hs⟩
  | cons t ts ih =>
    intro hb g G hs
    have h1 := hb t (by simp) g G hs
    unfold buildList buildListH
    cases hb1 : b g t with
    | none =>
      rw [hb1] at h1
      cases hB1 : B G t with
      | none => trivial
      | some r => rw [hB1] at h1; exact h1.elim
    | some r =>
      obtain ⟨i, g1⟩ := r
      rw [hb1] at h1
      cases hB1 : B G t with
      | none => rw [hB1] at h1; exact h1.elim
      | some r =>
        obtain ⟨j, G1⟩ := r
        rw [hB1] at h1
        obtain ⟨rfl, hs1⟩ := h1
        have h2 := ih (fun t ht => hb t (by simp [ht])) g1 G1 hs1
        simp only
        cases hl : buildList b g1 ts with
        | none =>
          rw [hl] at h2
          cases hL : buildListH B G1 ts with
          | none => trivial
          | some r => rw [hL] at h2; exact h2.elim
        | some r =>
          obtain ⟨is, g2⟩ := r
          rw [hl] at h2
          cases hL : buildListH B G1 ts with
          | none => rw [hL] at h2; exact h2.elim
          | some r =>
            obtain ⟨js, G2⟩ := r
            rw [hL] at h2
            obtain ⟨rfl, hs2⟩ := h2
            exact ⟨rfl, hs2⟩

/-- Sequencing. -/
theorem SimO.bind {α β γ δ : Type} {R : α → β → Prop} {S : γ → δ → Prop}
    {x : Option (α × TypeGraph)} {y : Option (β × HGraph ι)} (hxy : SimO h P R x y)
    {k : α × TypeGraph → Option (γ × TypeGraph)} {K : β × HGraph ι → Option (δ × HGraph ι)}
    (hk : ∀ a g b G, R a b → Sim h P g G → SimO h P S (k (a, g)) (K (b, G))) :
    SimO h P S (x.bind k) (y.bind K) := by
  cases x with
  | none =>
    cases y with
    | none => trivial
    | some r => exact hxy.elim
  | some r =>
    cases y with
    | none => exact hxy.elim
    | some r' => exact hk _ _ _ _ hxy.1 hxy.2

/-- Changing the result. -/
theorem SimO.map {α β γ δ : Type} {R : α → β → Prop} {S : γ → δ → Prop}
    {x : Option (α × TypeGraph)} {y : Option (β × HGraph ι)} (hxy : SimO h P R x y)
    {k : α → γ} {K : β → δ} (hk : ∀ a b, R a b → S (k a) (K b)) :
    SimO h P S (x.map fun r => (k r.1, r.2)) (y.map fun r => (K r.1, r.2)) := by
  cases x with
  | none =>
    cases y with
    | none => trivial
    | some r => exact hxy.elim
  | some r =>
    cases y with
    | none => exact hxy.elim
    | some r' => exact ⟨hk _ _ hxy.1, hxy.2⟩

/-- The component types of a variant. -/
theorem buildVariants_sim {b : TypeGraph → Ty → Option (Ty × TypeGraph)}
    {B : HGraph ι → Ty → Option (ι × HGraph ι)} :
    ∀ (vds : List VariantDef),
    (∀ t ∈ vds.flatMap (fun vd => match vd with
        | .struct _ fds => (fds.filter fun fd => !fd.skip).map (·.ty)
        | .tuple _ fds => (fds.filter fun fd => !fd.skip).map (·.ty)
        | .unit _ => []),
      ∀ g G, Sim h P g G → SimO h P (fun i j => j = h i) (b g t) (B G t)) →
    ∀ g G, Sim h P g G →
      SimO h P (fun vs ws => ws = vs.map (·.mapIds h)) (buildVariants b g vds) (buildVariantsH B G vds) := by
  intro vds
  induction vds with
  | nil => intro _ g G hs; exact ⟨rfl, hs⟩
  | cons vd vds ih =>
    intro hb g G hs
    have ih' := ih fun t ht => hb t (by
      rw [List.flatMap_cons]; exact List.mem_append_right _ ht)
    cases vd with
    | struct n fds =>
      have h1 := buildList_sim (h := h) (P := P) (b := b) (B := B) ((visDefs fds).map (·.ty)) (fun t ht => hb t (by
        rw [List.flatMap_cons]; exact List.mem_append_left _ ht)) g G hs
      have := h1.bind (S := fun vs ws => ws = vs.map (·.mapIds h))
        (k := fun r => (buildVariants b r.2 vds).bind fun q =>
          some (.struct n ((visDefs fds).map (·.name)) (namedNodes fds r.1) :: q.1, q.2))
        (K := fun r => (buildVariantsH B r.2 vds).bind fun q =>
          some (.struct n ((visDefs fds).map (·.name)) (namedNodesH fds r.1) :: q.1, q.2))
        (fun a g b G hab hsg => (ih' g G hsg).bind fun vs g ws G hvw hsg => by
          subst hab; subst hvw
          exact ⟨by simp [VariantNode.mapIds, namedNodesH_map], hsg⟩)
      unfold buildVariants buildVariantsH
      simp only
      cases hx : buildList b g ((visDefs fds).map (·.ty)) <;>
        cases hy : buildListH B G ((visDefs fds).map (·.ty)) <;> rw [hx, hy] at this h1
      · trivial
      · exact h1.elim
      · exact h1.elim
      · rename_i r r'
        obtain ⟨is, g1⟩ := r
        obtain ⟨js, G1⟩ := r'
        simp only [Option.bind_some] at this
        simp only
        cases hx2 : buildVariants b g1 vds <;> cases hy2 : buildVariantsH B G1 vds <;>
          rw [hx2, hy2] at this <;> exact this
    | tuple n fds =>
      have h1 := buildList_sim (h := h) (P := P) (b := b) (B := B) ((visDefs fds).map (·.ty)) (fun t ht => hb t (by
        rw [List.flatMap_cons]; exact List.mem_append_left _ ht)) g G hs
      have := h1.bind (S := fun vs ws => ws = vs.map (·.mapIds h))
        (k := fun r => (buildVariants b r.2 vds).bind fun q => some (.tuple n r.1 :: q.1, q.2))
        (K := fun r => (buildVariantsH B r.2 vds).bind fun q => some (.tuple n r.1 :: q.1, q.2))
        (fun a g b G hab hsg => (ih' g G hsg).bind fun vs g ws G hvw hsg => by
          subst hab; subst hvw
          exact ⟨by simp [VariantNode.mapIds], hsg⟩)
      unfold buildVariants buildVariantsH
      simp only
      cases hx : buildList b g ((visDefs fds).map (·.ty)) <;>
        cases hy : buildListH B G ((visDefs fds).map (·.ty)) <;> rw [hx, hy] at this h1
      · trivial
      · exact h1.elim
      · exact h1.elim
      · rename_i r r'
        obtain ⟨is, g1⟩ := r
        obtain ⟨js, G1⟩ := r'
        simp only [Option.bind_some] at this
        simp only
        cases hx2 : buildVariants b g1 vds <;> cases hy2 : buildVariantsH B G1 vds <;>
          rw [hx2, hy2] at this <;> exact this
    | unit n =>
      have := (ih' g G hs).bind (S := fun vs ws => ws = vs.map (·.mapIds h))
        (k := fun q => some (.unit n :: q.1, q.2)) (K := fun q => some (.unit n :: q.1, q.2))
        (fun vs g ws G hvw hsg => by subst hvw; exact ⟨by simp [VariantNode.mapIds], hsg⟩)
      unfold buildVariants buildVariantsH
      simp only
      cases hx2 : buildVariants b g vds <;> cases hy2 : buildVariantsH B G vds <;>
        rw [hx2, hy2] at this <;> exact this

/-- Without collisions the hashed build follows the build step by step. -/
theorem build_sim (hinj : ∀ i j, P i → P j → h i = h j → i = j) :
    ∀ fuel (t : Ty), (∀ u, t.Reach E u → P u.unbox) → ∀ g G, Sim h P g G →
      SimO h P (fun i j => j = h i) (build E fuel g t) (buildH E h fuel G t) := by
  intro fuel
  induction fuel with
  | zero => intro t _ g G _; exact True.intro
  | succ fuel ih =>
    intro t ht g G hs
    have hc : ∀ c ∈ t.comps E, ∀ g G, Sim h P g G →
        SimO h P (fun i j => j = h i) (build E fuel g c) (buildH E h fuel G c) :=
      fun c hc => ih c fun u hu => ht u (Ty.Reach.head hc hu)
    have hP := ht t .refl
    have hopq : ∀ {t : Ty}, P t → SimO h P (fun i j => j = h i)
        (getOrBuild g t fun g => some (.opaque, g)) (getOrBuildH h G t fun g => some (.opaque, g)) :=
      fun hp => getOrBuild_sim hinj hs hp fun g G hs => ⟨rfl, hs⟩
    cases t with
    | scalar k =>
      simp only [build, buildH]
      exact getOrBuild_sim hinj hs hP fun g G hs => ⟨rfl, hs⟩
    | nonzero k => simp only [build, buildH]; exact hopq hP
    | value => simp only [build, buildH]; exact hopq hP
    | structValue => simp only [build, buildH]; exact hopq hP
    | tupleStructValue => simp only [build, buildH]; exact hopq hP
    | tupleValue => simp only [build, buildH]; exact hopq hP
    | enumValue => simp only [build, buildH]; exact hopq hP
    | box u => simp only [build, buildH]; exact hc u (by simp [Ty.comps]) g G hs
    | vec u =>
      simp only [build, buildH]
      exact getOrBuild_sim hinj hs hP fun g G hs =>
        (hc u (by simp [Ty.comps]) g G hs).map (k := fun i => TypeNode.list i) (K := fun i => HNode.list i)
          fun a b hab => by subst hab; rfl
    | array u n =>
      simp only [build, buildH]
      exact getOrBuild_sim hinj hs hP fun g G hs =>
        (hc u (by simp [Ty.comps]) g G hs).map (k := fun i => TypeNode.array i n) (K := fun i => HNode.array i n)
          fun a b hab => by subst hab; rfl
    | map k v =>
      simp only [build, buildH]
      refine getOrBuild_sim hinj hs hP fun g G hs => ?_
      have h1 := (hc k (by simp [Ty.comps]) g G hs).bind (S := fun (n : TypeNode) m => m = n.mapIds h)
        (k := fun r => (build E fuel r.2 v).map fun q => (TypeNode.map r.1 q.1, q.2))
        (K := fun r => (buildH E h fuel r.2 v).map fun q => (.map r.1 q.1, q.2))
        fun i g j G hij hs => (hc v (by simp [Ty.comps]) g G hs).map (k := fun q => TypeNode.map i q)
          (K := fun q => HNode.map j q) fun a b hab => by subst hab; subst hij; rfl
      cases hx : build E fuel g k <;> cases hy : buildH E h fuel G k <;> rw [hx, hy] at h1 <;> exact h1
    | tuple ts =>
      simp only [build, buildH]
      exact getOrBuild_sim hinj hs hP fun g G hs =>
        (buildList_sim ts (fun t ht => hc t (by simpa [Ty.comps] using ht)) g G hs).map
          (k := fun i => TypeNode.tuple i) (K := fun i => HNode.tuple i) fun a b hab => by subst hab; rfl
    | named n =>
      cases hd : E.decl n with
      | none => simp only [build, buildH, hd]; exact True.intro
      | some D =>
        obtain ⟨b, c⟩ := D
        cases b with
        | struct fds =>
          simp only [build, buildH, hd]
          exact getOrBuild_sim hinj hs hP fun g G hs =>
            (buildList_sim ((visDefs fds).map (·.ty))
              (fun t ht => hc t (by simp only [Ty.comps, hd]; exact ht)) g G hs).map
              (k := fun i => TypeNode.struct ((visDefs fds).map (·.name)) (namedNodes fds i))
              (K := fun i => HNode.struct ((visDefs fds).map (·.name)) (namedNodesH fds i))
              fun a b hab => by subst hab; simp [TypeNode.mapIds, namedNodesH_map]
        | tupleStruct fds =>
          simp only [build, buildH, hd]
          have h1 := (buildList_sim ((visDefs fds).map (·.ty))
              (fun t ht => hc t (by simp only [Ty.comps, hd]; exact ht)) g G hs).bind
              (S := fun i j => j = h i)
              (k := fun r => getOrBuild r.2 (.named n) fun g => some (.tupleStruct r.1, g))
              (K := fun r => getOrBuildH h r.2 (.named n) fun g => some (.tupleStruct r.1, g))
              fun is g js G hij hs => getOrBuild_sim hinj hs hP fun g G hs => by
                subst hij; exact ⟨rfl, hs⟩
          cases hx : buildList (build E fuel) g ((visDefs fds).map (·.ty)) <;>
            cases hy : buildListH (buildH E h fuel) G ((visDefs fds).map (·.ty)) <;>
            rw [hx, hy] at h1 <;> exact h1
        | enum vds =>
          simp only [build, buildH, hd]
          have h1 := (buildVariants_sim vds
              (fun t ht => hc t (by simp only [Ty.comps, hd]; exact ht)) g G hs).bind
              (S := fun i j => j = h i)
              (k := fun r => getOrBuild r.2 (.named n) fun g => some (.enum r.1, g))
              (K := fun r => getOrBuildH h r.2 (.named n) fun g => some (.enum r.1, g))
              fun is g js G hij hs => getOrBuild_sim hinj hs hP fun g G hs => by
                subst hij; exact ⟨rfl, hs⟩
          cases hx : buildVariants (build E fuel) g vds <;>
            cases hy : buildVariantsH (buildH E h fuel) G vds <;>
            rw [hx, hy] at h1 <;> exact h1

/-! ## Closedness, collisions or not -/

/-- Everything a node refers to is in the graph. -/
def HClosed (G : HGraph ι) : Prop := ∀ k n, G k = some (some n) → ∀ j ∈ n.ids, G j ≠ none

/-- What a build leaves behind: nothing disappears, no new placeholder stays, and the graph stays
closed. -/
def HStep (G G' : HGraph ι) : Prop :=
  (∀ k, G k ≠ none → G' k ≠ none) ∧ (∀ k, G' k = some none → G k = some none) ∧ (HClosed G → HClosed G')

omit [DecidableEq ι] in
theorem HStep.rfl' (G : HGraph ι) : HStep G G := ⟨fun _ h => h, fun _ h => h, fun h => h⟩

omit [DecidableEq ι] in
theorem HStep.trans {G G' G'' : HGraph ι} (a : HStep G G') (b : HStep G' G'') : HStep G G'' :=
  ⟨fun k h => b.1 k (a.1 k h), fun k h => a.2.1 k (b.2.1 k h), fun h => b.2.2 (a.2.2 h)⟩

theorem getOrBuildH_step {G G' : HGraph ι} {t : Ty} {i : ι}
    {F : HGraph ι → Option (HNode ι × HGraph ι)}
    (hF : ∀ G n G', F G = some (n, G') → HStep G G' ∧ ∀ j ∈ n.ids, G' j ≠ none)
    (hr : getOrBuildH h G t F = some (i, G')) : HStep G G' ∧ G' i ≠ none := by
  unfold getOrBuildH at hr
  cases hg : G (h t) with
  | some e =>
    rw [hg] at hr; cases hr
    exact ⟨HStep.rfl' _, by rw [hg]; nofun⟩
  | none =>
    rw [hg] at hr
    simp only at hr
    cases hf : F (G.set (h t) none) with
    | none => rw [hf] at hr; cases hr
    | some r =>
      obtain ⟨n, G1⟩ := r
      rw [hf] at hr
      cases hr
      obtain ⟨⟨m1, m2, m3⟩, hids⟩ := hF _ _ _ hf
      have hset : ∀ k, (G1.set (h t) (some n)) k = none → G1 k = none := by
        intro k hk
        unfold HGraph.set at hk
        split at hk
        · cases hk
        · exact hk
      refine ⟨⟨?_, ?_, ?_⟩, by simp [HGraph.set]⟩
      · intro k hk hk'
        refine m1 k ?_ (hset k hk')
        unfold HGraph.set
        split
        · nofun
        · exact hk
      · intro k hk
        unfold HGraph.set at hk
        split at hk
        · cases hk
        · rename_i hne
          have := m2 k hk
          unfold HGraph.set at this
          rw [if_neg hne] at this
          exact this
      · intro hc
        have hc1 : HClosed G1 := m3 (by
          intro k n hk j hj hj'
          unfold HGraph.set at hk hj'
          split at hk
          · cases hk
          · split at hj'
            · cases hj'
            · exact hc k n hk j hj hj')
        intro k m hk j hj hj'
        have hj1 := hset j hj'
        unfold HGraph.set at hk
        split at hk
        · cases hk; exact hids j hj hj1
        · exact hc1 k m hk j hj hj1

/-- Inserting a finished node whose ids are there. -/
theorem insert_step {G : HGraph ι} {i : ι} {n : HNode ι} (hg : G i = none)
    (hn : ∀ j ∈ n.ids, G j ≠ none) : HStep G ((G.set i none).set i (some n)) := by
  have he : ∀ k, ((G.set i none).set i (some n)) k = if k = i then some (some n) else G k := by
    intro k
    unfold HGraph.set
    by_cases hk : k = i <;> simp [hk]
  refine ⟨fun k hk hk' => ?_, fun k hk => ?_, fun hc k m hk j hj hj' => ?_⟩
  · rw [he] at hk'; split at hk'
    · cases hk'
    · exact hk hk'
  · rw [he] at hk; split at hk
    · cases hk
    · exact hk
  · rw [he] at hk hj'
    split at hj'
    · cases hj'
    · split at hk
      · cases hk; exact hn j hj hj'
      · exact hc k m hk j hj hj'

omit [DecidableEq ι] in
theorem buildListH_step {b : HGraph ι → Ty → Option (ι × HGraph ι)}
    (hb : ∀ G t i G', b G t = some (i, G') → HStep G G' ∧ G' i ≠ none) :
    ∀ ts G is G', buildListH b G ts = some (is, G') → HStep G G' ∧ ∀ j ∈ is, G' j ≠ none := by
  intro ts
  induction ts with
  | nil => intro G is G' hr; cases hr; exact ⟨HStep.rfl' _, nofun⟩
  | cons t ts ih =>
    intro G is G' hr
    unfold buildListH at hr
    cases h1 : b G t with
    | none => rw [h1] at hr; cases hr
    | some r =>
      obtain ⟨i, G1⟩ := r
      rw [h1] at hr
      simp only at hr
      cases h2 : buildListH b G1 ts with
      | none => rw [h2] at hr; cases hr
      | some r =>
        obtain ⟨js, G2⟩ := r
        rw [h2] at hr
        cases hr
        obtain ⟨s1, p1⟩ := hb _ _ _ _ h1
        obtain ⟨s2, p2⟩ := ih _ _ _ h2
        refine ⟨s1.trans s2, ?_⟩
        intro j hj
        rcases List.mem_cons.mp hj with rfl | hj
        · exact s2.1 _ p1
        · exact p2 j hj

theorem bmInsert_snd_mem {κ α : Type} {cmp : κ → κ → Ordering} {k : κ} {v : α} {l : List (κ × α)} {x : α}
    (hx : x ∈ (bmInsert cmp k v l).map (·.2)) : x = v ∨ x ∈ l.map (·.2) := by
  induction l with
  | nil => simpa [bmInsert] using hx
  | cons p r ih =>
    unfold bmInsert at hx
    cases hc : cmp k p.1 <;> rw [hc] at hx <;> simp at hx ⊢ <;> grind

theorem bmOfList_snd_mem {κ α : Type} {cmp : κ → κ → Ordering} {l : List (κ × α)} {x : α}
    (hx : x ∈ (bmOfList cmp l).map (·.2)) : x ∈ l.map (·.2) := by
  have : ∀ (l m : List (κ × α)), x ∈ (l.foldl (fun m p => bmInsert cmp p.1 p.2 m) m).map (·.2) →
      x ∈ l.map (·.2) ∨ x ∈ m.map (·.2) := by
    intro l
    induction l with
    | nil => intro m h; exact .inr h
    | cons p r ih =>
      intro m h
      rcases ih _ h with h | h
      · exact .inl (by rw [List.map_cons]; exact List.mem_cons_of_mem _ h)
      · rcases bmInsert_snd_mem h with h | h
        · exact .inl (by rw [List.map_cons, h]; exact List.mem_cons_self)
        · exact .inr h
  rcases this l [] hx with h | h
  · exact h
  · cases h

omit [DecidableEq ι] in
theorem namedNodesH_mem {fds : List FieldDef} {ids : List ι} {j : ι}
    (hj : j ∈ (namedNodesH fds ids).map (·.2)) : j ∈ ids := by
  have := bmOfList_snd_mem hj
  obtain ⟨p, hp, rfl⟩ := List.mem_map.mp this
  exact (List.of_mem_zip (show (p.1, p.2) ∈ _ from hp)).2

omit [DecidableEq ι] in
theorem buildVariantsH_step {b : HGraph ι → Ty → Option (ι × HGraph ι)}
    (hb : ∀ G t i G', b G t = some (i, G') → HStep G G' ∧ G' i ≠ none) :
    ∀ vds G vs G', buildVariantsH b G vds = some (vs, G') →
      HStep G G' ∧ ∀ v ∈ vs, ∀ j ∈ v.ids, G' j ≠ none := by
  intro vds
  induction vds with
  | nil => intro G is G' hr; cases hr; exact ⟨HStep.rfl' _, nofun⟩
  | cons vd vds ih =>
    intro G vs G' hr
    have key : ∀ {G1 : HGraph ι} {v : HVariant ι} {ws}, HStep G G1 → (∀ j ∈ v.ids, G1 j ≠ none) →
        buildVariantsH b G1 vds = some (ws, G') →
        HStep G G' ∧ ∀ w ∈ v :: ws, ∀ j ∈ w.ids, G' j ≠ none := by
      intro G1 v ws s1 p1 h2
      obtain ⟨s2, p2⟩ := ih _ _ _ h2
      refine ⟨s1.trans s2, ?_⟩
      intro w hw j hj
      rcases List.mem_cons.mp hw with rfl | hw
      · exact s2.1 _ (p1 j hj)
      · exact p2 w hw j hj
    cases vd with
    | struct n fds =>
      simp only [buildVariantsH] at hr
      cases hx : buildListH b G ((visDefs fds).map (·.ty)) with
      | none => rw [hx] at hr; cases hr
      | some r =>
        obtain ⟨ids, G1⟩ := r
        obtain ⟨s, p⟩ := buildListH_step hb _ _ _ _ hx
        rw [hx] at hr
        simp only at hr
        cases h2 : buildVariantsH b G1 vds with
        | none => rw [h2] at hr; cases hr
        | some r =>
          rw [h2] at hr; cases hr
          exact key s (fun j hj => p j (namedNodesH_mem hj)) h2
    | tuple n fds =>
      simp only [buildVariantsH] at hr
      cases hx : buildListH b G ((visDefs fds).map (·.ty)) with
      | none => rw [hx] at hr; cases hr
      | some r =>
        obtain ⟨ids, G1⟩ := r
        obtain ⟨s, p⟩ := buildListH_step hb _ _ _ _ hx
        rw [hx] at hr
        simp only at hr
        cases h2 : buildVariantsH b G1 vds with
        | none => rw [h2] at hr; cases hr
        | some r =>
          rw [h2] at hr; cases hr
          exact key s (fun j hj => p j hj) h2
    | unit n =>
      simp only [buildVariantsH] at hr
      cases h2 : buildVariantsH b G vds with
      | none => rw [h2] at hr; cases hr
      | some r =>
        rw [h2] at hr; cases hr
        exact key (HStep.rfl' _) nofun h2

theorem buildH_step : ∀ fuel G t i G', buildH E h fuel G t = some (i, G') → HStep G G' ∧ G' i ≠ none := by
  intro fuel
  induction fuel with
  | zero => intro G t i G' hr; cases hr
  | succ fuel ih =>
    intro G t i G' hr
    have hmap : ∀ {α : Type} {G : HGraph ι} {x : Option (α × HGraph ι)} {f : α → HNode ι} {n G'},
        (∀ a G1, x = some (a, G1) → HStep G G1 ∧ ∀ j ∈ (f a).ids, G1 j ≠ none) →
        x.map (fun r => (f r.1, r.2)) = some (n, G') → HStep G G' ∧ ∀ j ∈ n.ids, G' j ≠ none := by
      intro α G x f n G' hx he
      cases x with
      | none => cases he
      | some r => cases he; exact hx _ _ rfl
    have hopq : ∀ {t : Ty}, getOrBuildH h G t (fun g => some (.opaque, g)) = some (i, G') →
        HStep G G' ∧ G' i ≠ none := by
      intro t hr
      exact getOrBuildH_step (fun G n G' he => by cases he; exact ⟨HStep.rfl' _, nofun⟩) hr
    cases t with
    | scalar k =>
      simp only [buildH] at hr
      exact getOrBuildH_step (fun G n G' he => by cases he; exact ⟨HStep.rfl' _, nofun⟩) hr
    | nonzero k => simp only [buildH] at hr; exact hopq hr
    | value => simp only [buildH] at hr; exact hopq hr
    | structValue => simp only [buildH] at hr; exact hopq hr
    | tupleStructValue => simp only [buildH] at hr; exact hopq hr
    | tupleValue => simp only [buildH] at hr; exact hopq hr
    | enumValue => simp only [buildH] at hr; exact hopq hr
    | box u => simp only [buildH] at hr; exact ih _ _ _ _ hr
    | vec u =>
      simp only [buildH] at hr
      refine getOrBuildH_step (fun G n G' he => hmap (f := fun i => HNode.list i) (fun a G1 hx => ?_) he) hr
      obtain ⟨s, p⟩ := ih _ _ _ _ hx
      exact ⟨s, fun j hj => by simp [HNode.ids] at hj; subst hj; exact p⟩
    | array u m =>
      simp only [buildH] at hr
      refine getOrBuildH_step (fun G n G' he => hmap (f := fun i => HNode.array i m) (fun a G1 hx => ?_) he) hr
      obtain ⟨s, p⟩ := ih _ _ _ _ hx
      exact ⟨s, fun j hj => by simp [HNode.ids] at hj; subst hj; exact p⟩
    | map k v =>
      simp only [buildH] at hr
      refine getOrBuildH_step (fun G n G' he => ?_) hr
      cases h1 : buildH E h fuel G k with
      | none => rw [h1] at he; cases he
      | some r =>
        obtain ⟨kid, G1⟩ := r
        rw [h1] at he
        simp only at he
        obtain ⟨s1, p1⟩ := ih _ _ _ _ h1
        have := hmap (G := G1) (f := fun i => HNode.map kid i) (fun a G2 hx => by
          obtain ⟨s2, p2⟩ := ih _ _ _ _ hx
          refine ⟨s2, fun j hj => ?_⟩
          simp [HNode.ids] at hj
          rcases hj with rfl | rfl
          · exact s2.1 _ p1
          · exact p2) he
        exact ⟨s1.trans this.1, this.2⟩
    | tuple ts =>
      simp only [buildH] at hr
      exact getOrBuildH_step (fun G n G' he => hmap (f := fun i => HNode.tuple i)
        (fun a G1 hx => buildListH_step ih _ _ _ _ hx) he) hr
    | named nm =>
      cases hd : E.decl nm with
      | none => simp only [buildH, hd] at hr; cases hr
      | some D =>
        obtain ⟨b, c⟩ := D
        cases b with
        | struct fds =>
          simp only [buildH, hd] at hr
          refine getOrBuildH_step (fun G n G' he => hmap
            (f := fun i => HNode.struct ((visDefs fds).map (·.name)) (namedNodesH fds i))
            (fun a G1 hx => ?_) he) hr
          obtain ⟨s, p⟩ := buildListH_step ih _ _ _ _ hx
          exact ⟨s, fun j hj => p j (namedNodesH_mem hj)⟩
        | tupleStruct fds =>
          simp only [buildH, hd] at hr
          cases h1 : buildListH (buildH E h fuel) G ((visDefs fds).map (·.ty)) with
          | none => rw [h1] at hr; cases hr
          | some r =>
            obtain ⟨is, G1⟩ := r
            rw [h1] at hr
            simp only at hr
            obtain ⟨s1, p1⟩ := buildListH_step ih _ _ _ _ h1
            -- the ids were put in before, so they are still there
            unfold getOrBuildH at hr
            cases hg : G1 (h (.named nm)) with
            | some e =>
              rw [hg] at hr; cases hr
              exact ⟨s1, by rw [hg]; nofun⟩
            | none =>
              rw [hg] at hr
              cases hr
              refine ⟨s1.trans (insert_step hg p1), by simp [HGraph.set]⟩
        | enum vds =>
          simp only [buildH, hd] at hr
          cases h1 : buildVariantsH (buildH E h fuel) G vds with
          | none => rw [h1] at hr; cases hr
          | some r =>
            obtain ⟨vs, G1⟩ := r
            rw [h1] at hr
            simp only at hr
            obtain ⟨s1, p1⟩ := buildVariantsH_step ih _ _ _ _ h1
            unfold getOrBuildH at hr
            cases hg : G1 (h (.named nm)) with
            | some e =>
              rw [hg] at hr; cases hr
              exact ⟨s1, by rw [hg]; nofun⟩
            | none =>
              rw [hg] at hr
              cases hr
              refine ⟨s1.trans (insert_step (n := .enum vs) hg ?_), by simp [HGraph.set]⟩
              intro j hj
              obtain ⟨v, hv, hj⟩ := List.mem_flatMap.mp hj
              exact p1 v hv j hj

end Mirror
