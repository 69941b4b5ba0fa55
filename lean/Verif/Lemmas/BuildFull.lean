import Verif.Spec.BuildFull
import Verif.Lemmas.NodeId
import Verif.Lemmas.Codec
import Verif.Lemmas.Containers
import Verif.Lemmas.RoundTrip
import Verif.Props.Meta

set_option linter.unusedSimpArgs false

/-! # Building a graph with everything in it -/

namespace Mirror

variable {E : Env} {S : Facts}

/-! ## Without names, docs and metadata it is the graph of `Model/NodeId` -/

theorem bareGraph_insert (g : WireGraph) (i : WireId) (e : Option WireNode) :
    bareGraph (bmInsert compare i e g) = (bareGraph g).set i (e.map WireNode.bare) := by
  funext j
  simp only [bareGraph, HGraph.set]
  rw [bmGet_insert natCmpOn (fun _ _ => trivial) trivial trivial]
  by_cases h : j = i
  · subst h; simp
  · have : compare j i ≠ .eq := fun h' => h (Nat.compare_eq_eq.mp h')
    simp [h, this]

/-- The result of a step, without names, docs and metadata. -/
def bareR {α β : Type} (f : α → β) (r : Option (α × WireGraph)) : Option (β × HGraph WireId) :=
  r.map fun r => (f r.1, bareGraph r.2)

theorem getOrBuildW_bare (g : WireGraph) (t : Ty) {f : WireGraph → Option (WireNode × WireGraph)}
    {F : HGraph WireId → Option (HNode WireId × HGraph WireId)}
    (hf : ∀ g, bareR WireNode.bare (f g) = F (bareGraph g)) :
    bareR id (getOrBuildW S g t f) = getOrBuildH S.id (bareGraph g) t F := by
  unfold getOrBuildW getOrBuildH
  cases hg : bmGet compare (S.id t) g with
  | some e => simp [bareR, bareGraph, hg]
  | none =>
    have h1 := hf (bmInsert compare (S.id t) none g)
    rw [bareGraph_insert] at h1
    have h2 : bareGraph g (S.id t) = none := by simp [bareGraph, hg]
    simp only [h2]
    rw [Option.map_none] at h1
    rw [← h1]
    cases f (bmInsert compare (S.id t) none g) with
    | none => rfl
    | some r => simp [bareR, bareGraph_insert]

theorem buildListW_bare {b : WireGraph → Ty → Option (WireId × WireGraph)}
    {B : HGraph WireId → Ty → Option (WireId × HGraph WireId)}
    (hb : ∀ g t, bareR id (b g t) = B (bareGraph g) t) :
    ∀ ts g, bareR id (buildListW b g ts) = buildListH B (bareGraph g) ts := by
  intro ts
  induction ts with
  | nil => intro g; rfl
  | cons t ts ih =>
    intro g
    unfold buildListW buildListH
    rw [← hb]
    cases b g t with
    | none => rfl
    | some r =>
      obtain ⟨i, g1⟩ := r
      have h1 := ih g1
      simp only [bareR, Option.map_some, id]
      rw [← h1]
      cases buildListW b g1 ts <;> rfl

theorem namedFieldNodes_bare (attrs : String → Attrs) (fds : List FieldDef) (ids : List WireId)
    (h : ids.length = (visDefs fds).length) :
    (bmOfList strCmp ((namedFieldNodes attrs fds ids).map fun f => (f.name, f))).map
      (fun p => (p.1, p.2.id)) = namedNodesH fds ids ∧
    (namedFieldNodes attrs fds ids).map (·.name) = (visDefs fds).map (·.name) := by
  constructor
  · rw [← bmOfList_map]
    unfold namedNodesH namedFieldNodes
    congr 1
    rw [List.map_map, List.map_map, List.zip_map_left, ]
    rfl
  · unfold namedFieldNodes
    rw [List.map_map]
    have : ((fun x : WireNamed => x.name) ∘ fun p : FieldDef × WireId =>
      (⟨p.1.name, p.2, (attrs p.1.name).ann.metadata, (attrs p.1.name).ann.docs⟩ : WireNamed)) =
      (fun fd : FieldDef => fd.name) ∘ Prod.fst := rfl
    rw [this, ← List.map_map, List.map_fst_zip (by omega)]

theorem numbered_map_fst (fds : List FieldDef) (k : Nat) :
    ((fds.zipIdx k).filter fun p => !p.1.skip).map (·.1) = visDefs fds := by
  induction fds generalizing k with
  | nil => rfl
  | cons fd fds ih =>
    simp only [List.zipIdx_cons, visDefs, List.filter_cons]
    cases fd.skip with
    | true => simpa [visDefs] using ih (k + 1)
    | false => simpa [visDefs] using ih (k + 1)

theorem numbered_length (fds : List FieldDef) :
    (fds.zipIdx.filter fun p => !p.1.skip).length = (visDefs fds).length := by
  rw [← numbered_map_fst fds 0, List.length_map]

theorem unnamedFieldNodes_bare (attrs : Nat → Attrs) (fds : List FieldDef) (ids : List WireId)
    (h : ids.length = (visDefs fds).length) :
    (unnamedFieldNodes attrs fds ids).map (·.id) = ids := by
  unfold unnamedFieldNodes
  rw [List.map_map]
  have : ((fun x : WireUnnamed => x.id) ∘ fun p : (FieldDef × Nat) × WireId =>
      (⟨p.2, (attrs p.1.2).ann.metadata, (attrs p.1.2).ann.docs⟩ : WireUnnamed)) = Prod.snd := rfl
  rw [this, List.map_snd_zip (by rw [numbered_length]; omega)]

theorem buildListW_length {b : WireGraph → Ty → Option (WireId × WireGraph)} :
    ∀ {ts g ids g'}, buildListW b g ts = some (ids, g') → ids.length = ts.length := by
  intro ts
  induction ts with
  | nil => intro g ids g' h; cases h; rfl
  | cons t ts ih =>
    intro g ids g' h
    unfold buildListW at h
    cases h1 : b g t with
    | none => rw [h1] at h; cases h
    | some r =>
      obtain ⟨i, g1⟩ := r
      rw [h1] at h
      simp only at h
      cases h2 : buildListW b g1 ts with
      | none => rw [h2] at h; cases h
      | some r =>
        rw [h2] at h
        cases h
        simp [ih h2]

theorem buildVariantsW_bare {n : String} {b : WireGraph → Ty → Option (WireId × WireGraph)}
    {B : HGraph WireId → Ty → Option (WireId × HGraph WireId)}
    (hb : ∀ g t, bareR id (b g t) = B (bareGraph g) t) :
    ∀ vds g, bareR (List.map WireVariant.bare) (buildVariantsW S n b g vds) =
      buildVariantsH B (bareGraph g) vds := by
  intro vds
  induction vds with
  | nil => intro g; rfl
  | cons vd vds ih =>
    intro g
    cases vd with
    | struct v fds =>
      unfold buildVariantsW buildVariantsH
      have h1 := buildListW_bare hb ((visDefs fds).map (·.ty)) g
      simp only
      rw [← h1]
      cases h2 : buildListW b g ((visDefs fds).map (·.ty)) with
      | none => rfl
      | some r =>
        obtain ⟨ids, g1⟩ := r
        have hl := buildListW_length h2
        rw [List.length_map] at hl
        have h3 := ih g1
        simp only [bareR, Option.map_some, id]
        rw [← h3]
        cases buildVariantsW S n b g1 vds with
        | none => rfl
        | some r =>
          obtain ⟨hn1, hn2⟩ := namedFieldNodes_bare (S.variantField n v) fds ids hl
          simp [bareR, WireVariant.bare, WireStructVariant.new, hn2, hn1]
    | tuple v fds =>
      unfold buildVariantsW buildVariantsH
      have h1 := buildListW_bare hb ((visDefs fds).map (·.ty)) g
      simp only
      rw [← h1]
      cases h2 : buildListW b g ((visDefs fds).map (·.ty)) with
      | none => rfl
      | some r =>
        obtain ⟨ids, g1⟩ := r
        have hl := buildListW_length h2
        rw [List.length_map] at hl
        have h3 := ih g1
        simp only [bareR, Option.map_some, id]
        rw [← h3]
        cases buildVariantsW S n b g1 vds with
        | none => rfl
        | some r => simp [bareR, WireVariant.bare, unnamedFieldNodes_bare _ _ _ hl]
    | unit v =>
      unfold buildVariantsW buildVariantsH
      have h3 := ih g
      simp only
      rw [← h3]
      cases buildVariantsW S n b g vds <;> rfl

theorem buildW_bare : ∀ fuel g t, bareR id (buildW E S fuel g t) = buildH E S.id fuel (bareGraph g) t := by
  intro fuel
  induction fuel with
  | zero => intro g t; rfl
  | succ fuel ih =>
    intro g t
    cases t with
    | scalar k => simp only [buildW, buildH]; exact getOrBuildW_bare g _ fun g => rfl
    | nonzero k => simp only [buildW, buildH]; exact getOrBuildW_bare g _ fun g => rfl
    | value => simp only [buildW, buildH]; exact getOrBuildW_bare g _ fun g => rfl
    | structValue => simp only [buildW, buildH]; exact getOrBuildW_bare g _ fun g => rfl
    | tupleStructValue => simp only [buildW, buildH]; exact getOrBuildW_bare g _ fun g => rfl
    | tupleValue => simp only [buildW, buildH]; exact getOrBuildW_bare g _ fun g => rfl
    | enumValue => simp only [buildW, buildH]; exact getOrBuildW_bare g _ fun g => rfl
    | box u => simp only [buildW, buildH]; exact ih g u
    | vec u =>
      simp only [buildW, buildH]
      refine getOrBuildW_bare g _ fun g => ?_
      rw [← ih g u]
      cases buildW E S fuel g u <;> rfl
    | array u n =>
      simp only [buildW, buildH]
      refine getOrBuildW_bare g _ fun g => ?_
      rw [← ih g u]
      cases buildW E S fuel g u <;> rfl
    | map k v =>
      simp only [buildW, buildH]
      refine getOrBuildW_bare g _ fun g => ?_
      rw [← ih g k]
      cases buildW E S fuel g k with
      | none => rfl
      | some r =>
        obtain ⟨i, g1⟩ := r
        simp only [bareR, Option.map_some, id]
        have := ih g1 v
        rw [← this]
        cases buildW E S fuel g1 v <;> rfl
    | tuple ts =>
      simp only [buildW, buildH]
      refine getOrBuildW_bare g _ fun g => ?_
      rw [← buildListW_bare ih ts g]
      cases buildListW (buildW E S fuel) g ts with
      | none => rfl
      | some r => simp [bareR, WireNode.bare, Function.comp_def]
    | named n =>
      cases hd : E.decl n with
      | none => simp [buildW, buildH, hd, bareR]
      | some dc =>
        obtain ⟨d, c⟩ := dc
        cases d with
        | struct fds =>
          simp only [buildW, buildH, hd]
          refine getOrBuildW_bare g _ fun g => ?_
          rw [← buildListW_bare ih ((visDefs fds).map (·.ty)) g]
          cases h2 : buildListW (buildW E S fuel) g ((visDefs fds).map (·.ty)) with
          | none => rfl
          | some r =>
            obtain ⟨ids, g1⟩ := r
            have hl := buildListW_length h2
            rw [List.length_map] at hl
            obtain ⟨hn1, hn2⟩ := namedFieldNodes_bare (S.field n) fds ids hl
            simp [bareR, WireNode.bare, WireStruct.new, hn2, hn1]
        | tupleStruct fds =>
          simp only [buildW, buildH, hd]
          rw [← buildListW_bare ih ((visDefs fds).map (·.ty)) g]
          cases h2 : buildListW (buildW E S fuel) g ((visDefs fds).map (·.ty)) with
          | none => rfl
          | some r =>
            obtain ⟨ids, g1⟩ := r
            have hl := buildListW_length h2
            rw [List.length_map] at hl
            refine getOrBuildW_bare g1 _ fun g => ?_
            simp [bareR, WireNode.bare, unnamedFieldNodes_bare _ _ _ hl]
        | enum vds =>
          simp only [buildW, buildH, hd]
          rw [← buildVariantsW_bare (S := S) (n := n) ih vds g]
          cases h2 : buildVariantsW S n (buildW E S fuel) g vds with
          | none => rfl
          | some r => exact getOrBuildW_bare r.2 _ fun g => rfl

theorem describeW_bare (fuel : Nat) (t : Ty) :
    (describeW E S fuel t).map WireDescriptor.bare = describeH E S.id fuel t := by
  unfold describeW describeH
  have h := buildW_bare (E := E) (S := S) fuel [] t
  have h0 : bareGraph [] = .empty := rfl
  rw [h0] at h
  rw [← h]
  cases buildW E S fuel [] t <;> rfl

/-! ## What is stored -/

theorem Annotates.of_ann {a : Attrs} (h : a.Parsed) : Annotates a a.ann.metadata a.ann.docs := by
  obtain ⟨raw, h⟩ := h
  have hn : (a.pairs.map (·.1)).Nodup := by
    unfold parseAttrs at h
    split at h
    · cases h; exact List.nodup_nil
    · obtain ⟨m, hm, rfl⟩ := Option.map_eq_some_iff.mp h
      next l _ =>
      obtain ⟨hn, hr⟩ := (parsePairs_iff l [] List.Pairwise.nil m).mp hm
      simp only [List.map_nil, List.nil_append] at hn
      have hm' : m = bmOfList strCmp l := hr
      rw [hm']; exact ((bmOfList_str_perm hn).map (·.1)).nodup_iff.mpr hn
    · cases h
  have e1 : ((a.pairs.map fun p => (p.1, p.2.toValue)).map (·.1)).Nodup := by
    rw [List.map_map]; exact hn
  have p1 := bmOfList_str_perm e1
  have e2 : ((tokenizeMeta a.pairs).map (·.1)).Nodup := (p1.map (·.1)).nodup_iff.mpr e1
  have p2 : (mapMetadata (tokenizeMeta a.pairs)).Perm (tokenizeMeta a.pairs) := by
    unfold mapMetadata
    have : (tokenizeMeta a.pairs).map (fun p => (p.1, p.2)) = tokenizeMeta a.pairs := by simp
    rw [this]
    exact bmOfList_str_perm e2
  refine ⟨rfl, bmOfList_sorted strCmpOn (by simp), fun k v => ?_⟩
  show (k, v) ∈ mapMetadata (tokenizeMeta a.pairs) ↔ _
  rw [p2.mem_iff]
  unfold tokenizeMeta
  rw [p1.mem_iff]
  simp only [List.mem_map, Prod.mk.injEq]
  constructor
  · rintro ⟨p, hp, rfl, rfl⟩; exact ⟨_, hp, rfl⟩
  · rintro ⟨o, ho, rfl⟩; exact ⟨_, ho, rfl, rfl⟩

theorem zip_image {α β : Type} (f : α → β) (l : List α) : l.zip (l.map f) = l.map fun a => (a, f a) := by
  induction l with
  | nil => rfl
  | cons a l ih => simp [ih]

theorem named_full {attrs : String → Attrs} (ha : ∀ f, (attrs f).Parsed) {fds : List FieldDef}
    (hn : (fds.map (·.name)).Nodup) :
    NamedFull S attrs fds
      ((namedFieldNodes attrs fds ((visDefs fds).map fun fd => S.id fd.ty.unbox)).map (·.name))
      (bmOfList strCmp ((namedFieldNodes attrs fds ((visDefs fds).map fun fd => S.id fd.ty.unbox)).map
        fun f => (f.name, f))) := by
  have he : namedFieldNodes attrs fds ((visDefs fds).map fun fd => S.id fd.ty.unbox) =
      (visDefs fds).map fun fd =>
        ⟨fd.name, S.id fd.ty.unbox, (attrs fd.name).ann.metadata, (attrs fd.name).ann.docs⟩ := by
    unfold namedFieldNodes
    rw [zip_image, List.map_map]
    rfl
  rw [he, List.map_map, List.map_map]
  have hnd : (((visDefs fds).map ((fun f : WireNamed => (f.name, f)) ∘ fun fd =>
        ⟨fd.name, S.id fd.ty.unbox, (attrs fd.name).ann.metadata, (attrs fd.name).ann.docs⟩)).map (·.1)).Nodup := by
    rw [List.map_map]
    exact hn.sublist (List.filter_sublist.map _)
  have hp := bmOfList_str_perm hnd
  refine ⟨rfl, bmOfList_sorted strCmpOn (by simp), fun fd hfd hs => ?_, fun p hm => ?_⟩
  · exact ⟨_, hp.mem_iff.mpr (List.mem_map.mpr ⟨fd, List.mem_filter.mpr ⟨hfd, by simp [hs]⟩, rfl⟩), rfl, rfl,
      rfl, .of_ann (ha _)⟩
  · obtain ⟨fd, hfd, rfl⟩ := List.mem_map.mp (hp.mem_iff.mp hm)
    obtain ⟨hm, hs⟩ := List.mem_filter.mp hfd
    exact ⟨fd, hm, by simpa using hs, rfl, rfl, rfl, .of_ann (ha _)⟩

theorem unnamed_full {attrs : Nat → Attrs} (ha : ∀ f, (attrs f).Parsed) (fds : List FieldDef) :
    UnnamedFull S attrs fds
      (unnamedFieldNodes attrs fds ((visDefs fds).map fun fd => S.id fd.ty.unbox)) := by
  unfold UnnamedFull unnamedFieldNodes numbered
  rw [← numbered_map_fst fds 0, List.map_map, zip_image, List.map_map]
  rw [List.forall₂_map_right_iff, List.forall₂_same]
  exact fun p _ => ⟨rfl, .of_ann (ha _)⟩

/-! ## What a build adds -/

/-- What a build does to the graph: it stays in order, new ids are those of types, and new nodes
satisfy `D`. -/
structure WStep (S : Facts) (D : WireId → WireNode → Prop) (g g' : WireGraph) : Prop where
  sorted : BMSorted compare g → BMSorted compare g'
  keys : ∀ i, bmGet compare i g' ≠ none → bmGet compare i g ≠ none ∨ ∃ u, i = S.id u
  nodes : ∀ i m, bmGet compare i g' = some (some m) → bmGet compare i g = some (some m) ∨ D i m

variable {D : WireId → WireNode → Prop}

theorem WStep.refl (g : WireGraph) : WStep S D g g := ⟨id, fun _ h => .inl h, fun _ _ h => .inl h⟩

theorem WStep.trans {a b c : WireGraph} (h : WStep S D a b) (k : WStep S D b c) : WStep S D a c :=
  ⟨fun hs => k.sorted (h.sorted hs), fun i hi => (k.keys i hi).elim (h.keys i) .inr,
    fun i m hi => (k.nodes i m hi).elim (h.nodes i m) .inr⟩

theorem bmGet_insert_nat {α : Type} (g : List (Nat × α)) (i j : Nat) (e : α) :
    bmGet compare j (bmInsert compare i e g) = if j = i then some e else bmGet compare j g := by
  rw [bmGet_insert natCmpOn (fun _ _ => trivial) trivial trivial]
  by_cases h : j = i
  · subst h; simp
  · have : compare j i ≠ .eq := fun h' => h (Nat.compare_eq_eq.mp h')
    simp [h, this]

theorem WStep.insert (g : WireGraph) (t : Ty) {e : Option WireNode} (he : ∀ m, e = some m → D (S.id t) m) :
    WStep S D g (bmInsert compare (S.id t) e g) := by
  refine ⟨fun hs => bmInsert_sorted natCmpOn trivial (fun _ _ => trivial) hs, fun i hi => ?_, fun i m hi => ?_⟩
  · rw [bmGet_insert_nat] at hi
    split at hi
    · next h => exact .inr ⟨t, h⟩
    · exact .inl hi
  · rw [bmGet_insert_nat] at hi
    split at hi
    · next h => subst h; exact .inr (he m (Option.some.inj hi))
    · exact .inl hi

theorem getOrBuildW_step {g g' : WireGraph} {t : Ty} {i : WireId}
    {f : WireGraph → Option (WireNode × WireGraph)}
    (hf : ∀ g n g', f g = some (n, g') → WStep S D g g' ∧ D (S.id t) n)
    (hr : getOrBuildW S g t f = some (i, g')) : i = S.id t ∧ WStep S D g g' := by
  unfold getOrBuildW at hr
  cases hg : bmGet compare (S.id t) g with
  | some e => rw [hg] at hr; cases hr; exact ⟨rfl, .refl _⟩
  | none =>
    rw [hg] at hr
    simp only at hr
    cases h1 : f (bmInsert compare (S.id t) none g) with
    | none => rw [h1] at hr; cases hr
    | some r =>
      obtain ⟨n, g1⟩ := r
      rw [h1] at hr
      cases hr
      obtain ⟨h2, h3⟩ := hf _ _ _ h1
      exact ⟨rfl, (WStep.insert g t (by nofun)).trans (h2.trans (.insert g1 t (by rintro m ⟨⟩; exact h3)))⟩

theorem buildListW_step {b : WireGraph → Ty → Option (WireId × WireGraph)} :
    ∀ (ts : List Ty), (∀ t ∈ ts, ∀ g i g', b g t = some (i, g') → i = S.id t.unbox ∧ WStep S D g g') →
    ∀ g ids g', buildListW b g ts = some (ids, g') → ids = ts.map (fun t => S.id t.unbox) ∧ WStep S D g g' := by
  intro ts
  induction ts with
  | nil => intro _ g ids g' h; cases h; exact ⟨rfl, .refl _⟩
  | cons t ts ih =>
    intro hb g ids g' h
    unfold buildListW at h
    cases h1 : b g t with
    | none => rw [h1] at h; cases h
    | some r =>
      obtain ⟨i, g1⟩ := r
      rw [h1] at h
      simp only at h
      cases h2 : buildListW b g1 ts with
      | none => rw [h2] at h; cases h
      | some r =>
        obtain ⟨js, g2⟩ := r
        rw [h2] at h
        cases h
        obtain ⟨rfl, s1⟩ := hb t (by simp) _ _ _ h1
        obtain ⟨rfl, s2⟩ := ih (fun t ht => hb t (by simp [ht])) _ _ _ h2
        exact ⟨rfl, s1.trans s2⟩

theorem buildVariantsW_step {n : String} {b : WireGraph → Ty → Option (WireId × WireGraph)}
    (hS : S.Every Attrs.Parsed) :
    ∀ (vds : List VariantDef), (∀ vn fds, VariantDef.struct vn fds ∈ vds → (fds.map (·.name)).Nodup) →
    (∀ t ∈ vds.flatMap (fun vd => match vd with
        | .struct _ fds => (fds.filter fun fd => !fd.skip).map (·.ty)
        | .tuple _ fds => (fds.filter fun fd => !fd.skip).map (·.ty)
        | .unit _ => []),
      ∀ g i g', b g t = some (i, g') → i = S.id t.unbox ∧ WStep S D g g') →
    ∀ g vs g', buildVariantsW S n b g vds = some (vs, g') →
      List.Forall₂ (VariantFull S n) vds vs ∧ WStep S D g g' := by
  intro vds
  induction vds with
  | nil => intro _ _ g vs g' h; cases h; exact ⟨.nil, .refl _⟩
  | cons vd vds ih =>
    intro hnd hb g vs g' h
    have ih' := ih (fun vn fds hm => hnd vn fds (by simp [hm])) fun t ht => hb t (by
      rw [List.flatMap_cons]; exact List.mem_append_right _ ht)
    cases vd with
    | struct v fds =>
      unfold buildVariantsW at h
      simp only at h
      cases h1 : buildListW b g ((visDefs fds).map (·.ty)) with
      | none => rw [h1] at h; cases h
      | some r =>
        obtain ⟨ids, g1⟩ := r
        rw [h1] at h
        simp only at h
        cases h2 : buildVariantsW S n b g1 vds with
        | none => rw [h2] at h; cases h
        | some r =>
          obtain ⟨ws, g2⟩ := r
          rw [h2] at h
          cases h
          obtain ⟨rfl, s1⟩ := buildListW_step _ (fun t ht => hb t (by
            rw [List.flatMap_cons]; exact List.mem_append_left _ ht)) _ _ _ h1
          obtain ⟨f2, s2⟩ := ih' _ _ _ h2
          refine ⟨.cons (.struct _ _ _ rfl ?_ (.of_ann (hS.variant n v))) f2, s1.trans s2⟩
          rw [List.map_map]
          exact named_full (hS.variantField n v) (hnd v fds (by simp))
    | tuple v fds =>
      unfold buildVariantsW at h
      simp only at h
      cases h1 : buildListW b g ((visDefs fds).map (·.ty)) with
      | none => rw [h1] at h; cases h
      | some r =>
        obtain ⟨ids, g1⟩ := r
        rw [h1] at h
        simp only at h
        cases h2 : buildVariantsW S n b g1 vds with
        | none => rw [h2] at h; cases h
        | some r =>
          obtain ⟨ws, g2⟩ := r
          rw [h2] at h
          cases h
          obtain ⟨rfl, s1⟩ := buildListW_step _ (fun t ht => hb t (by
            rw [List.flatMap_cons]; exact List.mem_append_left _ ht)) _ _ _ h1
          obtain ⟨f2, s2⟩ := ih' _ _ _ h2
          refine ⟨.cons (.tuple _ _ _ rfl ?_ (.of_ann (hS.variant n v))) f2, s1.trans s2⟩
          rw [List.map_map]
          exact unnamed_full (hS.variantPos n v) fds
    | unit v =>
      unfold buildVariantsW at h
      simp only at h
      cases h2 : buildVariantsW S n b g vds with
      | none => rw [h2] at h; cases h
      | some r =>
        obtain ⟨ws, g2⟩ := r
        rw [h2] at h
        cases h
        obtain ⟨f2, s2⟩ := ih' _ _ _ h2
        exact ⟨.cons (.unit _ _ rfl (.of_ann (hS.variant n v))) f2, s2⟩

/-- Every node a build adds says everything about a component type, under the id of that type. -/
theorem buildW_step (hD : DeclsOK E) (hS : S.Every Attrs.Parsed) {P : Ty → Prop} :
    ∀ fuel t, (∀ u, t.Reach E u → P u) → ∀ g i g', buildW E S fuel g t = some (i, g') →
      i = S.id t.unbox ∧ WStep S (fun i m => ∃ u, P u ∧ i = S.id u.unbox ∧ Full E S u.unbox m) g g' := by
  intro fuel
  induction fuel with
  | zero => intro t _ g i g' h; cases h
  | succ fuel ih =>
    intro t ht g i g' h
    have hc : ∀ c ∈ t.comps E, ∀ g i g', buildW E S fuel g c = some (i, g') →
        i = S.id c.unbox ∧ WStep S (fun i m => ∃ u, P u ∧ i = S.id u.unbox ∧ Full E S u.unbox m) g g' :=
      fun c hc => ih c fun u hu => ht u (Ty.Reach.head hc hu)
    have hP := ht t .refl
    cases t with
    | scalar k =>
      simp only [buildW] at h
      exact getOrBuildW_step (fun g n g' hf => by cases hf; exact ⟨.refl _, _, hP, rfl, .scalar k⟩) h
    | nonzero k =>
      simp only [buildW] at h
      exact getOrBuildW_step (fun g n g' hf => by cases hf; exact ⟨.refl _, _, hP, rfl, .opaque _ trivial⟩) h
    | value =>
      simp only [buildW] at h
      exact getOrBuildW_step (fun g n g' hf => by cases hf; exact ⟨.refl _, _, hP, rfl, .opaque _ trivial⟩) h
    | structValue =>
      simp only [buildW] at h
      exact getOrBuildW_step (fun g n g' hf => by cases hf; exact ⟨.refl _, _, hP, rfl, .opaque _ trivial⟩) h
    | tupleStructValue =>
      simp only [buildW] at h
      exact getOrBuildW_step (fun g n g' hf => by cases hf; exact ⟨.refl _, _, hP, rfl, .opaque _ trivial⟩) h
    | tupleValue =>
      simp only [buildW] at h
      exact getOrBuildW_step (fun g n g' hf => by cases hf; exact ⟨.refl _, _, hP, rfl, .opaque _ trivial⟩) h
    | enumValue =>
      simp only [buildW] at h
      exact getOrBuildW_step (fun g n g' hf => by cases hf; exact ⟨.refl _, _, hP, rfl, .opaque _ trivial⟩) h
    | box u =>
      simp only [buildW] at h
      exact hc u (by simp [Ty.comps]) _ _ _ h
    | vec u =>
      simp only [buildW] at h
      refine getOrBuildW_step (fun g n g' hf => ?_) h
      obtain ⟨⟨j, g1⟩, h1, hf⟩ := Option.map_eq_some_iff.mp hf
      cases hf
      obtain ⟨rfl, s⟩ := hc u (by simp [Ty.comps]) _ _ _ h1
      exact ⟨s, _, hP, rfl, .vec u⟩
    | array u k =>
      simp only [buildW] at h
      refine getOrBuildW_step (fun g n g' hf => ?_) h
      obtain ⟨⟨j, g1⟩, h1, hf⟩ := Option.map_eq_some_iff.mp hf
      cases hf
      obtain ⟨rfl, s⟩ := hc u (by simp [Ty.comps]) _ _ _ h1
      exact ⟨s, _, hP, rfl, .array u k⟩
    | map k v =>
      simp only [buildW] at h
      refine getOrBuildW_step (fun g n g' hf => ?_) h
      cases h1 : buildW E S fuel g k with
      | none => rw [h1] at hf; cases hf
      | some r =>
        obtain ⟨j, g1⟩ := r
        rw [h1] at hf
        simp only at hf
        obtain ⟨⟨j2, g2⟩, h2, hf⟩ := Option.map_eq_some_iff.mp hf
        cases hf
        obtain ⟨rfl, s1⟩ := hc k (by simp [Ty.comps]) _ _ _ h1
        obtain ⟨rfl, s2⟩ := hc v (by simp [Ty.comps]) _ _ _ h2
        exact ⟨s1.trans s2, _, hP, rfl, .map k v⟩
    | tuple ts =>
      simp only [buildW] at h
      refine getOrBuildW_step (fun g n g' hf => ?_) h
      obtain ⟨⟨ids, g1⟩, h1, hf⟩ := Option.map_eq_some_iff.mp hf
      cases hf
      obtain ⟨rfl, s⟩ := buildListW_step ts (fun t ht => hc t ht) _ _ _ h1
      refine ⟨s, _, hP, rfl, ?_⟩
      rw [List.map_map]
      exact .tuple ts
    | named n =>
      cases hd : E.decl n with
      | none => simp [buildW, hd] at h
      | some dc =>
        obtain ⟨d, c⟩ := dc
        cases d with
        | struct fds =>
          simp only [buildW, hd] at h
          refine getOrBuildW_step (fun g m g' hf => ?_) h
          obtain ⟨⟨ids, g1⟩, h1, hf⟩ := Option.map_eq_some_iff.mp hf
          cases hf
          obtain ⟨rfl, s⟩ := buildListW_step _
            (fun t ht => hc t (by simp only [Ty.comps, hd]; exact ht)) _ _ _ h1
          refine ⟨s, _, hP, rfl, .struct n fds c _ hd rfl ?_ (.of_ann (hS.item n))⟩
          rw [List.map_map]
          exact named_full (hS.field n) (hD.struct_names n fds c hd)
        | tupleStruct fds =>
          simp only [buildW, hd] at h
          cases h1 : buildListW (buildW E S fuel) g ((visDefs fds).map (·.ty)) with
          | none => rw [h1] at h; cases h
          | some r =>
            obtain ⟨ids, g1⟩ := r
            rw [h1] at h
            obtain ⟨rfl, s⟩ := buildListW_step _
              (fun t ht => hc t (by simp only [Ty.comps, hd]; exact ht)) _ _ _ h1
            obtain ⟨hi, s2⟩ := getOrBuildW_step
              (D := fun i m => ∃ u, P u ∧ i = S.id u.unbox ∧ Full E S u.unbox m) (fun g m g' hf => by
                cases hf
                refine ⟨.refl _, _, hP, rfl, .tupleStruct n fds c _ hd rfl ?_ (.of_ann (hS.item n))⟩
                rw [List.map_map]
                exact unnamed_full (hS.pos n) fds) h
            exact ⟨hi, s.trans s2⟩
        | enum vds =>
          simp only [buildW, hd] at h
          cases h1 : buildVariantsW S n (buildW E S fuel) g vds with
          | none => rw [h1] at h; cases h
          | some r =>
            obtain ⟨vs, g1⟩ := r
            rw [h1] at h
            obtain ⟨hv, s⟩ := buildVariantsW_step hS vds
              (fun vn fds hm => hD.variant_fields n vds c vn fds hd hm)
              (fun t ht => hc t (by simp only [Ty.comps, hd]; exact ht)) _ _ _ h1
            obtain ⟨hi, s2⟩ := getOrBuildW_step
              (D := fun i m => ∃ u, P u ∧ i = S.id u.unbox ∧ Full E S u.unbox m) (fun g m g' hf => by
                cases hf
                exact ⟨.refl _, _, hP, rfl, .enum n vds c _ hd rfl hv (.of_ann (hS.item n))⟩) h
            exact ⟨hi, s.trans s2⟩

/-! ## A node that says everything is the only one -/

theorem sorted_ext {α : Type} {l m : List (String × α)} (hl : BMSorted strCmp l) (hm : BMSorted strCmp m)
    (h : ∀ p, p ∈ l ↔ p ∈ m) : l = m := by
  have hp : l.Perm m :=
    (List.perm_ext_iff_of_nodup ((strSorted_nodup hl).of_map _) ((strSorted_nodup hm).of_map _)).mpr h
  rw [← bmOfList_self strCmpOn (by simp) hl, bmOfList_eq_of_perm strCmpOn (by simp) hm hp]

theorem Annotates.unique {a : Attrs} {md md' : WireMeta} {ds ds' : List String} (h : Annotates a md ds)
    (h' : Annotates a md' ds') : md = md' ∧ ds = ds' :=
  ⟨sorted_ext h.2.1 h'.2.1 fun p => (h.2.2 p.1 p.2).trans (h'.2.2 p.1 p.2).symm, h.1.trans h'.1.symm⟩

theorem FieldFull.unique {attrs : String → Attrs} {fd : FieldDef} {p q : String × WireNamed}
    (h : FieldFull S attrs fd p) (h' : FieldFull S attrs fd q) : p = q := by
  obtain ⟨k, ⟨n, i, md, ds⟩⟩ := p
  obtain ⟨k', ⟨n', i', md', ds'⟩⟩ := q
  obtain ⟨h1, h2, h3, h4⟩ := h
  obtain ⟨h1', h2', h3', h4'⟩ := h'
  obtain ⟨h5, h6⟩ := h4.unique h4'
  simp only at h1 h2 h3 h5 h6 h1' h2' h3'
  simp [h1, h2, h3, h5, h6, h1', h2', h3']

theorem NamedFull.unique {attrs : String → Attrs} {fds : List FieldDef} {ns ns' : List String}
    {fs fs' : List (String × WireNamed)} (h : NamedFull S attrs fds ns fs) (h' : NamedFull S attrs fds ns' fs') :
    ns = ns' ∧ fs = fs' := by
  obtain ⟨h1, h2, h3, h4⟩ := h
  obtain ⟨h1', h2', h3', h4'⟩ := h'
  refine ⟨h1.trans h1'.symm, sorted_ext h2 h2' fun p => ⟨fun hp => ?_, fun hp => ?_⟩⟩
  · obtain ⟨fd, hfd, hs, hf⟩ := h4 p hp
    obtain ⟨q, hq, hf'⟩ := h3' fd hfd hs
    exact hf.unique hf' ▸ hq
  · obtain ⟨fd, hfd, hs, hf⟩ := h4' p hp
    obtain ⟨q, hq, hf'⟩ := h3 fd hfd hs
    exact hf.unique hf' ▸ hq

theorem UnnamedFull.unique {attrs : Nat → Attrs} {fds : List FieldDef} {fs fs' : List WireUnnamed}
    (h : UnnamedFull S attrs fds fs) (h' : UnnamedFull S attrs fds fs') : fs = fs' := by
  unfold UnnamedFull at h h'
  generalize numbered fds = l at h h'
  induction h generalizing fs' with
  | nil => cases h'; rfl
  | cons hf _ ih =>
    cases h' with
    | cons hf' ht' =>
      rw [ih ht']
      next f _ _ _ f' _ =>
      obtain ⟨i, md, ds⟩ := f
      obtain ⟨i', md', ds'⟩ := f'
      obtain ⟨h1, h2⟩ := hf.2.unique hf'.2
      simp only at h1 h2
      have h3 := hf.1.trans hf'.1.symm
      simp only at h3
      rw [h1, h2, h3]

theorem VariantFull.unique {n : String} {vd : VariantDef} {v w : WireVariant} (h : VariantFull S n vd v)
    (h' : VariantFull S n vd w) : v = w := by
  cases h with
  | struct v fds x h1 h2 h3 =>
    cases h' with
    | struct _ _ y h1' h2' h3' =>
      obtain ⟨a1, a2, a3, a4, a5⟩ := x
      obtain ⟨b1, b2, b3, b4, b5⟩ := y
      obtain ⟨e1, e2⟩ := h2.unique h2'
      obtain ⟨e3, e4⟩ := h3.unique h3'
      simp_all
  | tuple v fds x h1 h2 h3 =>
    cases h' with
    | tuple _ _ y h1' h2' h3' =>
      obtain ⟨a1, a2, a4, a5⟩ := x
      obtain ⟨b1, b2, b4, b5⟩ := y
      have e1 := h2.unique h2'
      obtain ⟨e3, e4⟩ := h3.unique h3'
      simp_all
  | unit v x h1 h3 =>
    cases h' with
    | unit _ y h1' h3' =>
      obtain ⟨a1, a4, a5⟩ := x
      obtain ⟨b1, b4, b5⟩ := y
      obtain ⟨e3, e4⟩ := h3.unique h3'
      simp_all

theorem forall₂_unique {α β : Type} {R : α → β → Prop} (hR : ∀ a b c, R a b → R a c → b = c) {l : List α}
    {m k : List β} (h : List.Forall₂ R l m) (h' : List.Forall₂ R l k) : m = k := by
  induction h generalizing k with
  | nil => cases h'; rfl
  | cons hf _ ih =>
    cases h' with
    | cons hf' ht' => rw [ih ht', hR _ _ _ hf hf']

theorem forall₂_right {α β : Type} {R : α → β → Prop} {l : List α} {m : List β} (h : List.Forall₂ R l m)
    {b : β} (hb : b ∈ m) : ∃ a, R a b := by
  induction h with
  | nil => cases hb
  | cons hf _ ih =>
    rcases List.mem_cons.mp hb with rfl | hb
    · exact ⟨_, hf⟩
    · exact ih hb

theorem Full.unique {t : Ty} {m m' : WireNode} (h : Full E S t m) (h' : Full E S t m') : m = m' := by
  cases h with
  | scalar k =>
    cases h' with
    | scalar => rfl
    | «opaque» _ ho => exact ho.elim
  | «opaque» _ ho =>
    cases h' <;> first | rfl | exact ho.elim
  | vec u =>
    cases h' with
    | vec => rfl
    | «opaque» _ ho => exact ho.elim
  | array u n =>
    cases h' with
    | array => rfl
    | «opaque» _ ho => exact ho.elim
  | map k v =>
    cases h' with
    | map => rfl
    | «opaque» _ ho => exact ho.elim
  | tuple ts =>
    cases h' with
    | tuple => rfl
    | «opaque» _ ho => exact ho.elim
  | struct n fds c x h1 h2 h3 h4 =>
    cases h' with
    | «opaque» _ ho => exact ho.elim
    | struct _ fds' c' y h1' h2' h3' h4' =>
      rw [h1] at h1'; cases h1'
      obtain ⟨a1, a2, a3, a4, a5⟩ := x
      obtain ⟨b1, b2, b3, b4, b5⟩ := y
      obtain ⟨e1, e2⟩ := h3.unique h3'
      obtain ⟨e3, e4⟩ := h4.unique h4'
      simp_all
    | tupleStruct _ fds' c' y h1' => rw [h1] at h1'; cases h1'
    | enum _ fds' c' y h1' => rw [h1] at h1'; cases h1'
  | tupleStruct n fds c x h1 h2 h3 h4 =>
    cases h' with
    | «opaque» _ ho => exact ho.elim
    | tupleStruct _ fds' c' y h1' h2' h3' h4' =>
      rw [h1] at h1'; cases h1'
      obtain ⟨a1, a2, a4, a5⟩ := x
      obtain ⟨b1, b2, b4, b5⟩ := y
      have e1 := h3.unique h3'
      obtain ⟨e3, e4⟩ := h4.unique h4'
      simp_all
    | struct _ fds' c' y h1' => rw [h1] at h1'; cases h1'
    | enum _ fds' c' y h1' => rw [h1] at h1'; cases h1'
  | enum n vds c x h1 h2 h3 h4 =>
    cases h' with
    | «opaque» _ ho => exact ho.elim
    | enum _ fds' c' y h1' h2' h3' h4' =>
      rw [h1] at h1'; cases h1'
      obtain ⟨a1, a2, a4, a5⟩ := x
      obtain ⟨b1, b2, b4, b5⟩ := y
      have e1 := forall₂_unique (R := VariantFull S n) (fun _ _ _ k k' => k.unique k') h3 h3'
      obtain ⟨e3, e4⟩ := h4.unique h4'
      simp_all
    | struct _ fds' c' y h1' => rw [h1] at h1'; cases h1'
    | tupleStruct _ fds' c' y h1' => rw [h1] at h1'; cases h1'

/-! ## Storable, and nothing is missing -/

theorem Annotates.storable {a : Attrs} {md : WireMeta} {ds : List String} (h : Annotates a md ds)
    (ha : ∀ p ∈ a.pairs, p.2.toValue.Storable) : MetaStorable md :=
  ⟨h.2.1, fun p hp => by
    obtain ⟨o, ho, he⟩ := (h.2.2 p.1 p.2).mp hp
    exact he ▸ ha _ ho⟩

theorem NamedFull.storable {attrs : String → Attrs} {fds : List FieldDef} {ns : List String}
    {fs : List (String × WireNamed)} (h : NamedFull S attrs fds ns fs) (hi : ∀ u, Fits64 (S.id u))
    (ha : ∀ f, ∀ p ∈ (attrs f).pairs, p.2.toValue.Storable) : NamedStorable fs :=
  ⟨h.2.1, fun p hp => by
    obtain ⟨fd, _, _, h1, h2, h3, h4⟩ := h.2.2.2 p hp
    exact ⟨h3 ▸ hi _, h4.storable (ha _)⟩⟩

theorem UnnamedFull.storable {attrs : Nat → Attrs} {fds : List FieldDef} {fs : List WireUnnamed}
    (h : UnnamedFull S attrs fds fs) (hi : ∀ u, Fits64 (S.id u))
    (ha : ∀ f, ∀ p ∈ (attrs f).pairs, p.2.toValue.Storable) : ∀ f ∈ fs, f.Storable := by
  unfold UnnamedFull at h
  generalize numbered fds = l at h
  induction h with
  | nil => simp
  | cons hf _ ih =>
    intro f hm
    rcases List.mem_cons.mp hm with rfl | hm
    · exact ⟨hf.1 ▸ hi _, hf.2.storable (ha _)⟩
    · exact ih f hm

theorem Full.storable {t : Ty} {m : WireNode} (h : Full E S t m) (hi : ∀ u, Fits64 (S.id u))
    (ha : S.Every fun a => ∀ p ∈ a.pairs, p.2.toValue.Storable) (hl : ∀ u n, t = .array u n → Fits64 n) :
    m.Storable := by
  have h0 : MetaStorable [] := ⟨List.Pairwise.nil, by simp⟩
  cases h with
  | scalar => trivial
  | «opaque» _ ho => exact ⟨h0, nofun⟩
  | vec u => exact hi _
  | array u n => exact ⟨hi _, hl u n rfl⟩
  | map k v => exact ⟨hi _, hi _⟩
  | tuple ts =>
    refine ⟨fun f hf => ?_, h0⟩
    obtain ⟨u, _, rfl⟩ := List.mem_map.mp hf
    exact ⟨hi _, h0⟩
  | struct n fds c x h1 h2 h3 h4 => exact ⟨h3.storable hi (ha.field n), h4.storable (ha.item n)⟩
  | tupleStruct n fds c x h1 h2 h3 h4 => exact ⟨h3.storable hi (ha.pos n), h4.storable (ha.item n)⟩
  | enum n vds c x h1 h2 h3 h4 =>
    refine ⟨?_, h4.storable (ha.item n)⟩
    clear h2 h4
    generalize x.variants = vs at h3
    clear h1
    induction h3 with
    | nil => simp
    | cons hf _ ih =>
      intro w hw
      rcases List.mem_cons.mp hw with rfl | hw
      · cases hf with
        | struct v fds y k1 k2 k3 => exact ⟨k2.storable hi (ha.variantField n v), k3.storable (ha.variant n v)⟩
        | tuple v fds y k1 k2 k3 => exact ⟨k2.storable hi (ha.variantPos n v), k3.storable (ha.variant n v)⟩
        | unit v y k1 k3 => exact k3.storable (ha.variant n v)
      · exact ih w hw

theorem NamedFull.lists {attrs : String → Attrs} {fds : List FieldDef} {ns : List String}
    {fs : List (String × WireNamed)} (h : NamedFull S attrs fds ns fs) : ∀ x ∈ ns, x ∈ fs.map (·.1) := by
  intro x hx
  rw [h.1] at hx
  obtain ⟨fd, hfd, rfl⟩ := List.mem_map.mp hx
  obtain ⟨hfd, hs⟩ := List.mem_filter.mp hfd
  obtain ⟨p, hp, hf⟩ := h.2.2.1 fd hfd (by simpa using hs)
  exact List.mem_map.mpr ⟨p, hp, hf.1⟩

theorem Full.lists {t : Ty} {m : WireNode} (h : Full E S t m) : ¬ m.ListsMissing := by
  cases h with
  | struct n fds c x h1 h2 h3 h4 => rintro ⟨y, hy, hn⟩; exact hn (h3.lists y hy)
  | enum n vds c x h1 h2 h3 h4 =>
    rintro ⟨v, hv, y, hy, hn⟩
    obtain ⟨vd, hf⟩ := forall₂_right h3 hv
    cases hf with
    | struct _ _ _ k1 k2 k3 => exact hn (k2.lists y hy)
  | _ => exact id

end Mirror
