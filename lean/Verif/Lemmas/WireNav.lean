import Verif.Spec.SerdeType
import Verif.Lemmas.Codec
import Verif.Lemmas.ReflectEq
import Verif.Lemmas.TypePath

set_option linter.unusedSimpArgs false

/-!
# Lemmas on navigating arbitrary descriptors
-/

namespace Mirror

/-- The variant lists a name without a field. -/
def VariantNode.ListsMissing : VariantNode → Prop
  | .struct _ names fields => ∃ x ∈ names, x ∉ fields.map (·.1)
  | _ => False

/-- The node lists a name without a field. -/
def TypeNode.ListsMissing : TypeNode → Prop
  | .struct names fields => ∃ x ∈ names, x ∉ fields.map (·.1)
  | .enum vs => ∃ v ∈ vs, v.ListsMissing
  | _ => False

def VariantNode.Sorted : VariantNode → Prop
  | .struct _ _ fields => BMSorted strCmp fields
  | _ => True

/-- The field maps of the node are in key order. -/
def TypeNode.Sorted : TypeNode → Prop
  | .struct _ fields => BMSorted strCmp fields
  | .enum vs => ∀ v ∈ vs, v.Sorted
  | _ => True

theorem bmGet_str_iff {α} {l : List (String × α)} (hs : BMSorted strCmp l) {k : String} {v : α} :
    bmGet strCmp k l = some v ↔ (k, v) ∈ l := by
  rw [bmGet_iff strCmpOn (by simp) hs trivial]
  simp [strCmp_eq_iff]

theorem bmGet_str_none {α} {l : List (String × α)} (hs : BMSorted strCmp l) {k : String} :
    bmGet strCmp k l = none ↔ k ∉ l.map (·.1) := by
  rw [Option.eq_none_iff_forall_not_mem]
  simp only [Option.mem_def, bmGet_str_iff hs, List.mem_map, not_exists, not_and]
  constructor
  · rintro h ⟨a, b⟩ hp rfl; exact h b hp
  · intro h b hb; exact h (k, b) hb rfl

/-- What items, named and numbered access to named fields show. -/
theorem named_shows {g : TypeGraph} {names : List String} {fields : List (String × Ty)}
    (hs : BMSorted strCmp fields) (o : Option TypeView) :
    ((∃ f ∈ (names.map fun n => (bmGet strCmp n fields).map fun id => (⟨n, id, g⟩ : NamedField)),
        o = f.bind NamedField.getType) ∨
      ∃ n f, ((bmGet strCmp n fields).map fun id => (⟨n, id, g⟩ : NamedField)) = some f ∧ o = f.getType) ↔
    (∃ j ∈ fields.map (·.2), o = TypeView.new g j) ∨ (o = none ∧ ∃ x ∈ names, x ∉ fields.map (·.1)) := by
  constructor
  · rintro (⟨f, hf, rfl⟩ | ⟨n, f, hf, rfl⟩)
    · obtain ⟨n, hn, rfl⟩ := List.mem_map.1 hf
      cases hg : bmGet strCmp n fields with
      | none => exact .inr ⟨rfl, n, hn, (bmGet_str_none hs).1 hg⟩
      | some j =>
        exact .inl ⟨j, List.mem_map.2 ⟨_, (bmGet_str_iff hs).1 hg, rfl⟩, rfl⟩
    · obtain ⟨j, hj, rfl⟩ := Option.map_eq_some_iff.1 hf
      exact .inl ⟨j, List.mem_map.2 ⟨_, (bmGet_str_iff hs).1 hj, rfl⟩, rfl⟩
  · rintro (⟨j, hj, rfl⟩ | ⟨rfl, n, hn, hx⟩)
    · obtain ⟨⟨n, j⟩, hp, rfl⟩ := List.mem_map.1 hj
      exact .inr ⟨n, ⟨n, j, g⟩, by rw [(bmGet_str_iff hs).2 hp]; rfl, rfl⟩
    · exact .inl ⟨none, List.mem_map.2 ⟨n, hn, by rw [(bmGet_str_none hs).2 hx]; rfl⟩, rfl⟩

theorem named_at {g : TypeGraph} {names : List String} {fields : List (String × Ty)} {i : Nat} {f}
    (h : (names[i]?.bind fun n => (bmGet strCmp n fields).map fun id => (⟨n, id, g⟩ : NamedField)) =
      some f) :
    ∃ n, ((bmGet strCmp n fields).map fun id => (⟨n, id, g⟩ : NamedField)) = some f := by
  obtain ⟨n, _, hn⟩ := Option.bind_eq_some_iff.1 h
  exact ⟨n, hn⟩

theorem pos_at {g : TypeGraph} {fields : List Ty} {i : Nat} {f}
    (h : (fields[i]?.map fun id => (⟨id, g⟩ : UnnamedField)) = some f) :
    ∃ j ∈ fields, f = ⟨j, g⟩ := by
  obtain ⟨j, hj, rfl⟩ := Option.map_eq_some_iff.1 h
  exact ⟨j, List.mem_of_getElem? hj, rfl⟩

theorem variant_shows {e : EnumType} (hs : ∀ v ∈ e.variants, v.Sorted) {o : Option TypeView} :
    ShowsType (.enum e) o ↔ (∃ j ∈ e.variants.flatMap VariantNode.ids, o = TypeView.new e.graph j) ∨
      (o = none ∧ ∃ v ∈ e.variants, v.ListsMissing) := by
  have hw : ∀ w ∈ e.variantViews,
      ((∃ f ∈ w.fieldTypes, o = f.bind VariantField.getType) ∨
        (∃ n f, w.fieldType n = some f ∧ o = f.getType)) →
      (∃ j ∈ e.variants.flatMap VariantNode.ids, o = TypeView.new e.graph j) ∨
        (o = none ∧ ∃ v ∈ e.variants, v.ListsMissing) := by
    intro w hw h
    obtain ⟨v, hv, rfl⟩ := List.mem_map.1 hw
    cases v with
    | struct n names fields =>
      have := (named_shows (g := e.graph) (names := names) (hs _ hv) o).1 (by
        rcases h with ⟨f, hf, rfl⟩ | h
        · left
          simp only [VariantView.fieldTypes, StructVariant.fieldTypes, List.mem_map] at hf
          obtain ⟨f', hf', rfl⟩ := hf
          exact ⟨f', List.mem_map.2 hf', by cases f' <;> rfl⟩
        · exact .inr h)
      rcases this with ⟨j, hj, hj'⟩ | ⟨h0, hx⟩
      · exact .inl ⟨j, List.mem_flatMap.2 ⟨_, hv, hj⟩, hj'⟩
      · exact .inr ⟨h0, _, hv, hx⟩
    | tuple n fields =>
      rcases h with ⟨f, hf, rfl⟩ | ⟨n, f, hf, rfl⟩
      · simp only [VariantView.fieldTypes, TupleVariant.fieldTypes, List.mem_map, List.map_map] at hf
        obtain ⟨j, hj, rfl⟩ := hf
        exact .inl ⟨j, List.mem_flatMap.2 ⟨_, hv, hj⟩, rfl⟩
      · cases hf
    | unit n =>
      rcases h with ⟨f, hf, rfl⟩ | ⟨n, f, hf, rfl⟩
      · cases hf
      · cases hf
  constructor
  · intro h
    cases h with
    | variantItem _ w f h1 h2 => exact hw w h1 (.inl ⟨f, h2, rfl⟩)
    | variantNamed _ w n f h1 h2 => exact hw w h1 (.inr ⟨n, f, h2, rfl⟩)
    | variantAt _ w i f h1 h2 =>
      cases w with
      | struct v =>
        obtain ⟨f', hf', rfl⟩ := Option.map_eq_some_iff.1 h2
        obtain ⟨n, hn⟩ := named_at hf'
        exact hw _ h1 (.inr ⟨n, f', hn, rfl⟩)
      | tuple v =>
        obtain ⟨f', hf', rfl⟩ := Option.map_eq_some_iff.1 h2
        obtain ⟨j, hj, rfl⟩ := pos_at hf'
        exact hw _ h1 (.inl ⟨some (.unnamed ⟨j, v.graph⟩),
          List.mem_map.2 ⟨_, List.mem_map.2 ⟨j, hj, rfl⟩, rfl⟩, rfl⟩)
      | unit v => cases h2
  · rintro (⟨j, hj, rfl⟩ | ⟨rfl, v, hv, hx⟩)
    · obtain ⟨v, hv, hj⟩ := List.mem_flatMap.1 hj
      cases v with
      | struct n names fields =>
        obtain ⟨⟨k, j⟩, hp, rfl⟩ := List.mem_map.1 hj
        refine .variantNamed e (.struct ⟨n, names, fields, e.id, e.variants, e.graph⟩) k ⟨k, j, e.graph⟩
          (List.mem_map.2 ⟨_, hv, rfl⟩) ?_
        simp only [VariantView.fieldType, StructVariant.fieldType]
        rw [(bmGet_str_iff (hs _ hv)).2 hp]; rfl
      | tuple n fields =>
        exact .variantItem e (.tuple ⟨n, fields, e.id, e.variants, e.graph⟩)
          (some (.unnamed ⟨j, e.graph⟩)) (List.mem_map.2 ⟨_, hv, rfl⟩)
          (List.mem_map.2 ⟨_, List.mem_map.2 ⟨j, hj, rfl⟩, rfl⟩)
      | unit n => cases hj
    · cases v with
      | struct n names fields =>
        obtain ⟨k, hk, hx⟩ := hx
        refine .variantItem e (.struct ⟨n, names, fields, e.id, e.variants, e.graph⟩) none
          (List.mem_map.2 ⟨_, hv, rfl⟩) ?_
        refine List.mem_map.2 ⟨none, List.mem_map.2 ⟨k, hk, ?_⟩, rfl⟩
        rw [(bmGet_str_none (hs _ hv)).2 hx]; rfl
      | tuple n fields => cases hx
      | unit n => cases hx

/-- What the methods of a view show. -/
theorem showsType_iff {g : TypeGraph} {i : Ty} {n : TypeNode} {v : TypeView} (hn : g.node i = some n)
    (hs : n.Sorted) (hv : TypeView.new g i = some v) {o : Option TypeView} :
    ShowsType v o ↔ (∃ j ∈ n.ids, o = TypeView.new g j) ∨ (o = none ∧ n.ListsMissing) := by
  unfold TypeView.new at hv
  rw [hn] at hv
  cases n with
  | struct names fields =>
    cases hv
    refine Iff.trans ?_ (named_shows hs o)
    constructor
    · intro h
      cases h with
      | structItem _ f h => exact .inl ⟨f, h, rfl⟩
      | structNamed _ n f h => exact .inr ⟨n, f, h, rfl⟩
      | structAt _ k f h => obtain ⟨n, hn⟩ := named_at h; exact .inr ⟨n, f, hn, rfl⟩
    · rintro (⟨f, h, rfl⟩ | ⟨n, f, h, rfl⟩)
      · exact .structItem _ f h
      · exact .structNamed _ n f h
  | tupleStruct fields =>
    cases hv
    simp only [TypeNode.ListsMissing, and_false, or_false]
    constructor
    · intro h
      cases h with
      | tupleStructItem _ f h => obtain ⟨j, hj, rfl⟩ := List.mem_map.1 h; exact ⟨j, hj, rfl⟩
      | tupleStructAt _ k f h => obtain ⟨j, hj, rfl⟩ := pos_at h; exact ⟨j, hj, rfl⟩
    · rintro ⟨j, hj, rfl⟩
      exact .tupleStructItem _ ⟨j, g⟩ (List.mem_map.2 ⟨j, hj, rfl⟩)
  | tuple fields =>
    cases hv
    simp only [TypeNode.ListsMissing, and_false, or_false]
    constructor
    · intro h
      cases h with
      | tupleItem _ f h => obtain ⟨j, hj, rfl⟩ := List.mem_map.1 h; exact ⟨j, hj, rfl⟩
      | tupleAt _ k f h => obtain ⟨j, hj, rfl⟩ := pos_at h; exact ⟨j, hj, rfl⟩
    · rintro ⟨j, hj, rfl⟩
      exact .tupleItem _ ⟨j, g⟩ (List.mem_map.2 ⟨j, hj, rfl⟩)
  | enum vs => cases hv; exact variant_shows (e := ⟨i, vs, g⟩) hs
  | list t =>
    cases hv
    simp only [TypeNode.ListsMissing, TypeNode.ids, and_false, or_false, List.mem_singleton,
      exists_eq_left]
    constructor
    · intro h; cases h; rfl
    · rintro rfl; exact .list _
  | array t k =>
    cases hv
    simp only [TypeNode.ListsMissing, TypeNode.ids, and_false, or_false, List.mem_singleton,
      exists_eq_left]
    constructor
    · intro h; cases h; rfl
    · rintro rfl; exact .array _
  | map k v =>
    cases hv
    simp only [TypeNode.ListsMissing, TypeNode.ids, and_false, or_false]
    constructor
    · intro h
      cases h
      · exact ⟨k, by simp, rfl⟩
      · exact ⟨v, by simp, rfl⟩
    · rintro ⟨j, hj, rfl⟩
      simp at hj
      rcases hj with rfl | rfl
      · exact .mapKey _
      · exact .mapValue _
  | scalar k =>
    cases hv
    simp only [TypeNode.ListsMissing, TypeNode.ids, and_false, or_false]
    constructor
    · intro h; cases h
    · simp
  | «opaque» =>
    cases hv
    simp only [TypeNode.ListsMissing, TypeNode.ids, and_false, or_false]
    constructor
    · intro h; cases h
    · simp

theorem TypeView.new_some {g : TypeGraph} {i : Ty} {v} (h : TypeView.new g i = some v) :
    ∃ n, g.node i = some n := by
  cases hn : g.node i with
  | none => unfold TypeView.new at h; rw [hn] at h; cases h
  | some n => exact ⟨n, rfl⟩

theorem TypeView.new_none {g : TypeGraph} {i : Ty} : TypeView.new g i = none ↔ g.node i = none := by
  unfold TypeView.new
  cases hn : g.node i with
  | none => simp
  | some n => cases n <;> simp

/-- What can be come across. -/
theorem visits_iff {d : TypeDescriptor} (hs : ∀ i n, d.graph.node i = some n → n.Sorted)
    {o : Option TypeView} :
    Visits d o ↔ (∃ i, Nav d.graph d.root i ∧ o = TypeView.new d.graph i) ∨
      (o = none ∧ ∃ i n, Nav d.graph d.root i ∧ d.graph.node i = some n ∧ n.ListsMissing) := by
  constructor
  · intro h
    induction h with
    | root => exact .inl ⟨_, .root, rfl⟩
    | step v o _ hy ih =>
      rcases ih with ⟨i, hi, hv⟩ | ⟨h0, _⟩
      · obtain ⟨n, hn⟩ := TypeView.new_some hv.symm
        rcases (showsType_iff hn (hs i n hn) hv.symm).1 hy with ⟨j, hj, ho⟩ | ⟨ho, hx⟩
        · exact .inl ⟨j, .step i n j hi hn hj, ho⟩
        · exact .inr ⟨ho, i, n, hi, hn, hx⟩
      · cases h0
  · have key : ∀ i, Nav d.graph d.root i → Visits d (TypeView.new d.graph i) := by
      intro i hi
      induction hi with
      | root => exact .root
      | step i n j _ hn hj ih =>
        cases hv : TypeView.new d.graph i with
        | none => rw [TypeView.new_none, hn] at hv; cases hv
        | some v =>
          rw [hv] at ih
          exact .step v _ ih ((showsType_iff hn (hs i n hn) hv).2 (.inl ⟨j, hj, rfl⟩))
    rintro (⟨i, hi, rfl⟩ | ⟨rfl, i, n, hi, hn, hx⟩)
    · exact key i hi
    · cases hv : TypeView.new d.graph i with
      | none => rw [TypeView.new_none, hn] at hv; cases hv
      | some v =>
        have := key i hi
        rw [hv] at this
        exact .step v _ this ((showsType_iff hn (hs i n hn) hv).2 (.inr ⟨rfl, hx⟩))

/-! ## Serialised descriptors -/

theorem wireTy_inj {i j : WireId} (h : wireTy i = wireTy j) : i = j := by
  simpa [wireTy] using h

theorem WireNode.nav_ids (n : WireNode) : (n.nav wireTy).ids = n.ids.map wireTy := by
  cases n with
  | enum n =>
    simp only [WireNode.nav, TypeNode.ids, WireNode.ids, List.flatMap_map, List.map_flatMap]
    congr 1
    funext v
    cases v <;> simp [WireVariant.nav, VariantNode.ids, WireVariant.ids, Function.comp_def]
  | _ => simp [WireNode.nav, TypeNode.ids, WireNode.ids, Function.comp_def]

theorem WireNode.nav_missing (n : WireNode) : (n.nav wireTy).ListsMissing ↔ n.ListsMissing := by
  cases n with
  | enum n =>
    simp only [WireNode.nav, TypeNode.ListsMissing, WireNode.ListsMissing]
    constructor
    · rintro ⟨v, hv, hx⟩
      obtain ⟨w, hw, rfl⟩ := List.mem_map.1 hv
      cases w with
      | struct w =>
        refine ⟨w, hw, ?_⟩
        simpa [WireVariant.nav, VariantNode.ListsMissing, Function.comp_def] using hx
      | tuple w => cases hx
      | unit w => cases hx
    · rintro ⟨w, hw, hx⟩
      refine ⟨_, List.mem_map.2 ⟨_, hw, rfl⟩, ?_⟩
      simpa [WireVariant.nav, VariantNode.ListsMissing, Function.comp_def] using hx
  | _ => simp [WireNode.nav, TypeNode.ListsMissing, WireNode.ListsMissing, Function.comp_def]

theorem sorted_map_snd {α β} {f : String × α → β} {l : List (String × α)} (h : BMSorted strCmp l) :
    BMSorted strCmp (l.map fun p => (p.1, f p)) := by
  unfold BMSorted at *
  exact List.pairwise_map.2 h

theorem WireNode.nav_sorted {n : WireNode} (h : n.Storable) : (n.nav wireTy).Sorted := by
  cases n with
  | struct n => exact sorted_map_snd h.1.1
  | enum n =>
    intro v hv
    obtain ⟨w, hw, rfl⟩ := List.mem_map.1 hv
    have := h.1 w hw
    cases w with
    | struct w => exact sorted_map_snd this.1.1
    | tuple w => trivial
    | unit w => trivial
  | _ => trivial

theorem wire_node {x : WireDescriptor} (hx : x.Storable) {i : WireId} {m : TypeNode} :
    x.nav.graph.node (wireTy i) = some m ↔ ∃ n, (i, some n) ∈ x.graph ∧ m = n.nav wireTy := by
  have hs : BMSorted compare x.graph := by
    unfold BMSorted
    exact hx.2.1.imp fun h => Nat.compare_eq_lt.2 h
  have hg : ∀ o, bmGet compare i x.graph = some o ↔ (i, o) ∈ x.graph := by
    intro o
    rw [bmGet_iff natCmpOn (by simp) hs trivial]
    simp [Nat.compare_eq_eq]
  simp only [TypeGraph.node, WireDescriptor.nav, WireDescriptor.navGraph, wireTy]
  constructor
  · intro h
    cases hb : bmGet compare i x.graph with
    | none => simp [hb] at h
    | some o =>
      cases o with
      | none => simp [hb] at h
      | some n =>
        simp [hb] at h
        exact ⟨n, (hg _).1 hb, h.symm⟩
  · rintro ⟨n, hn, rfl⟩
    simp [(hg _).2 hn]

theorem wire_node_inv {x : WireDescriptor} {t : Ty} {m : TypeNode}
    (h : x.nav.graph.node t = some m) : ∃ i, t = wireTy i := by
  simp only [TypeGraph.node, WireDescriptor.nav] at h
  cases hg : x.navGraph t with
  | none => rw [hg] at h; cases h
  | some o =>
    unfold WireDescriptor.navGraph at hg
    split at hg
    · exact ⟨_, rfl⟩
    · cases hg

theorem wire_nav {x : WireDescriptor} (hx : x.Storable) {t : Ty} :
    Nav x.nav.graph x.nav.root t ↔ ∃ i, t = wireTy i ∧ WireReach x i := by
  constructor
  · intro h
    induction h with
    | root => exact ⟨_, rfl, .root⟩
    | step t m u _ hm hu ih =>
      obtain ⟨i, rfl, hi⟩ := ih
      obtain ⟨n, hn, rfl⟩ := (wire_node hx).1 hm
      rw [WireNode.nav_ids] at hu
      obtain ⟨j, hj, rfl⟩ := List.mem_map.1 hu
      exact ⟨j, rfl, .step i n j hi hn hj⟩
  · rintro ⟨i, rfl, hi⟩
    induction hi with
    | root => exact .root
    | step i n j _ hn hj ih =>
      exact .step (wireTy i) _ _ ih ((wire_node hx).2 ⟨n, hn, rfl⟩)
        (by rw [WireNode.nav_ids]; exact List.mem_map_of_mem hj)

theorem wire_sorted {x : WireDescriptor} (hx : x.Storable) (t : Ty) (m : TypeNode)
    (h : x.nav.graph.node t = some m) : m.Sorted := by
  obtain ⟨i, rfl⟩ := wire_node_inv h
  obtain ⟨n, hn, rfl⟩ := (wire_node hx).1 h
  exact WireNode.nav_sorted ((hx.2.2 _ hn).2 n rfl)

end Mirror
