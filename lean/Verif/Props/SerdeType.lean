import Verif.Lemmas.WireNav
import Verif.Model.Default
import Verif.Props.TypeView
import Verif.Props.Serde
import Verif.Lemmas.With

set_option linter.unusedSimpArgs false

/-!
# C67, C68: serialised type descriptors

C67: what is written is read back unchanged. C68: which descriptors can come out of untrusted data,
and what navigating them does.
-/

namespace Mirror

/-! ## C67 -/

/-- C67: reading what was written gives the same descriptor back - root, every node with its name,
fields, metadata, docs, defaults and placeholders - whether the format names enum variants by name or
by position. -/
theorem C67_roundtrip (m : VariantId) {x : WireDescriptor} (h : x.Storable) :
    (WireDescriptor.codec m).de ((WireDescriptor.codec m).ser x) = some x :=
  (WireDescriptor.codec_exact m).back x h

/-- C67: different descriptors are written differently. -/
theorem C67_injective (m : VariantId) {x y : WireDescriptor} (hx : x.Storable) (hy : y.Storable)
    (h : (WireDescriptor.codec m).ser x = (WireDescriptor.codec m).ser y) : x = y := by
  have := C67_roundtrip m hx
  rw [h, C67_roundtrip m hy] at this
  exact (Option.some.inj this).symm

/-- C67: what can be read from some data is exactly what the Rust type can hold. -/
theorem C67_read_iff (m : VariantId) (x : WireDescriptor) :
    (∃ d, (WireDescriptor.codec m).de d = some x) ↔ x.Storable :=
  ⟨fun ⟨_, h⟩ => (WireDescriptor.codec_exact m).only _ _ h, fun h => ⟨_, C67_roundtrip m h⟩⟩

/-- C67: nothing is left out: a graph is read only if every id and every node in the data can be, and
the graph has exactly the ids that occur. -/
theorem C67_strict (m : VariantId) {kvs : List (Data × Data)} {g : List (WireId × Option WireNode)}
    (h : (wireGraphCodec m).de (.struct [("map", .map kvs)]) = some g) :
    (∀ p ∈ kvs, ∃ i n, Codec.nat64.de p.1 = some i ∧ (WireNode.codec m).option.de p.2 = some n) ∧
    ∀ i, i ∈ g.map (·.1) ↔ ∃ p ∈ kvs, Codec.nat64.de p.1 = some i := by
  have h' : ((Codec.btree compare .nat64 (WireNode.codec m).option).de (.map kvs)).map id = some g := h
  simp only [Codec.btree, deMap, Option.bind_some, Option.map_id, id] at h'
  obtain ⟨l, hl, rfl⟩ := Option.map_eq_some_iff.1 h'
  rw [optAll_eq_some] at hl
  have hk : ∀ p ∈ kvs, ∃ q ∈ l, Codec.nat64.de p.1 = some q.1 ∧ (WireNode.codec m).option.de p.2 = some q.2 := by
    intro p hp
    have := List.mem_map_of_mem (f := fun p : Data × Data => (Codec.nat64.de p.1).bind fun a =>
      ((WireNode.codec m).option.de p.2).map fun b => (a, b)) hp
    rw [hl] at this
    obtain ⟨q, hq, he⟩ := List.mem_map.1 this
    obtain ⟨a, ha, hb⟩ := Option.bind_eq_some_iff.1 he.symm
    obtain ⟨b, hb', rfl⟩ := Option.map_eq_some_iff.1 hb
    exact ⟨_, hq, ha, hb'⟩
  have hk' : ∀ q ∈ l, ∃ p ∈ kvs, Codec.nat64.de p.1 = some q.1 := by
    intro q hq
    have := List.mem_map_of_mem (f := some) hq
    rw [← hl] at this
    obtain ⟨p, hp, he⟩ := List.mem_map.1 this
    obtain ⟨a, ha, hb⟩ := Option.bind_eq_some_iff.1 he
    obtain ⟨b, hb, rfl⟩ := Option.map_eq_some_iff.1 hb
    exact ⟨p, hp, ha⟩
  refine ⟨fun p hp => ?_, fun i => ⟨fun hi => ?_, ?_⟩⟩
  · obtain ⟨q, _, h1, h2⟩ := hk p hp
    exact ⟨_, _, h1, h2⟩
  · obtain ⟨q, hq, rfl⟩ := List.mem_map.1 (bmOfList_fst_mem hi)
    exact hk' q hq
  · rintro ⟨p, hp, hi⟩
    obtain ⟨q, hq, h1, _⟩ := hk p hp
    rw [hi, Option.some.injEq] at h1
    subst h1
    have hg := bmGet_ofList natCmpOn q.1 l
    cases hf : l.reverse.find? fun p => compare q.1 p.1 == .eq with
    | none =>
      have := List.find?_eq_none.1 hf q (List.mem_reverse.2 hq)
      simp at this
    | some r =>
      rw [hf] at hg
      obtain ⟨k, hk, he⟩ := bmGet_mem hg
      rw [Nat.compare_eq_eq] at he
      exact List.mem_map.2 ⟨_, hk, he.symm⟩

/-- A descriptor of `struct Tree { children: Vec<Tree> }` with docs and metadata. -/
def wireTree : WireDescriptor :=
  ⟨7, [(3, some (.list ⟨"Vec<Tree>", 7⟩)),
    (7, some (.struct ⟨"Tree", [("children", ⟨"children", 3, [("k", .enumU "V")], ["doc"]⟩)],
      ["children"], [], []⟩))]⟩

theorem wireTree_storable : wireTree.Storable := by
  refine ⟨by simp [Fits64, wireTree], by simp [wireTree], ?_⟩
  intro p hp
  simp only [wireTree, List.mem_cons, List.not_mem_nil, or_false] at hp
  rcases hp with rfl | rfl
  · refine ⟨by simp [Fits64], ?_⟩
    rintro n hn; cases hn; simp [WireNode.Storable, Fits64]
  · refine ⟨by simp [Fits64], ?_⟩
    rintro n hn; cases hn
    refine ⟨⟨by simp [BMSorted], ?_⟩, by simp [MetaStorable, BMSorted]⟩
    simp only [List.mem_singleton, forall_eq]
    refine ⟨by simp [Fits64], by simp [BMSorted], ?_⟩
    simp only [List.mem_singleton, forall_eq]
    exact .enumU _

/-- Non-vacuity of C67: a recursive type with docs and metadata; what its root is written as. -/
example : (WireDescriptor.codec .byIndex).de ((WireDescriptor.codec .byIndex).ser wireTree) = some wireTree ∧
    WireList.codec.ser ⟨"Vec<Tree>", 7⟩ =
      .struct [("type_name", .str "Vec<Tree>"), ("field_type_id", .int .u64 7)] :=
  ⟨C67_roundtrip _ wireTree_storable, rfl⟩

/-! ## C68 -/

/-- C68, in any graph whose field maps are in key order: going from view to view runs into a panic
exactly if some id that can be reached has no node or a placeholder, or a node that can be reached
lists the name of a field it does not have. -/
theorem C68_panics_iff_graph {d : TypeDescriptor} (hs : ∀ i n, d.graph.node i = some n → n.Sorted) :
    Visits d none ↔ ∃ i, Nav d.graph d.root i ∧
      (d.graph.node i = none ∨ ∃ n, d.graph.node i = some n ∧ n.ListsMissing) := by
  rw [visits_iff hs]
  constructor
  · rintro (⟨i, hi, h⟩ | ⟨_, i, n, hi, hn, hx⟩)
    · exact ⟨i, hi, .inl (TypeView.new_none.1 h.symm)⟩
    · exact ⟨i, hi, .inr ⟨n, hn, hx⟩⟩
  · rintro ⟨i, hi, h | ⟨n, hn, hx⟩⟩
    · exact .inl ⟨i, hi, (TypeView.new_none.2 h).symm⟩
    · exact .inr ⟨rfl, i, n, hi, hn, hx⟩

/-- C68 for a descriptor read from data. -/
theorem C68_panics_iff (m : VariantId) {d : Data} {x : WireDescriptor}
    (h : (WireDescriptor.codec m).de d = some x) :
    Visits x.nav none ↔ ∃ i, WireReach x i ∧
      ((∀ n, (i, some n) ∉ x.graph) ∨ ∃ n, (i, some n) ∈ x.graph ∧ n.ListsMissing) := by
  have hx := (C67_read_iff m x).1 ⟨d, h⟩
  rw [C68_panics_iff_graph (wire_sorted hx)]
  constructor
  · rintro ⟨t, ht, h⟩
    obtain ⟨i, rfl, hi⟩ := (wire_nav hx).1 ht
    refine ⟨i, hi, ?_⟩
    rcases h with h | ⟨n, hn, hm⟩
    · left
      intro n hn
      rw [(wire_node hx).2 ⟨n, hn, rfl⟩] at h
      cases h
    · obtain ⟨w, hw, rfl⟩ := (wire_node hx).1 hn
      exact .inr ⟨w, hw, (WireNode.nav_missing w).1 hm⟩
  · rintro ⟨i, hi, h⟩
    refine ⟨wireTy i, (wire_nav hx).2 ⟨i, rfl, hi⟩, ?_⟩
    rcases h with h | ⟨n, hn, hm⟩
    · left
      cases hg : x.nav.graph.node (wireTy i) with
      | none => rfl
      | some n =>
        obtain ⟨w, hw, _⟩ := (wire_node hx).1 hg
        exact absurd hw (h w)
    · exact .inr ⟨_, (wire_node hx).2 ⟨n, hn, rfl⟩, (WireNode.nav_missing n).2 hm⟩

theorem Describes.sorted {E : Env} {t : Ty} {n : TypeNode} (h : Describes E t n) : n.Sorted := by
  cases h with
  | struct n fds c names fields _ _ _ hs => exact hs
  | enum n vds c vs _ hl hv =>
    intro v hm
    obtain ⟨i, hi, rfl⟩ := List.mem_iff_getElem.1 hm
    obtain ⟨vd, hvd⟩ : ∃ vd, vds[i]? = some vd := ⟨vds[i]'(hl ▸ hi), by simp⟩
    have := hv i vd vs[i] hvd (by simp)
    cases hvi : vs[i] with
    | struct => rw [hvi] at this; cases this; assumption
    | tuple => trivial
    | unit => trivial
  | _ => trivial

theorem namedTypes_lists {fds : List FieldDef} {names fields} (hs : BMSorted strCmp fields)
    (h : namedTypes names fields =
      ((fds.filter fun fd => !fd.skip).map fun fd => (fd.name, some fd.ty.unbox))) :
    ∀ x ∈ names, x ∈ fields.map (·.1) := by
  intro x hx
  by_contra hne
  have hm : (x, bmGet strCmp x fields) ∈ namedTypes names fields := List.mem_map.2 ⟨x, hx, rfl⟩
  rw [(bmGet_str_none hs).2 hne, h] at hm
  simp at hm

theorem Describes.lists {E : Env} {t : Ty} {n : TypeNode} (h : Describes E t n) : ¬ n.ListsMissing := by
  cases h with
  | struct n fds c names fields _ hn _ hs =>
    rintro ⟨x, hx, hx'⟩; exact hx' (namedTypes_lists hs hn x hx)
  | enum n vds c vs _ hl hv =>
    rintro ⟨v, hm, hx⟩
    obtain ⟨i, hi, rfl⟩ := List.mem_iff_getElem.1 hm
    obtain ⟨vd, hvd⟩ : ∃ vd, vds[i]? = some vd := ⟨vds[i]'(hl ▸ hi), by simp⟩
    have := hv i vd vs[i] hvd (by simp)
    cases hvi : vs[i] with
    | struct n names fields =>
      rw [hvi] at this hx
      cases this with
      | struct _ _ _ _ hn _ hs =>
        obtain ⟨x, hx, hx'⟩ := hx
        exact hx' (namedTypes_lists hs hn x hx)
    | tuple => rw [hvi] at hx; exact hx
    | unit => rw [hvi] at hx; exact hx
  | _ => exact id

/-- C68: going from view to view in the descriptor of a type never panics. -/
theorem C68_built_never_panics {E : Env} (hD : DeclsOK E) {fuel : Nat} {t : Ty} {d : TypeDescriptor}
    (h : describe E fuel t = some d) : ¬ Visits d none := by
  have hg := describe_graphOK hD h
  rw [C68_panics_iff_graph fun i n hn => (hg i n hn).1.sorted]
  rintro ⟨i, hi, h0 | ⟨n, hn, hx⟩⟩
  · obtain ⟨n, hn⟩ := descriptor_closed hD h hi
    rw [h0] at hn; cases hn
  · exact (hg i n hn).1.lists hx

/-- C68 (negation): a descriptor without the node of its root can be read; `get_type` panics. -/
theorem C68_dangling_root (m : VariantId) :
    ∃ d x, (WireDescriptor.codec m).de d = some x ∧ x.nav.getType = none := by
  have hx : (⟨5, []⟩ : WireDescriptor).Storable :=
    ⟨by simp [Fits64], List.Pairwise.nil, by simp⟩
  exact ⟨_, _, C67_roundtrip m hx, rfl⟩

/-- A struct that lists a field it does not have, finds under `a` a field named `b`, and contains
itself. -/
def wireBad : WireDescriptor :=
  ⟨1, [(1, some (.struct ⟨"Bad", [("a", ⟨"b", 1, [], []⟩)], ["a", "c"], [], []⟩))]⟩

theorem wireBad_storable : wireBad.Storable := by
  refine ⟨by simp [Fits64, wireBad], by simp [wireBad], ?_⟩
  intro p hp
  simp only [wireBad, List.mem_singleton] at hp
  subst hp
  refine ⟨by simp [Fits64], ?_⟩
  rintro n hn; cases hn
  exact ⟨⟨by simp [BMSorted], by simp [WireNamed.Storable, Fits64, MetaStorable, BMSorted]⟩,
    by simp [MetaStorable, BMSorted]⟩

/-- C68 (negation): a descriptor can be read whose root shows a type, but going through the fields of
that type panics; and a field can be stored under another name than its own. -/
theorem C68_missing_field (m : VariantId) :
    ∃ d x v, (WireDescriptor.codec m).de d = some x ∧ x.nav.getType = some v ∧ ShowsType v none ∧
      ∃ i n, (i, some (.struct n)) ∈ x.graph ∧ ∃ p ∈ n.fields, p.1 ≠ p.2.name := by
  refine ⟨_, wireBad, _, C67_roundtrip m wireBad_storable, rfl, ?_, 1, _, List.mem_singleton.2 rfl,
    ("a", ⟨"b", 1, [], []⟩), by simp, by simp⟩
  exact .structItem _ none (List.mem_map.2 ⟨"c", by simp, by decide⟩)

/-- A struct whose only field is of its own type. No Rust type is like that. -/
def wireSelf : WireDescriptor :=
  ⟨1, [(1, some (.struct ⟨"Self", [("a", ⟨"a", 1, [], []⟩)], ["a"], [], []⟩))]⟩

theorem wireSelf_storable : wireSelf.Storable := by
  refine ⟨by simp [Fits64, wireSelf], by simp [wireSelf], ?_⟩
  intro p hp
  simp only [wireSelf, List.mem_singleton] at hp
  subst hp
  refine ⟨by simp [Fits64], ?_⟩
  rintro n hn; cases hn
  exact ⟨⟨by simp [BMSorted], by simp [WireNamed.Storable, Fits64, MetaStorable, BMSorted]⟩,
    by simp [MetaStorable, BMSorted]⟩

/-- C68 (negation): a descriptor can be read that can be navigated without a panic, but asking for its
default value, or whether it has one, never returns, whatever the depth of calls allowed. -/
theorem C68_default_never_returns (m : VariantId) :
    ∃ d x, (WireDescriptor.codec m).de d = some x ∧ ¬ Visits x.nav none ∧
      ∀ fuel, defaultValue x.nav.graph fuel x.nav.root = none ∧
        hasDefault x.nav.graph fuel x.nav.root = none := by
  have hn : wireSelf.nav.graph.node (wireTy 1) = some (.struct ["a"] [("a", wireTy 1)]) := rfl
  have hb : bmGet strCmp "a" [("a", wireTy 1)] = some (wireTy 1) := by
    rw [bmGet_str_iff (by simp [BMSorted])]; simp
  refine ⟨_, wireSelf, C67_roundtrip m wireSelf_storable, ?_, ?_⟩
  · rw [C68_panics_iff m (C67_roundtrip m wireSelf_storable)]
    have : ∀ i, WireReach wireSelf i → i = 1 := by
      intro i hi
      induction hi with
      | root => rfl
      | step i n j _ hm hj ih =>
        simp only [wireSelf, List.mem_singleton, Prod.mk.injEq, Option.some.injEq] at hm
        obtain ⟨_, rfl⟩ := hm
        simpa [WireNode.ids] using hj
    rintro ⟨i, hi, h | ⟨n, hm, hx⟩⟩
    · rw [this i hi] at h
      exact h _ (List.mem_singleton.2 rfl)
    · simp only [wireSelf, List.mem_singleton, Prod.mk.injEq, Option.some.injEq] at hm
      obtain ⟨_, rfl⟩ := hm
      simp [WireNode.ListsMissing] at hx
  · intro fuel
    change defaultValue wireSelf.nav.graph fuel (wireTy 1) = none ∧
      hasDefault wireSelf.nav.graph fuel (wireTy 1) = none
    induction fuel with
    | zero => exact ⟨rfl, rfl⟩
    | succ fuel ih =>
      constructor
      · rw [defaultValue, hn]
        simp [namedTypes, hb, defaultNamed, ih.1]
      · rw [hasDefault, hn]
        simp [namedTypes, hb, hasNamed, ih.2]

/-- C68: what does hold of a descriptor from data: if every id that can be reached has a node, and no
node lists a field it does not have, then navigating it never panics. -/
theorem C68_navigable_partial (m : VariantId) {d : Data} {x : WireDescriptor}
    (h : (WireDescriptor.codec m).de d = some x)
    (h1 : ∀ i, WireReach x i → ∃ n, (i, some n) ∈ x.graph ∧ ¬ n.ListsMissing) :
    ¬ Visits x.nav none := by
  have hx := (C67_read_iff m x).1 ⟨d, h⟩
  rw [C68_panics_iff m h]
  rintro ⟨i, hi, h0 | ⟨n, hn, hm⟩⟩
  · obtain ⟨n, hn, _⟩ := h1 i hi
    exact h0 n hn
  · obtain ⟨k, hk, hk'⟩ := h1 i hi
    have e1 := (wire_node hx).2 ⟨n, hn, rfl⟩
    rw [(wire_node hx).2 ⟨k, hk, rfl⟩, Option.some.injEq] at e1
    exact hk' ((WireNode.nav_missing k).1 (e1 ▸ (WireNode.nav_missing n).2 hm))

/-- Non-vacuity of C68: the recursive `Tree` is navigable, back to where one started. -/
example : ¬ Visits wireTree.nav none ∧ ∃ v w, Visits wireTree.nav (some v) ∧ ShowsType v (some w) ∧
    ShowsType w (some v) := by
  have hg : ∀ i, WireReach wireTree i → i = 7 ∨ i = 3 := by
    intro i hi
    induction hi with
    | root => exact .inl rfl
    | step i n j _ hm hj ih =>
      simp only [wireTree, List.mem_cons, List.not_mem_nil, or_false, Prod.mk.injEq,
        Option.some.injEq] at hm
      rcases hm with ⟨_, rfl⟩ | ⟨_, rfl⟩ <;> simp [WireNode.ids] at hj <;> simp [hj]
  refine ⟨C68_navigable_partial .byName (C67_roundtrip _ wireTree_storable) ?_, ?_⟩
  · intro i hi
    rcases hg i hi with rfl | rfl
    · exact ⟨_, List.mem_cons_of_mem _ (List.mem_singleton.2 rfl), by simp [WireNode.ListsMissing]⟩
    · exact ⟨_, List.mem_cons_self, by simp [WireNode.ListsMissing]⟩
  · refine ⟨.struct ⟨wireTy 7, ["children"], [("children", wireTy 3)], wireTree.nav.graph⟩,
      .list ⟨wireTy 3, wireTy 7, wireTree.nav.graph⟩, .root, ?_, .list _⟩
    exact .structNamed _ "children" ⟨"children", wireTy 3, wireTree.nav.graph⟩ (by
      simp only [StructType.fieldType]
      rw [(bmGet_str_iff (by simp [BMSorted])).2 (List.mem_singleton.2 rfl)]; rfl)

end Mirror
