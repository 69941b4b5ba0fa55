import Verif.Lemmas.BuildFull
import Verif.Props.NodeId
import Verif.Props.SerdeType
import Verif.Props.Speedy
import Verif.Props.TypeEq

set_option linter.unusedSimpArgs false

/-!
# C94: a type's descriptor, with everything in it

From the declaration, through `type_descriptor()`, to what is read back after writing the descriptor:
type names, fields, variants, metadata and docs.
-/

namespace Mirror

variable {E : Env} {S : Facts}

/-- The graph of a descriptor is in order, and looking up an id finds its entry. -/
theorem describeW_get (hD : DeclsOK E) (hS : S.Every Attrs.Parsed) {fuel t x}
    (hx : describeW E S fuel t = some x) : BMSorted compare x.graph ∧
    ∀ i e, bmGet compare i x.graph = some e ↔ (i, e) ∈ x.graph := by
  unfold describeW at hx
  obtain ⟨⟨i, g⟩, h1, rfl⟩ := Option.map_eq_some_iff.mp hx
  obtain ⟨_, hs⟩ := buildW_step hD hS (P := t.Reach E) fuel t (fun u hu => hu) _ _ _ h1
  have hs := hs.sorted List.Pairwise.nil
  refine ⟨hs, fun j e => ?_⟩
  rw [bmGet_iff natCmpOn (by simp) hs trivial]
  simp [Nat.compare_eq_eq]

/-- C94: whatever the hash, every node of a descriptor says everything about one of the component types,
and stands under the id of that type; no placeholder is left. -/
theorem C94_nodes (hD : DeclsOK E) (hS : S.Every Attrs.Parsed) {fuel t x}
    (hx : describeW E S fuel t = some x) : x.root = S.id t.unbox ∧
    ∀ p ∈ x.graph, ∃ u m, t.Reach E u ∧ p = (S.id u.unbox, some m) ∧ Full E S u.unbox m := by
  obtain ⟨_, hget⟩ := describeW_get hD hS hx
  have hb := describeW_bare (E := E) (S := S) fuel t
  rw [hx, Option.map_some] at hb
  unfold describeW at hx
  obtain ⟨⟨i, g⟩, h1, rfl⟩ := Option.map_eq_some_iff.mp hx
  obtain ⟨rfl, hs⟩ := buildW_step hD hS (P := t.Reach E) fuel t (fun u hu => hu) _ _ _ h1
  refine ⟨rfl, fun ⟨j, e⟩ hp => ?_⟩
  have hj := (hget j e).mpr hp
  cases e with
  | none =>
    exfalso
    unfold describeH at hb
    obtain ⟨⟨k, G⟩, h2, hb⟩ := Option.map_eq_some_iff.mp hb.symm
    obtain ⟨⟨_, hpl, _⟩, _⟩ := buildH_step _ _ _ _ _ h2
    cases hb
    have := hpl j (by simp only at hj; simp [bareGraph, hj])
    cases this
  | some m =>
    rcases hs.nodes j m hj with h0 | ⟨u, hu, rfl, hf⟩
    · cases h0
    · exact ⟨u, m, hu, rfl, hf⟩

/-- C94: without names, metadata and docs the descriptor is the one of `C62`, and it is computed in the
same cases. -/
theorem C94_bare (fuel : Nat) (t : Ty) :
    (describeW E S fuel t).map WireDescriptor.bare = describeH E S.id fuel t :=
  describeW_bare fuel t

/-- C94: if no two component types of `t` have the same hash, then the descriptor is computed exactly when
it is with distinct ids; its root is `t`; and its entries are, under the id of each component type, the
node that says everything about that type, and no others. (With a collision no descriptor can be right:
`C62_collision_wrong`.) -/
theorem C94_full (hD : DeclsOK E) (hS : S.Every Attrs.Parsed) {t : Ty} (hn : NoCollision E S.id t)
    (fuel : Nat) : (describeW E S fuel t).isSome = (describe E fuel t).isSome ∧
    ∀ x, describeW E S fuel t = some x → x.root = S.id t.unbox ∧ BMSorted compare x.graph ∧
      ∀ i e, (i, e) ∈ x.graph ↔ ∃ u m, t.Reach E u ∧ i = S.id u.unbox ∧ e = some m ∧ Full E S u.unbox m := by
  have hb := C94_bare (E := E) (S := S) fuel t
  have h1 : (describeW E S fuel t).isSome = (describe E fuel t).isSome := by
    rw [← C62_terminates_partial hn fuel, ← hb, Option.isSome_map]
  refine ⟨h1, fun x hx => ?_⟩
  obtain ⟨hr, hnodes⟩ := C94_nodes hD hS hx
  obtain ⟨hs, hget⟩ := describeW_get hD hS hx
  refine ⟨hr, hs, fun i e => ⟨fun h => ?_, ?_⟩⟩
  · obtain ⟨u, m, hu, he, hf⟩ := hnodes _ h
    cases he
    exact ⟨u, m, hu, rfl, rfl, hf⟩
  · rintro ⟨u, m, hu, rfl, rfl, hf⟩
    rw [hx] at h1
    obtain ⟨d, hd⟩ := Option.isSome_iff_exists.mp (h1.symm.trans rfl)
    obtain ⟨D, hD', hright⟩ := C62_right_partial hD hn hd
    rw [hx, Option.map_some, hD', Option.some.injEq] at hb
    subst hb
    obtain ⟨k, _, hk⟩ := hright.2 u hu
    have : ∃ m', bmGet compare (S.id u.unbox) x.graph = some (some m') := by
      simp only [HGraph.node, WireDescriptor.bare, bareGraph] at hk
      cases hg : bmGet compare (S.id u.unbox) x.graph with
      | none => rw [hg] at hk; cases hk
      | some e =>
        cases e with
        | none => rw [hg] at hk; cases hk
        | some m' => exact ⟨m', rfl⟩
    obtain ⟨m', hm'⟩ := this
    have hm' := (hget _ _).mp hm'
    obtain ⟨v, m'', hv, he, hf'⟩ := hnodes _ hm'
    simp only [Prod.mk.injEq, Option.some.injEq] at he
    obtain ⟨hid, rfl⟩ := he
    rw [← hn u v hu hv hid] at hf'
    rw [hf.unique hf']
    exact hm'

/-- C94: there is only one way for a node to say everything about a type. -/
theorem C94_unique {t : Ty} {m m' : WireNode} (h : Full E S t m) (h' : Full E S t m') : m = m' := h.unique h'

/-- C94: descriptors can be stored, whatever the hash: ids are 64-bit numbers, metadata can be stored, and
arrays are no longer than `usize` allows. -/
theorem C94_storable (hD : DeclsOK E) (hS : S.Every Attrs.Parsed) (hi : ∀ u, S.id u < 2 ^ 64)
    (ha : S.Every fun a => ∀ p ∈ a.pairs, p.2.toValue.Storable) {fuel t x}
    (hl : ∀ u n, t.Reach E (.array u n) → n < 2 ^ 64) (hx : describeW E S fuel t = some x) : x.Storable := by
  obtain ⟨hr, hnodes⟩ := C94_nodes hD hS hx
  obtain ⟨hs, _⟩ := describeW_get hD hS hx
  refine ⟨hr ▸ hi _, hs.imp fun h => Nat.compare_eq_lt.mp h, fun p hp => ?_⟩
  obtain ⟨u, m, hu, rfl, hf⟩ := hnodes p hp
  refine ⟨hi _, ?_⟩
  rintro _ ⟨⟩
  refine hf.storable hi ha fun w n he => ?_
  have : ∀ v, u.Reach E v → t.Reach E v := by
    intro v hv
    induction hv with
    | refl => exact hu
    | step v w _ hw ih => exact .step v w ih hw
  exact hl w n (he ▸ this _ (reach_unbox u))

/-- C94: what is read after writing the descriptor of a type is that descriptor, with serde, whether the
format names enum variants by name or by position, and with speedy, if nothing in it is too long for
that format. -/
theorem C94_read_back (hD : DeclsOK E) (hS : S.Every Attrs.Parsed) (hi : ∀ u, S.id u < 2 ^ 64)
    (ha : S.Every fun a => ∀ p ∈ a.pairs, p.2.toValue.Storable) {fuel t x}
    (hl : ∀ u n, t.Reach E (.array u n) → n < 2 ^ 64) (hx : describeW E S fuel t = some x) :
    (∀ m y, (WireDescriptor.codec m).de ((WireDescriptor.codec m).ser x) = some y ↔ y = x) ∧
    ∀ F : Speedy, F.Lawful → x.Short → ∃ bs, F.descriptor.w x = some bs ∧
      ∀ rest, F.descriptor.r (bs ++ rest) = some (x, rest) := by
  have hst := C94_storable hD hS hi ha hl hx
  refine ⟨fun m y => ?_, fun F hF hsh => ?_⟩
  · rw [C67_roundtrip m hst, Option.some.injEq, eq_comm]
  · have hfa := C75_descriptor hF
    obtain ⟨bs, hbs⟩ := (hfa.writes x hst).mpr hsh
    exact ⟨bs, hbs, fun rest => hfa.back x bs rest hst hbs⟩

theorem WireNode.bare_ids (n : WireNode) : n.bare.ids = n.ids := by
  have hv : ∀ v : WireVariant, v.bare.ids = v.ids := by
    intro v
    cases v <;> simp [WireVariant.bare, HVariant.ids, WireVariant.ids, Function.comp_def]
  cases n <;> simp [WireNode.bare, HNode.ids, WireNode.ids, Function.comp_def, List.flatMap_map, hv]

/-- C94: whatever the hash, going from view to view in the descriptor of a type, before or after it was
written and read, never panics. -/
theorem C94_never_panics (hD : DeclsOK E) (hS : S.Every Attrs.Parsed) (hi : ∀ u, S.id u < 2 ^ 64)
    (ha : S.Every fun a => ∀ p ∈ a.pairs, p.2.toValue.Storable) {fuel t x}
    (hl : ∀ u n, t.Reach E (.array u n) → n < 2 ^ 64) (hx : describeW E S fuel t = some x) :
    ¬ Visits x.nav none := by
  have hst := C94_storable hD hS hi ha hl hx
  obtain ⟨_, hget⟩ := describeW_get hD hS hx
  obtain ⟨_, hnodes⟩ := C94_nodes hD hS hx
  have hb := C94_bare (E := E) (S := S) fuel t
  rw [hx, Option.map_some] at hb
  have hnode : ∀ i n, (i, some n) ∈ x.graph → x.bare.graph.node i = some n.bare := by
    intro i n h
    simp [HGraph.node, WireDescriptor.bare, bareGraph, (hget _ _).mpr h]
  have hnav : ∀ i, WireReach x i → HNav x.bare.graph x.bare.root i := by
    intro i h
    induction h with
    | root => exact .root
    | step i n j _ hm hj ih => exact .step i _ j ih (hnode i n hm) (n.bare_ids ▸ hj)
  refine C68_navigable_partial .byName (C67_roundtrip .byName hst) fun i h => ?_
  obtain ⟨k, hk⟩ := C62_closed hb.symm (hnav i h)
  simp only [HGraph.node, WireDescriptor.bare, bareGraph] at hk
  cases hg : bmGet compare i x.graph with
  | none => rw [hg] at hk; cases hk
  | some e =>
    have hm := (hget _ _).mp hg
    obtain ⟨u, m, hu, he, hf⟩ := hnodes _ hm
    cases he
    exact ⟨m, hm, hf.lists⟩

/-! ## A concrete case -/

/-- `demoEnv` with docs and metadata on `Tree` and its fields. -/
def demoFacts : Facts where
  id := demoHash
  name
    | .named n => n
    | .vec _ => "Vec<Tree>"
    | _ => "?"
  item _ := ⟨[("icon", .scalar (.string "leaf"))], [" A tree.", " It may be empty."]⟩
  field _ f := ⟨if f = "val" then [("unit", .scalar (.string "kg"))] else [], [f]⟩
  pos _ _ := ⟨[], []⟩
  «variant» _ _ := ⟨[], []⟩
  variantField _ _ _ := ⟨[], []⟩
  variantPos _ _ _ := ⟨[], []⟩

/-- The descriptor of `Tree`. -/
def demoFull : WireDescriptor := ⟨1, [
  (1, some (.struct ⟨"Tree",
    [("kids", ⟨"kids", 2, [], ["kids"]⟩), ("names", ⟨"names", 3, [], ["names"]⟩),
      ("val", ⟨"val", 4, [("unit", .scalar (.string "kg"))], ["val"]⟩)],
    ["val", "kids", "names"], [("icon", .scalar (.string "leaf"))], [" A tree.", " It may be empty."]⟩)),
  (2, some (.list ⟨"Vec<Tree>", 1⟩)), (3, some (.map ⟨"?", 5, 6⟩)), (4, some (.opaque ⟨"?", [], none⟩)),
  (5, some (.scalar .string)), (6, some (.scalar (.int .u8)))]⟩

/-- Non-vacuity of C94: `Tree`, which contains itself. -/
theorem demoFull_built : describeW demoEnv demoFacts 10 (.named "Tree") = some demoFull := by cbv

theorem demoFacts_parsed : demoFacts.Every Attrs.Parsed where
  item _ := ⟨[.doc " A tree.", .reflectMeta [("icon", .scalar (.string "leaf"))], .doc " It may be empty."], by cbv⟩
  field _ f := by
    by_cases h : f = "val"
    · subst h
      exact ⟨[.reflectMeta [("unit", .scalar (.string "kg"))], .doc "val"], by cbv⟩
    · refine ⟨[.doc f], ?_⟩
      simp [demoFacts, h, parseAttrs, parseDocs]
  pos _ _ := ⟨[], rfl⟩
  «variant» _ _ := ⟨[], rfl⟩
  variantField _ _ _ := ⟨[], rfl⟩
  variantPos _ _ _ := ⟨[], rfl⟩

theorem demoFacts_storable : demoFacts.Every fun a => ∀ p ∈ a.pairs, p.2.toValue.Storable where
  item _ := by
    simp only [demoFacts, List.mem_singleton, forall_eq, Obj.toValue]
    exact .scalar (.string "leaf") trivial
  field _ f := by
    by_cases h : f = "val"
    · simp only [demoFacts, h, if_true, List.mem_singleton, forall_eq, Obj.toValue]
      exact .scalar (.string "kg") trivial
    · simp [demoFacts, h]
  pos _ _ := by simp [demoFacts]
  «variant» _ _ := by simp [demoFacts]
  variantField _ _ _ := by simp [demoFacts]
  variantPos _ _ _ := by simp [demoFacts]

theorem demo_reach {u : Ty} (hu : (Ty.named "Tree").Reach demoEnv u) :
    u ∈ ([.named "Tree", .nonzero .u8, .vec (.named "Tree"), .map (.scalar .string) (.scalar (.int .u8)),
      .scalar .string, .scalar (.int .u8)] : List Ty) := by
  induction hu with
  | refl => simp
  | step u v _ hv ih =>
    have : ∀ u ∈ ([.named "Tree", .nonzero .u8, .vec (.named "Tree"),
      .map (.scalar .string) (.scalar (.int .u8)), .scalar .string, .scalar (.int .u8)] : List Ty),
      ∀ v ∈ u.comps demoEnv, v ∈ ([.named "Tree", .nonzero .u8, .vec (.named "Tree"),
      .map (.scalar .string) (.scalar (.int .u8)), .scalar .string, .scalar (.int .u8)] : List Ty) := by
      decide
    exact this u ih v hv

/-- All hypotheses of C94 are met by `Tree`. -/
example : NoCollision demoEnv demoFacts.id (.named "Tree") ∧ (∀ u, demoFacts.id u < 2 ^ 64) ∧
    (∀ u n, (Ty.named "Tree").Reach demoEnv (.array u n) → n < 2 ^ 64) ∧ ¬ Visits demoFull.nav none := by
  have h1 : ∀ u, demoFacts.id u < 2 ^ 64 := by
    intro u
    show demoHash u < _
    unfold demoHash
    split <;> decide
  have h2 : ∀ u n, (Ty.named "Tree").Reach demoEnv (.array u n) → n < 2 ^ 64 := by
    intro u n h
    have := demo_reach h
    simp at this
  refine ⟨fun u v hu hv => ?_, h1, h2,
    C94_never_panics demo_declsOK demoFacts_parsed h1 demoFacts_storable h2 demoFull_built⟩
  have : ∀ u ∈ ([.named "Tree", .nonzero .u8, .vec (.named "Tree"),
      .map (.scalar .string) (.scalar (.int .u8)), .scalar .string, .scalar (.int .u8)] : List Ty),
      ∀ v ∈ ([.named "Tree", .nonzero .u8, .vec (.named "Tree"),
      .map (.scalar .string) (.scalar (.int .u8)), .scalar .string, .scalar (.int .u8)] : List Ty),
      demoHash u.unbox = demoHash v.unbox → u.unbox = v.unbox := by decide
  exact this u (demo_reach hu) v (demo_reach hv)

end Mirror
