import Verif.Lemmas.Rename
import Verif.Props.BuildFull
import Verif.Props.WireDefault
import Verif.Props.Default
import Verif.Props.TypePath

set_option linter.unusedSimpArgs false

/-!
# C95: a stored descriptor answers like the type

What `type_at`, `default_value` and `has_default_value` say on the descriptor of a type as it is, with hashes
for ids, before or after it was written and read, is what they say when all types have distinct ids,
which the properties of paths and defaults are about.
-/

namespace Mirror

variable {E : Env} {S : Facts}

theorem nav_of_bare {m : WireNode} {n : TypeNode} {h : Ty → WireId} (hb : m.bare = n.mapIds h) :
    m.nav wireTy = n.rename fun i => wireTy (h i) := by
  have hpair : ∀ (fs : List (String × WireNamed)) (gs : List (String × Ty)),
      fs.map (fun p => (p.1, p.2.id)) = gs.map (fun p => (p.1, h p.2)) →
      fs.map (fun p => (p.1, wireTy p.2.id)) = gs.map fun p => (p.1, wireTy (h p.2)) := by
    intro fs gs he
    have := congrArg (List.map fun p : String × WireId => (p.1, wireTy p.2)) he
    simpa [Function.comp_def] using this
  have hpos : ∀ (fs : List WireUnnamed) (gs : List Ty), fs.map (·.id) = gs.map h →
      fs.map (fun f => wireTy f.id) = gs.map fun i => wireTy (h i) := by
    intro fs gs he
    have := congrArg (List.map wireTy) he
    simpa [Function.comp_def] using this
  have hvar : ∀ (v : WireVariant) (w : VariantNode), v.bare = w.mapIds h →
      v.nav wireTy = w.rename fun i => wireTy (h i) := by
    intro v w he
    cases v <;> cases w <;>
      simp only [WireVariant.bare, VariantNode.mapIds, HVariant.struct.injEq, HVariant.tuple.injEq,
        HVariant.unit.injEq, reduceCtorEq] at he
    · obtain ⟨rfl, rfl, h3⟩ := he
      simp [WireVariant.nav, VariantNode.rename, hpair _ _ h3]
    · obtain ⟨rfl, h3⟩ := he
      simp [WireVariant.nav, VariantNode.rename, hpos _ _ h3]
    · subst he; rfl
  have hvars : ∀ (vs : List WireVariant) (ws : List VariantNode),
      vs.map WireVariant.bare = ws.map (·.mapIds h) →
      vs.map (WireVariant.nav wireTy) = ws.map (·.rename fun i => wireTy (h i)) := by
    intro vs
    induction vs with
    | nil => intro ws he; cases ws with
      | nil => rfl
      | cons w ws => cases he
    | cons v vs ih =>
      intro ws he
      cases ws with
      | nil => cases he
      | cons w ws =>
        simp only [List.map_cons, List.cons.injEq] at he ⊢
        exact ⟨hvar v w he.1, ih ws he.2⟩
  cases m <;> cases n <;>
    simp only [WireNode.bare, TypeNode.mapIds, HNode.struct.injEq, HNode.tupleStruct.injEq,
      HNode.tuple.injEq, HNode.enum.injEq, HNode.list.injEq, HNode.array.injEq, HNode.map.injEq,
      HNode.scalar.injEq, reduceCtorEq] at hb
  · obtain ⟨rfl, h3⟩ := hb
    simp [WireNode.nav, TypeNode.rename, hpair _ _ h3]
  · simp [WireNode.nav, TypeNode.rename, hpos _ _ hb]
  · simp [WireNode.nav, TypeNode.rename, hpos _ _ hb]
  · simp [WireNode.nav, TypeNode.rename, hvars _ _ hb]
  · simp [WireNode.nav, TypeNode.rename, hb]
  · simp [WireNode.nav, TypeNode.rename, hb]
  · simp [WireNode.nav, TypeNode.rename, hb]
  · simp [WireNode.nav, TypeNode.rename, hb]
  · rfl

/-- Everything a type is made of. -/
def Part (E : Env) (t i : Ty) : Prop := ∃ u, t.Reach E u ∧ i = u.unbox

theorem Part.root (t : Ty) : Part E t t.unbox := ⟨t, .refl, rfl⟩

/-- The graph with distinct ids, of the parts of `t`. -/
theorem describe_parts (hD : DeclsOK E) {t : Ty} {fuel d} (hd : describe E fuel t = some d) :
    (∀ i, Part E t i → ∃ n, d.graph.node i = some n) ∧
    ∀ i n, Part E t i → d.graph.node i = some n → ∀ j ∈ n.ids, Part E t j := by
  refine ⟨?_, ?_⟩
  · rintro i ⟨u, hu, rfl⟩
    exact descriptor_closed hD hd (descriptor_complete hD hd hu)
  · rintro i n ⟨u, hu, rfl⟩ hn j hj
    have hnav := Nav.step _ n j (descriptor_complete hD hd hu) hn hj
    obtain ⟨m, hm⟩ := descriptor_closed hD hd hnav
    exact (descriptor_describes hD hd hnav hm).2

/-- The graph with hashes is the graph with distinct ids, renamed. -/
theorem describeW_renames (hD : DeclsOK E) (hS : S.Every Attrs.Parsed) {t : Ty} (hn : NoCollision E S.id t)
    {fuel d x} (hd : describe E fuel t = some d) (hx : describeW E S fuel t = some x) :
    (∀ i, Part E t i → ∃ m n, (S.id i, some m) ∈ x.graph ∧ Full E S i m ∧ d.graph.node i = some n ∧
      m.bare = n.mapIds S.id) ∧
    (x.Storable → Renames (fun i => wireTy (S.id i)) (Part E t) d.graph x.nav.graph) := by
  have hb := C94_bare (E := E) (S := S) fuel t
  rw [hx, Option.map_some] at hb
  obtain ⟨_, hget⟩ := describeW_get hD hS hx
  have hs := build_sim (E := E) (h := S.id) (P := fun i => ∃ u, t.Reach E u ∧ i = u.unbox)
    (by rintro i j ⟨u, hu, rfl⟩ ⟨v, hv, rfl⟩ hh; exact hn u v hu hv hh) fuel t
    (fun u hu => ⟨u, hu, rfl⟩) .empty .empty (fun _ _ => rfl)
  obtain ⟨hp1, hp2⟩ := describe_parts hD hd
  have key : ∀ i, Part E t i → ∃ m n, (S.id i, some m) ∈ x.graph ∧ Full E S i m ∧ d.graph.node i = some n ∧
      m.bare = n.mapIds S.id := by
    intro i hi
    obtain ⟨n, hnn⟩ := hp1 i hi
    have hgu : d.graph i = some (some n) := by
      unfold TypeGraph.node at hnn
      split at hnn
      · rename_i m hm; cases hnn; exact hm
      · cases hnn
    unfold describe at hd
    unfold describeH at hb
    cases h1 : build E fuel .empty t with
    | none => rw [h1] at hd; cases hd
    | some r =>
      obtain ⟨k, g⟩ := r
      rw [h1] at hd hs
      cases hd
      cases h2 : buildH E S.id fuel .empty t with
      | none => rw [h2] at hs; exact hs.elim
      | some r =>
        obtain ⟨j, G⟩ := r
        rw [h2] at hs hb
        cases hb
        obtain ⟨_, hsim⟩ := hs
        have := hsim i hi
        have hgi : g i = some (some n) := hgu
        rw [hgi] at this
        simp only at this
        cases hg : bmGet compare (S.id i) x.graph with
        | none => rw [hg] at this; cases this
        | some e =>
          cases e with
          | none => rw [hg] at this; cases this
          | some m =>
            rw [hg] at this
            simp only [Option.map_some, Option.some.injEq] at this
            have hm := (hget _ _).mp hg
            obtain ⟨v, m', hv, he, hf⟩ := (C94_nodes hD hS hx).2 _ hm
            simp only [Prod.mk.injEq, Option.some.injEq] at he
            obtain ⟨hid, rfl⟩ := he
            obtain ⟨u, hu, rfl⟩ := hi
            rw [← hn u v hu hv hid] at hf
            exact ⟨m, n, hm, hf, hnn, this⟩
  refine ⟨key, fun hst => ⟨fun i hi => ?_, hp2⟩⟩
  obtain ⟨m, n, hm, _, hnn, hbare⟩ := key i hi
  rw [hnn, Option.map_some, ← nav_of_bare hbare]
  exact (wire_node hst).mpr ⟨m, hm, rfl⟩

theorem mapIds_ids (n : TypeNode) (h : Ty → WireId) : (n.mapIds h).ids = n.ids.map h := by
  have hv : ∀ v : VariantNode, (v.mapIds h).ids = v.ids.map h := by
    intro v
    cases v <;> simp [VariantNode.mapIds, HVariant.ids, VariantNode.ids, Function.comp_def]
  cases n <;> simp [TypeNode.mapIds, HNode.ids, TypeNode.ids, Function.comp_def, List.flatMap_map,
    List.map_flatMap, hv]

/-- A node in which nothing is missing, no longer than it may be, needs only types it refers to. -/
theorem need_ids {m : WireNode} {cap : Option Nat} (hl : ¬ m.ListsMissing)
    (hc : ∀ a c, m = .array a → cap = some c → a.len ≤ c) :
    m.need cap = .refused ∨ ∃ l, m.need cap = .parts l ∧ ∀ o ∈ l, ∃ j ∈ m.ids, o = some j := by
  have hnamed : ∀ (names : List String) (fs : List (String × WireNamed)),
      (¬ ∃ y ∈ names, y ∉ fs.map (·.1)) →
      ∀ o ∈ (listedFields names fs).map (Option.map (·.id)), ∃ j ∈ fs.map (·.2.id), o = some j := by
    intro names fs h o ho
    simp only [listedFields, List.map_map, List.mem_map, Function.comp_apply] at ho
    obtain ⟨y, hy, rfl⟩ := ho
    cases hf : fs.find? (fun p => p.1 = y) with
    | none =>
      exfalso
      refine h ⟨y, hy, fun hm => ?_⟩
      obtain ⟨p, hp, rfl⟩ := List.mem_map.mp hm
      have := List.find?_eq_none.mp hf p hp
      simp at this
    | some p => exact ⟨p.2.id, List.mem_map.mpr ⟨p, List.mem_of_find?_eq_some hf, rfl⟩, rfl⟩
  cases m with
  | struct n => exact .inr ⟨_, rfl, fun o ho => by
      obtain ⟨j, hj, rfl⟩ := hnamed _ _ hl o ho
      exact ⟨j, by simpa [WireNode.ids] using hj, rfl⟩⟩
  | tupleStruct n => exact .inr ⟨_, rfl, fun o ho => by
      obtain ⟨f, hf, rfl⟩ := List.mem_map.mp ho
      exact ⟨_, List.mem_map.mpr ⟨f, hf, rfl⟩, rfl⟩⟩
  | tuple n => exact .inr ⟨_, rfl, fun o ho => by
      obtain ⟨f, hf, rfl⟩ := List.mem_map.mp ho
      exact ⟨_, List.mem_map.mpr ⟨f, hf, rfl⟩, rfl⟩⟩
  | enum n =>
    simp only [WireNode.need]
    cases hv : n.variants with
    | nil => exact .inl rfl
    | cons v vs =>
      refine .inr ⟨_, rfl, fun o ho => ?_⟩
      have : ∃ j ∈ v.ids, o = some j := by
        cases v with
        | struct w =>
          obtain ⟨j, hj, rfl⟩ := hnamed _ _ (fun h => hl ⟨w, by simp [hv], h⟩) o ho
          exact ⟨j, by simpa [WireVariant.ids] using hj, rfl⟩
        | tuple w =>
          obtain ⟨f, hf, rfl⟩ := List.mem_map.mp ho
          exact ⟨_, List.mem_map.mpr ⟨f, hf, rfl⟩, rfl⟩
        | unit w => cases ho
      obtain ⟨j, hj, rfl⟩ := this
      exact ⟨j, List.mem_flatMap.mpr ⟨v, by simp [hv], hj⟩, rfl⟩
  | list n => exact .inr ⟨_, rfl, nofun⟩
  | array n =>
    cases cap with
    | none => exact .inr ⟨_, rfl, fun o ho => by
        rw [List.mem_singleton.mp ho]; exact ⟨_, by simp [WireNode.ids], rfl⟩⟩
    | some c =>
      have := hc n c rfl rfl
      simp only [WireNode.need, Nat.not_lt.mpr this, if_false]
      exact .inr ⟨_, rfl, fun o ho => ⟨n.elem, by simp [WireNode.ids], (List.mem_replicate.mp ho).2⟩⟩
  | map n => exact .inr ⟨_, rfl, nofun⟩
  | scalar k => exact .inr ⟨_, rfl, nofun⟩
  | «opaque» n =>
    simp only [WireNode.need]
    split
    · exact .inl rfl
    · exact .inr ⟨_, rfl, nofun⟩

/-- Asking for the default of a part does not panic. -/
theorem stored_no_panic (hD : DeclsOK E) (hS : S.Every Attrs.Parsed) {t : Ty} (hn : NoCollision E S.id t)
    {fuel d x} (hd : describe E fuel t = some d) (hx : describeW E S fuel t = some x) (hst : x.Storable)
    (cap : Option Nat) (hc : ∀ c u n, cap = some c → t.Reach E (.array u n) → n ≤ c) {i : Ty}
    (hi : Part E t i) : ¬ Panics (x.need cap) (S.id i) := by
  have hneed : ∀ i, Part E t i → x.need cap (S.id i) = .refused ∨
      ∃ l, x.need cap (S.id i) = .parts l ∧ ∀ o ∈ l, ∃ p, Part E t p ∧ o = some (S.id p) := by
    intro i hi
    obtain ⟨m, n, hm, hf, hnn, hb⟩ := (describeW_renames hD hS hn hd hx).1 i hi
    have hids : ∀ j ∈ m.ids, ∃ p, Part E t p ∧ j = S.id p := by
      intro j hj
      rw [← m.bare_ids, hb, mapIds_ids] at hj
      obtain ⟨p, hp, rfl⟩ := List.mem_map.mp hj
      exact ⟨p, (describe_parts hD hd).2 i n hi hnn p hp, rfl⟩
    have hg : x.node (S.id i) = some m := by
      simp only [WireDescriptor.node, ((describeW_get hD hS hx).2 _ _).mpr hm]
    rw [wireDescriptor_need hst, hg]
    rcases need_ids (cap := cap) hf.lists (fun a c ha hcap => by
        subst ha
        generalize hz : WireNode.array a = z at hf
        cases hf <;> cases hz
        obtain ⟨u, hu, he⟩ := hi
        exact hc c _ _ hcap (he ▸ hu.trans (reach_unbox u))) with h | ⟨l, h1, h2⟩
    · exact .inl h
    · refine .inr ⟨l, h1, fun o ho => ?_⟩
      obtain ⟨j, hj, rfl⟩ := h2 o ho
      obtain ⟨p, hp, rfl⟩ := hids j hj
      exact ⟨p, hp, rfl⟩
  have hnext : ∀ i o, Part E t i → Next (x.need cap) (S.id i) o → ∃ p, Part E t p ∧ o = some (S.id p) := by
    rintro i o hi ⟨pre, post, h, _⟩
    rcases hneed i hi with h' | ⟨l, h1, h2⟩
    · rw [h'] at h; cases h
    · rw [h1] at h
      cases h
      exact h2 o (by simp)
  rintro ⟨j, hj, h⟩
  have : ∃ p, Part E t p ∧ j = S.id p := by
    clear h
    induction hj with
    | refl => exact ⟨i, hi, rfl⟩
    | step j k _ hk ih =>
      obtain ⟨p, hp, rfl⟩ := ih
      obtain ⟨q, hq, he⟩ := hnext p _ hp hk
      exact ⟨q, hq, Option.some.inj he⟩
  obtain ⟨p, hp, rfl⟩ := this
  rcases h with h | h
  · rcases hneed p hp with h' | ⟨l, h1, _⟩
    · rw [h'] at h; cases h
    · rw [h1] at h; cases h
  · obtain ⟨q, _, hq⟩ := hnext p none hp h
    cases hq

theorem Full.plain {t : Ty} {m : WireNode} {cap : Nat} (h : Full E S t m)
    (hc : ∀ u n, t = .array u n → n ≤ cap) : m.Plain cap := by
  have hnamed : ∀ {attrs fds names fs}, NamedFull S attrs fds names fs → NamesAgree fs := by
    rintro attrs fds names fs ⟨_, _, _, h⟩ p hp
    obtain ⟨fd, _, _, h1, h2, _⟩ := h p hp
    rw [h1, h2]
  cases h with
  | struct n fds c x _ _ h _ => exact hnamed h
  | enum n vds c x _ _ h _ =>
    rintro v hv s rfl
    obtain ⟨vd, h1⟩ := forall₂_right h hv
    cases h1 with
    | struct v fds x _ h _ => exact hnamed h
  | array t n => exact hc t n rfl
  | «opaque» t h => rfl
  | scalar k => trivial
  | vec t => trivial
  | map k v => trivial
  | tuple ts => trivial
  | tupleStruct n fds c x _ _ h _ => trivial

/-! ## The theorems -/

variable (hD : DeclsOK E) (hS : S.Every Attrs.Parsed) (hi : ∀ u, S.id u < 2 ^ 64)
  (ha : S.Every fun a => ∀ p ∈ a.pairs, p.2.toValue.Storable) {t : Ty}
  (hl : ∀ u n, t.Reach E (.array u n) → n < 2 ^ 64) (hn : NoCollision E S.id t) {depth : Nat}
  {d : TypeDescriptor} {x : WireDescriptor} (hd : describe E depth t = some d)
  (hx : describeW E S depth t = some x)

include hD hS hi ha hl hn hd hx

/-- C95: `default_value` on the descriptor of a type, or on what was read after writing it, for any type
in it: it panics never, returns exactly when it does on the descriptor with distinct ids, and returns
the same. Arrays must not be longer than a vector of values can be. -/
theorem C95_default {cap : Nat} (hc : ∀ u n, t.Reach E (.array u n) → n ≤ cap) {u : Ty} (hu : t.Reach E u)
    (fuel : Nat) : wireDefault cap x fuel (S.id u.unbox) = (defaultValue d.graph fuel u.unbox).map .ok := by
  have hst := C94_storable hD hS hi ha hl hx
  have hp : Part E t u.unbox := ⟨u, hu, rfl⟩
  have hplain : ∀ i n, (i, some n) ∈ x.graph → n.Plain cap := by
    intro i n h
    obtain ⟨v, m, hv, he, hf⟩ := (C94_nodes hD hS hx).2 _ h
    cases he
    exact hf.plain fun w k he => hc w k (he ▸ hv.trans (reach_unbox v))
  have h1 := (C89_agrees hst hplain fuel (S.id u.unbox)).1
  rw [default_rename (r := fun i => wireTy (S.id i)) ((describeW_renames hD hS hn hd hx).2 hst) fuel _ hp] at h1
  have h2 : wireDefault cap x fuel (S.id u.unbox) ≠ some .panic := fun h =>
    stored_no_panic hD hS hn hd hx hst (some cap) (by rintro c v n ⟨⟩ h; exact hc v n h) hp
      ((C89_panic_iff hst).mp ⟨fuel, h⟩)
  rw [h1]
  revert h2
  cases wireDefault cap x fuel (S.id u.unbox) with
  | none => intro _; rfl
  | some e => cases e with
    | ok v => intro _; rfl
    | panic => intro h; exact absurd rfl h

/-- C95: `has_default_value` likewise. -/
theorem C95_has_default {u : Ty} (hu : t.Reach E u) (fuel : Nat) :
    wireHas x fuel (S.id u.unbox) = (hasDefault d.graph fuel u.unbox).map .ok := by
  have hst := C94_storable hD hS hi ha hl hx
  have hp : Part E t u.unbox := ⟨u, hu, rfl⟩
  have hplain : ∀ i n, (i, some n) ∈ x.graph → n.Plain (2 ^ 64) := by
    intro i n h
    obtain ⟨v, m, hv, he, hf⟩ := (C94_nodes hD hS hx).2 _ h
    cases he
    exact hf.plain fun w k he => (hl w k (he ▸ hv.trans (reach_unbox v))).le
  have h1 := (C89_agrees hst hplain fuel (S.id u.unbox)).2
  rw [has_rename (r := fun i => wireTy (S.id i)) ((describeW_renames hD hS hn hd hx).2 hst) fuel _ hp] at h1
  have h2 : wireHas x fuel (S.id u.unbox) ≠ some .panic := fun h =>
    stored_no_panic hD hS hn hd hx hst none nofun hp ((C89_has_panic_iff hst).mp ⟨fuel, h⟩)
  rw [h1]
  revert h2
  cases wireHas x fuel (S.id u.unbox) with
  | none => intro _; rfl
  | some e => cases e with
    | ok v => intro _; rfl
    | panic => intro h; exact absurd rfl h

/-- C95: following a path in the descriptor never panics, and ends where it ends with distinct ids: at the
same variant, or at the type with the hash of the one it ends at, or nowhere. -/
theorem C95_type_at (p : KeyPath) :
    x.nav.typeAt p = (d.typeAt p).map (Option.map (TypeAt.rename fun i => wireTy (S.id i))) ∧
    d.typeAt p ≠ none := by
  have hst := C94_storable hD hS hi ha hl hx
  have hr : d.root = t.unbox := descriptor_root hD hd
  refine ⟨(typeAt_rename ((describeW_renames hD hS hn hd hx).2 hst) ?_ (hr ▸ Part.root t) p).1, ?_⟩
  · rw [hr, ← (C94_nodes hD hS hx).1]; rfl
  · obtain ⟨r, hr⟩ := type_at_total hD hd p
    rw [hr]; nofun

/-- C95: the node of the type at the end of a path says everything about that type: its name, fields,
variants, metadata and docs. -/
theorem C95_docs_at {p : KeyPath} {i : Ty} {n : TypeNode} (h : d.typeAt p = some (some (.ty i n))) :
    ∃ m, x.node (S.id i) = some m ∧ Full E S i m := by
  have hst := C94_storable hD hS hi ha hl hx
  have hr : d.root = t.unbox := descriptor_root hD hd
  obtain ⟨hp, _⟩ := (typeAt_rename (d' := x.nav) ((describeW_renames hD hS hn hd hx).2 hst)
    (by rw [hr, ← (C94_nodes hD hS hx).1]; rfl) (hr ▸ Part.root t) p).2 _ h
  obtain ⟨m, k, hm, hf, _⟩ := (describeW_renames hD hS hn hd hx).1 i hp
  exact ⟨m, by simp only [WireDescriptor.node, ((describeW_get hD hS hx).2 _ _).mpr hm], hf⟩

/-- C95: the default read off a stored descriptor converts, to a proper value of the type whose `to_value`
is the default, if and only if none of the types it is made up of has a skipped field before a reflected
one in its tuple struct or in its first variant, a tuple variant. -/
theorem C95_default_converts_iff (hO : OrdLaws E) {cap : Nat} (hc : ∀ u n, t.Reach E (.array u n) → n ≤ cap)
    {fuel : Nat} {v : Value} (h : wireDefault cap x fuel x.root = some (.ok (some v))) :
    (∃ y, fromReflect E t v.toObj = some y ∧ HasTy E t y ∧ y.toValue = v) ↔
      ∀ u, t.Needs E u → ¬ u.DefaultGap E := by
  rw [(C94_nodes hD hS hx).1, C95_default hD hS hi ha hl hn hd hx hc .refl] at h
  refine C38_converts_iff hD hO hd (fuel := fuel) ?_
  rw [descriptor_root hD hd]
  cases hv : defaultValue d.graph fuel t.unbox with
  | none => rw [hv] at h; cases h
  | some o => rw [hv] at h; cases h; rfl


/-! ## A concrete case -/

omit hD hS hi ha hl hn hd hx

theorem demoFacts_id (u : Ty) : demoFacts.id u < 2 ^ 64 := by
  show demoHash u < _
  unfold demoHash
  split <;> decide

theorem demo_arrays (u : Ty) (n : Nat) : ¬ (Ty.named "Tree").Reach demoEnv (.array u n) := by
  intro h
  have := demo_reach h
  simp at this

theorem demo_noCollision : NoCollision demoEnv demoFacts.id (.named "Tree") := by
  have : ∀ u ∈ ([.named "Tree", .nonzero .u8, .vec (.named "Tree"), .map (.scalar .string) (.scalar (.int .u8)),
      .scalar .string, .scalar (.int .u8)] : List Ty), ∀ v ∈ ([.named "Tree", .nonzero .u8, .vec (.named "Tree"),
      .map (.scalar .string) (.scalar (.int .u8)), .scalar .string, .scalar (.int .u8)] : List Ty),
      demoHash u.unbox = demoHash v.unbox → u.unbox = v.unbox := by decide
  exact fun u v hu hv h => this u (demo_reach hu) v (demo_reach hv) h

/-- Non-vacuity of C95: in the descriptor of `Tree`, read back or not, `kids` has the default `[]`; `Tree`
itself has none, because `NonZeroU8` has none; the path to the elements of `kids` leads back to `Tree`,
where the docs are those of `Tree`. -/
example : wireDefault 10 demoFull 3 2 = some (.ok (some (.list []))) ∧
    wireDefault 10 demoFull 3 1 = some (.ok none) ∧ wireHas demoFull 3 1 = some (.ok false) ∧
    demoFull.nav.typeAt [.named "kids", .get (.scalar (.int .i32 0))] =
      demoFull.nav.typeAt [] ∧
    ∃ x, demoFull.node 1 = some (.struct x) ∧ x.docs = [" A tree.", " It may be empty."] := by
  refine ⟨by cbv, by cbv, by cbv, by cbv, _, by cbv, rfl⟩

/-- All hypotheses of C95 are met by `Vec<Tree>`, whose default `[]` converts. -/
example : ∃ d x, describe demoEnv 10 (.vec (.named "Tree")) = some d ∧
    describeW demoEnv demoFacts 10 (.vec (.named "Tree")) = some x ∧
    NoCollision demoEnv demoFacts.id (.vec (.named "Tree")) ∧
    (∀ u n, ¬ (Ty.vec (.named "Tree")).Reach demoEnv (.array u n)) ∧
    wireDefault 10 x 3 x.root = some (.ok (some (.list []))) ∧
    ∃ y, fromReflect demoEnv (.vec (.named "Tree")) (Value.list []).toObj = some y ∧
      HasTy demoEnv (.vec (.named "Tree")) y ∧ y.toValue = .list [] := by
  have hr : (Ty.named "Tree").Reach demoEnv (.vec (.named "Tree")) := .step _ _ .refl (by decide)
  have h1 : NoCollision demoEnv demoFacts.id (.vec (.named "Tree")) :=
    fun u v hu hv => demo_noCollision u v (hr.trans hu) (hr.trans hv)
  have h2 : ∀ u n, ¬ (Ty.vec (.named "Tree")).Reach demoEnv (.array u n) :=
    fun u n h => demo_arrays u n (hr.trans h)
  obtain ⟨x, hx⟩ : ∃ x, describeW demoEnv demoFacts 10 (.vec (.named "Tree")) = some x := ⟨_, by cbv⟩
  obtain ⟨d, hd⟩ := Option.isSome_iff_exists.mp
    ((C94_full demo_declsOK demoFacts_parsed h1 10).1.symm.trans (by rw [hx]; rfl))
  have hv : wireDefault 10 x 3 x.root = some (.ok (some (.list []))) := by
    have : (describeW demoEnv demoFacts 10 (.vec (.named "Tree"))).map (fun x => wireDefault 10 x 3 x.root) =
        some (some (.ok (some (.list [])))) := by cbv
    rw [hx] at this
    exact Option.some.inj this
  refine ⟨d, x, hd, hx, h1, h2, hv, ?_⟩
  refine (C95_default_converts_iff demo_declsOK demoFacts_parsed demoFacts_id demoFacts_storable
    (fun u n h => absurd h (h2 u n)) h1 hd hx demo_ordLaws (fun u n h => absurd h (h2 u n)) hv).mpr ?_
  have : ∀ u, (Ty.vec (.named "Tree")).Needs demoEnv u → u = .vec (.named "Tree") := by
    intro u h
    induction h with
    | refl => rfl
    | step a u us _ ha hm ih => subst ih; cases ha; cases hm
  rintro u hu ⟨n, c, rfl, _⟩
  cases this _ hu

end Mirror
