import Verif.Lemmas.Suits
import Verif.Props.StoredType
import Verif.Props.Equal

set_option linter.unusedSimpArgs false

/-!
# C96: the descriptor tells which Values are values of the type

`Suits` (Spec/Suits) is what one would say from the descriptor alone: the fields by name or position with
their types, the variants, the lengths. `from_reflect` accepts exactly these Values, whether the
descriptor is the type's own or was written and read, unless a tuple struct or tuple variant skips a field
before a reflected one: then the descriptor misleads.
-/

namespace Mirror

variable {E : Env} {S : Facts}

theorem part_describes (hD : DeclsOK E) {t : Ty} {depth : Nat} {d : TypeDescriptor}
    (hd : describe E depth t = some d) {i : Ty} (hi : Part E t i) {n : TypeNode} (hn : d.graph.node i = some n) :
    Describes E i n := by
  obtain ⟨u, hu, rfl⟩ := hi
  exact (descriptor_describes hD hd (descriptor_complete hD hd hu) hn).1

/-- For every part of the type. -/
theorem suits_reads (hD : DeclsOK E) {t : Ty} {depth : Nat} {d : TypeDescriptor}
    (hd : describe E depth t = some d) (hg : ∀ u, t.Reach E u → ¬ u.unbox.PosGap E)
    {op : Ty → Value → Prop}
    (ho : ∀ u, t.Reach E u → u.unbox.IsOpaque → ∀ w : Value, w.WF → (op u.unbox w ↔ Reads E u.unbox w.toObj))
    {i : Ty} (hi : Part E t i) {v : Value} (hw : v.WF) :
    Suits d.graph op i v ↔ Reads E i v.toObj := by
  obtain ⟨hnode, hclosed⟩ := describe_parts hD hd
  have level : ∀ i, Part E t i → ∀ n, d.graph.node i = some n → ∀ v : Value, v.WF →
      (n.Takes (fun j w => Reads E j w.toObj) (op i) v ↔ Reads E i v.toObj) := by
    intro i hi n hn v hw
    have hde := part_describes hD hd hi hn
    obtain ⟨u, hu, rfl⟩ := hi
    exact takes_reads hD hde (hg u hu) hw fun h => ho u hu h v hw
  constructor
  · intro h
    refine h (fun i v => Part E t i → v.WF → Reads E i v.toObj) (fun i v n hn ht hi hw => ?_) hi hw
    exact (level i hi n hn v hw).mp (ht.mono (fun j hj w _ hwf hr => hr (hclosed i n hi hn j hj) (hwf hw))
      fun _ h => h)
  · generalize hs : sizeOf v = k
    induction k using Nat.strong_induction_on generalizing v i with
    | _ k ih =>
      intro h
      obtain ⟨n, hn⟩ := hnode i hi
      refine .intro hn (((level i hi n hn v hw).mpr h).mono (fun j hj w hlt hwf hr => ?_) fun _ h => h)
      exact ih (sizeOf w) (by omega) (hclosed i n hi hn j hj) (hwf hw) rfl hr

/-- C96. `from_reflect` of a type accepts exactly the Values that its descriptor allows, for every type with
a descriptor in which no tuple struct or tuple variant skips a field before a reflected one. For opaque
types, of which a descriptor tells nothing else, `OpaqueTakes` lists what they accept. -/
theorem C96_accepts_iff_partial (hD : DeclsOK E) {t : Ty} {depth : Nat} {d : TypeDescriptor}
    (hd : describe E depth t = some d) (hg : ∀ u, t.Reach E u → ¬ u.unbox.PosGap E)
    {v : Value} (hw : v.WF) :
    (∃ y, fromReflect E t v.toObj = some y) ↔ Suits d.graph Ty.OpaqueTakes d.root v := by
  rw [descriptor_root hD hd, suits_reads hD hd hg (fun u hu ho w hw => opaque_takes hD ho hw) (.root t) hw]
  simp only [Reads, fromReflect_unbox]

/-- C96 for every type in the descriptor, not only its root. -/
theorem C96_part_accepts_iff_partial (hD : DeclsOK E) {t : Ty} {depth : Nat} {d : TypeDescriptor}
    (hd : describe E depth t = some d) (hg : ∀ u, t.Reach E u → ¬ u.unbox.PosGap E)
    {u : Ty} (hu : t.Reach E u) {v : Value} (hw : v.WF) :
    (∃ y, fromReflect E u v.toObj = some y) ↔ Suits d.graph Ty.OpaqueTakes u.unbox v := by
  rw [suits_reads hD hd hg (fun u hu ho w hw => opaque_takes hD ho hw) ⟨u, hu, rfl⟩ hw]
  simp only [Reads, fromReflect_unbox]

/-- C96 for a descriptor with hashes for ids, as it is in memory, written, or read back. `op` says what the
opaque types accept. -/
theorem C96_stored_iff_partial (hD : DeclsOK E) (hS : S.Every Attrs.Parsed) (hi : ∀ u, S.id u < 2 ^ 64)
    (ha : S.Every fun a => ∀ p ∈ a.pairs, p.2.toValue.Storable) {t : Ty}
    (hl : ∀ u n, t.Reach E (.array u n) → n < 2 ^ 64) (hn : NoCollision E S.id t) {depth : Nat}
    {d : TypeDescriptor} {x : WireDescriptor} (hd : describe E depth t = some d)
    (hx : describeW E S depth t = some x) (hg : ∀ u, t.Reach E u → ¬ u.unbox.PosGap E)
    {op : Ty → Value → Prop}
    (ho : ∀ u, t.Reach E u → u.unbox.IsOpaque → ∀ w, op (wireTy (S.id u.unbox)) w ↔ u.unbox.OpaqueTakes w)
    {v : Value} (hw : v.WF) :
    (∃ y, fromReflect E t v.toObj = some y) ↔ Suits x.nav.graph op x.nav.root v := by
  have hren := (describeW_renames hD hS hn hd hx).2 (C94_storable hD hS hi ha hl hx)
  have hroot : x.nav.root = wireTy (S.id t.unbox) := by
    show wireTy x.root = _
    rw [(C94_nodes hD hS hx).1]
  rw [C96_accepts_iff_partial hD hd hg hw, descriptor_root hD hd, hroot,
    suits_rename hren (op := Ty.OpaqueTakes) (op' := op) ?_ v t.unbox (.root t)]
  rintro i ⟨u, hu, rfl⟩ hop w
  refine ho u hu ?_ w
  have hde := part_describes hD hd ⟨u, hu, rfl⟩ hop
  revert hde
  generalize u.unbox = i
  intro hde
  cases hde <;> trivial

/-- C96: two programs, or two versions of one, whose types have the same stored descriptor accept the same
Values, provided the ids of opaque types stand for the same types in both. -/
theorem C96_same_descriptor_partial {E' : Env} {S' : Facts} {t t' : Ty} {depth depth' : Nat} {d d' : TypeDescriptor}
    {x : WireDescriptor} (hD : DeclsOK E) (hD' : DeclsOK E')
    (hS : S.Every Attrs.Parsed) (hS' : S'.Every Attrs.Parsed)
    (hi : ∀ u, S.id u < 2 ^ 64) (hi' : ∀ u, S'.id u < 2 ^ 64)
    (ha : S.Every fun a => ∀ p ∈ a.pairs, p.2.toValue.Storable)
    (ha' : S'.Every fun a => ∀ p ∈ a.pairs, p.2.toValue.Storable)
    (hl : ∀ u n, t.Reach E (.array u n) → n < 2 ^ 64) (hl' : ∀ u n, t'.Reach E' (.array u n) → n < 2 ^ 64)
    (hn : NoCollision E S.id t) (hn' : NoCollision E' S'.id t')
    (hd : describe E depth t = some d) (hd' : describe E' depth' t' = some d')
    (hx : describeW E S depth t = some x) (hx' : describeW E' S' depth' t' = some x)
    (hg : ∀ u, t.Reach E u → ¬ u.unbox.PosGap E) (hg' : ∀ u, t'.Reach E' u → ¬ u.unbox.PosGap E')
    (hop : ∀ u u', t.Reach E u → t'.Reach E' u' → S.id u.unbox = S'.id u'.unbox →
      u.unbox.IsOpaque ∨ u'.unbox.IsOpaque → u.unbox = u'.unbox)
    {v : Value} (hw : v.WF) :
    (∃ y, fromReflect E t v.toObj = some y) ↔ ∃ y, fromReflect E' t' v.toObj = some y := by
  let op : Ty → Value → Prop := fun i w =>
    (∃ u, t.Reach E u ∧ i = wireTy (S.id u.unbox) ∧ u.unbox.IsOpaque ∧ u.unbox.OpaqueTakes w) ∨
    ∃ u, t'.Reach E' u ∧ i = wireTy (S'.id u.unbox) ∧ u.unbox.IsOpaque ∧ u.unbox.OpaqueTakes w
  rw [C96_stored_iff_partial hD hS hi ha hl hn hd hx hg (op := op) ?_ hw,
    C96_stored_iff_partial hD' hS' hi' ha' hl' hn' hd' hx' hg' (op := op) ?_ hw]
  · intro u hu hou w
    constructor
    · rintro (⟨u', hu', he, hou', h⟩ | ⟨u', hu', he, hou', h⟩)
      · rw [← hop u' u hu' hu (wireTy_inj he).symm (.inl hou')]; exact h
      · rw [hn' u u' hu hu' (wireTy_inj he)]; exact h
    · exact fun h => .inr ⟨u, hu, rfl, hou, h⟩
  · intro u hu hou w
    constructor
    · rintro (⟨u', hu', he, hou', h⟩ | ⟨u', hu', he, hou', h⟩)
      · rw [hn u u' hu hu' (wireTy_inj he)]; exact h
      · rw [hop u u' hu hu' (wireTy_inj he) (.inl hou)]; exact h
    · exact fun h => .inl ⟨u, hu, rfl, hou, h⟩

/-! ## With a gap the descriptor misleads -/

theorem shown_cons_le (a : FieldDef) (fds : List FieldDef) :
    (declShown (a :: fds)).length ≤ (declShown fds).length + 1 := by
  simp only [declShown, List.filter_cons]
  split <;> simp

theorem last_shown {fds : List FieldDef} (h : ∃ fd ∈ fds, fd.skip = false) :
    ∃ (J : Nat) (g : FieldDef), fds[J]? = some g ∧ g.skip = false ∧ (declShown fds).length ≤ J + 1 := by
  induction fds with
  | nil => obtain ⟨_, h, _⟩ := h; cases h
  | cons a fds ih =>
    have hle := shown_cons_le a fds
    by_cases hb : ∃ g ∈ fds, g.skip = false
    · obtain ⟨J, g, h1, h2, h3⟩ := ih hb
      exact ⟨J + 1, g, by simpa using h1, h2, by omega⟩
    · have he : declShown fds = [] := by
        rw [declShown, List.filter_eq_nil_iff]
        intro g hg
        have : g.skip ≠ false := fun hh => hb ⟨g, hg, hh⟩
        simpa using this
      obtain ⟨fd, hm, hs⟩ := h
      rcases List.mem_cons.mp hm with rfl | hh
      · exact ⟨0, fd, rfl, hs, by rw [he] at hle; simpa using hle⟩
      · exact absurd ⟨fd, hh, hs⟩ hb

/-- With a gap some reflected field is declared at a position past the described ones. -/
theorem SkipGap.past {fds : List FieldDef} (h : SkipGap fds) :
    ∃ (J : Nat) (g : FieldDef), fds[J]? = some g ∧ g.skip = false ∧ (declShown fds).length ≤ J := by
  induction fds with
  | nil => obtain ⟨i, j, fi, fj, h1, _⟩ := h; simp at h1
  | cons a fds ih =>
    obtain ⟨i, j, fi, fj, h1, h2, h3, h4, h5⟩ := h
    obtain ⟨j, rfl⟩ : ∃ j', j = j' + 1 := ⟨j - 1, by omega⟩
    have h2' : fds[j]? = some fj := by simpa using h2
    cases i with
    | zero =>
      have : a = fi := by simpa using h1
      subst this
      obtain ⟨J, g, g1, g2, g3⟩ := last_shown ⟨fj, List.mem_of_getElem? h2', h4⟩
      refine ⟨J + 1, g, by simpa using g1, g2, ?_⟩
      simp only [declShown, List.filter_cons, h3] at g3 ⊢
      simpa using g3
    | succ i =>
      obtain ⟨J, g, g1, g2, g3⟩ := ih ⟨i, j, fi, fj, by simpa using h1, h2', h3, h4, by omega⟩
      refine ⟨J + 1, g, by simpa using g1, g2, ?_⟩
      have := shown_cons_le a fds
      omega

/-- C96 fails with a gap: a Value that has just the fields the descriptor of a tuple struct lists, or
fewer, is never accepted, whatever the fields. -/
theorem C96_gap_tuple_struct {n : String} {fds : List FieldDef} {c : Bool}
    (hd : E.decl n = some ⟨.tupleStruct fds, c⟩) (hg : SkipGap fds) {ws : List Value}
    (hw : (Value.tupleStruct ws).WF) (hl : ws.length ≤ (fds.filter fun fd => !fd.skip).length) :
    fromReflect E (.named n) (Value.tupleStruct ws).toObj = none := by
  cases h : fromReflect E (.named n) (Value.tupleStruct ws).toObj with
  | none => rfl
  | some y =>
    obtain ⟨J, g, h1, h2, h3⟩ := hg.past
    obtain ⟨_, hf⟩ := (reads_tupleStruct hd (.value _ _ hw rfl)).mp ⟨y, h⟩
    obtain ⟨z, hz, _⟩ := hf J g h1 h2
    obtain ⟨w, hJ, _⟩ := (toObj_fieldAt hw).mp hz
    have := (List.getElem?_eq_some_iff.mp (show ws[J]? = some w from hJ)).1
    have hd : declShown fds = fds.filter fun fd => !fd.skip := rfl
    rw [hd] at h3
    omega

/-- The same for a tuple variant of an enum. -/
theorem C96_gap_variant (hD : DeclsOK E) {n vn : String} {vds : List VariantDef} {fds : List FieldDef} {c : Bool}
    (hd : E.decl n = some ⟨.enum vds, c⟩) (hv : VariantDef.tuple vn fds ∈ vds) (hg : SkipGap fds)
    {ws : List Value} (hw : (Value.enumT vn ws).WF)
    (hl : ws.length ≤ (fds.filter fun fd => !fd.skip).length) :
    fromReflect E (.named n) (Value.enumT vn ws).toObj = none := by
  cases h : fromReflect E (.named n) (Value.enumT vn ws).toObj with
  | none => rfl
  | some y =>
    obtain ⟨J, g, h1, h2, h3⟩ := hg.past
    obtain ⟨vd, hm, hname, hask⟩ := (reads_enum hD hd (.value _ _ hw rfl)).mp ⟨y, h⟩
    have hvd : vd = .tuple vn fds := by
      have hn : vn = vd.name := by simpa [toObj_variantName, Value.variant] using hname
      exact variant_unique (hD.variant_names _ _ _ hd) hm hv (by rw [← hn]; rfl)
    subst hvd
    obtain ⟨z, hz, _⟩ := hask J g h1 h2
    obtain ⟨w, hJ, _⟩ := (toObj_fieldAt hw).mp hz
    have := (List.getElem?_eq_some_iff.mp (show ws[J]? = some w from hJ)).1
    have hd : declShown fds = fds.filter fun fd => !fd.skip := rfl
    rw [hd] at h3
    omega


/-- C96: every tuple struct with a gap misleads. If each of its described fields can be filled, there is a
Value that its descriptor allows and `from_reflect` refuses. -/
theorem C96_gap_misleads (hD : DeclsOK E) {n : String} {fds : List FieldDef} {c : Bool} {depth : Nat}
    {d : TypeDescriptor} (hd : describe E depth (.named n) = some d)
    (he : E.decl n = some ⟨.tupleStruct fds, c⟩) (hg : SkipGap fds) {op : Ty → Value → Prop}
    (hf : ∀ fd ∈ fds, fd.skip = false → ∃ w : Value, w.WF ∧ Suits d.graph op fd.ty.unbox w) :
    ∃ v : Value, v.WF ∧ Suits d.graph op d.root v ∧ fromReflect E (.named n) v.toObj = none := by
  obtain ⟨hnode, _⟩ := describe_parts hD hd
  obtain ⟨nd, hnd⟩ := hnode (.named n) (.root _)
  have hde := part_describes hD hd (.root _) hnd
  have hs : ∀ fd ∈ fds.filter (fun fd => !fd.skip), ∃ w : Value, w.WF ∧ Suits d.graph op fd.ty.unbox w := by
    intro fd hm
    obtain ⟨h1, h2⟩ := List.mem_filter.mp hm
    exact hf fd h1 (by simpa using h2)
  obtain ⟨ws, hlen, hall⟩ : ∃ ws : List Value, ws.length = (fds.filter fun fd => !fd.skip).length ∧
      ∀ (i : Nat) fd, (fds.filter fun fd => !fd.skip)[i]? = some fd →
        ∃ w, ws[i]? = some w ∧ w.WF ∧ Suits d.graph op fd.ty.unbox w := by
    generalize fds.filter (fun fd => !fd.skip) = l at hs
    induction l with
    | nil => exact ⟨[], rfl, fun i fd h => by simp at h⟩
    | cons a l ih =>
      obtain ⟨ws, h1, h2⟩ := ih fun fd hm => hs fd (by simp [hm])
      obtain ⟨w, hw⟩ := hs a (by simp)
      refine ⟨w :: ws, by simp [h1], fun i fd h => ?_⟩
      cases i with
      | zero => simp at h; subst h; exact ⟨w, rfl, hw⟩
      | succ i => simpa using h2 i fd (by simpa using h)
  have hwf : (Value.tupleStruct ws).WF := by
    refine .tupleStruct _ fun x hx => ?_
    obtain ⟨i, hi⟩ := List.getElem?_of_mem hx
    have hlt := (List.getElem?_eq_some_iff.mp hi).1
    obtain ⟨w, h1, h2, _⟩ := hall i _ (List.getElem?_eq_getElem (by omega))
    rw [hi] at h1; cases h1; exact h2
  refine ⟨_, hwf, ?_, C96_gap_tuple_struct he hg hwf hlen.le⟩
  rw [descriptor_root hD hd]
  refine .intro hnd ?_
  cases hde with
  | struct _ _ _ _ _ h => rw [he] at h; cases h
  | enum _ _ _ _ h => rw [he] at h; cases h
  | tupleStruct _ fds' c' h =>
    rw [he] at h; cases h
    refine ⟨⟨ws, rfl⟩, fun i j hj => ?_⟩
    rw [List.getElem?_map, Option.map_eq_some_iff] at hj
    obtain ⟨fd, hfd, rfl⟩ := hj
    obtain ⟨w, h1, _, h3⟩ := hall i fd hfd
    exact ⟨w, h1, h3⟩

/-! ## Concrete cases -/

theorem demo_noPosGap (u : Ty) : ¬ u.PosGap demoEnv := by
  rintro ⟨n, c, rfl, ⟨fds, hd, i, j, fi, fj, h1, h2, h3, h4, h5⟩ |
    ⟨vn, fds, vds, hd, hv, i, j, fi, fj, h1, h2, h3, h4, h5⟩⟩
  · have := demo_skipsLast.1 _ _ _ hd i j fi fj h1 h2 h3 h4; omega
  · have := demo_skipsLast.2 _ _ _ _ _ hd hv i j fi fj h1 h2 h3 h4; omega

/-- Non-vacuity of `C96_accepts_iff_partial`: the recursive `Tree` with its `NonZeroU8`, list and map. The Value of a
tree suits the descriptor; a tree whose `val` is zero, or that has no `kids`, does not. -/
example : ∃ d, describe demoEnv 10 (.named "Tree") = some d ∧
    Suits d.graph Ty.OpaqueTakes d.root demoTree.toValue ∧
    ¬ Suits d.graph Ty.OpaqueTakes d.root (.struct ["kids", "names", "val"]
      [("kids", .list []), ("names", .map []), ("val", .scalar (.int .u8 0))]) ∧
    ¬ Suits d.graph Ty.OpaqueTakes d.root (.struct ["names", "val"]
      [("names", .map []), ("val", .scalar (.int .u8 1))]) := by
  obtain ⟨d, hd⟩ := Option.isSome_iff_exists.mp
    ((C94_full demo_declsOK demoFacts_parsed demo_noCollision 10).1.symm.trans (by rw [demoFull_built]; rfl))
  have key := fun v hw => C96_accepts_iff_partial demo_declsOK hd (fun u _ => demo_noPosGap _) (v := v) hw
  refine ⟨d, hd, (key _ demoTree_hasTy.toValue_wf).mp ?_, fun h => ?_, fun h => ?_⟩
  · exact ⟨_, by cbv⟩
  · obtain ⟨y, hy⟩ := (key _ (.struct _ _ (by simp) (by unfold BMSorted; decide) (by
      simp only [List.forall_mem_cons]
      exact ⟨.list _ (by simp), .map _ .nil (by simp) (by simp), .scalar _, by simp⟩))).mpr h
    have : fromReflect demoEnv (.named "Tree") (Value.struct ["kids", "names", "val"]
      [("kids", .list []), ("names", .map []), ("val", .scalar (.int .u8 0))]).toObj = none := by cbv
    rw [this] at hy; cases hy
  · obtain ⟨y, hy⟩ := (key _ (.struct _ _ (by simp) (by unfold BMSorted; decide) (by
      simp only [List.forall_mem_cons]
      exact ⟨.map _ .nil (by simp) (by simp), .scalar _, by simp⟩))).mpr h
    have : fromReflect demoEnv (.named "Tree") (Value.struct ["names", "val"]
      [("names", .map []), ("val", .scalar (.int .u8 1))]).toObj = none := by cbv
    rw [this] at hy; cases hy

/-- Non-vacuity of the failure: `struct Bad3(#[reflect(skip)] _, u8, u8)`. The descriptor lists two `u8`, and a
Value with two `u8` is refused. -/
example : ∃ d, describe gapEnv 5 (.named "Bad3") = some d ∧
    ∃ v : Value, v.WF ∧ Suits d.graph Ty.OpaqueTakes d.root v ∧ fromReflect gapEnv (.named "Bad3") v.toObj = none := by
  obtain ⟨d, hd⟩ : ∃ d, describe gapEnv 5 (.named "Bad3") = some d := ⟨_, rfl⟩
  refine ⟨d, hd, C96_gap_misleads gap_declsOK hd (c := false) rfl
    ⟨0, 1, _, _, rfl, rfl, rfl, rfl, by decide⟩ fun fd hm hs => ?_⟩
  have ht : fd.ty.unbox = .scalar (.int .u8) := by
    simp only [List.mem_cons, List.not_mem_nil, or_false] at hm
    rcases hm with rfl | rfl | rfl <;> first | (simp at hs; done) | rfl
  obtain ⟨hnode, _⟩ := describe_parts gap_declsOK hd
  have hp : Part gapEnv (.named "Bad3") (.scalar (.int .u8)) :=
    ⟨_, .step _ _ .refl (show Ty.scalar (.int .u8) ∈ _ by decide), rfl⟩
  obtain ⟨n, hn⟩ := hnode _ hp
  have hde := part_describes gap_declsOK hd hp hn
  cases hde
  rw [ht]
  exact ⟨.scalar (.int .u8 7), .scalar _, .intro hn ⟨_, rfl, rfl⟩⟩


/-- The next version of `Tree`, with a skipped field: `struct Tree { .., #[reflect(skip)] cache: bool }`. -/
def treeNext : Env := valueOrdEnv fun n =>
  if n = "Tree" then
    some ⟨.struct [⟨"val", .nonzero .u8, false⟩, ⟨"kids", .vec (.named "Tree"), false⟩,
      ⟨"names", .map (.scalar .string) (.scalar (.int .u8)), false⟩, ⟨"cache", .scalar .bool, true⟩], true⟩
  else none

theorem treeNext_decl {n : String} {df} (h : treeNext.decl n = some df) :
    ∃ fds, df.shape = .struct fds ∧ (fds.map (·.name)).Nodup := by
  simp only [treeNext, valueOrdEnv] at h
  split at h
  · cases h; exact ⟨_, rfl, by decide⟩
  · cases h

theorem treeNext_declsOK : DeclsOK treeNext where
  struct_names n fds c h := by
    obtain ⟨_, h1, h2⟩ := treeNext_decl h; cases h1; exact h2
  variant_names n vds c h := by
    obtain ⟨_, h1, h2⟩ := treeNext_decl h; cases h1
  variant_fields n vds c vn fds h hv := by
    obtain ⟨_, h1, h2⟩ := treeNext_decl h; cases h1

theorem treeNext_reach {u : Ty} (hu : (Ty.named "Tree").Reach treeNext u) :
    u ∈ ([.named "Tree", .nonzero .u8, .vec (.named "Tree"), .map (.scalar .string) (.scalar (.int .u8)),
      .scalar .string, .scalar (.int .u8)] : List Ty) := by
  induction hu with
  | refl => simp
  | step u v _ hv ih =>
    have : ∀ u ∈ ([.named "Tree", .nonzero .u8, .vec (.named "Tree"),
      .map (.scalar .string) (.scalar (.int .u8)), .scalar .string, .scalar (.int .u8)] : List Ty),
      ∀ v ∈ u.comps treeNext, v ∈ ([.named "Tree", .nonzero .u8, .vec (.named "Tree"),
      .map (.scalar .string) (.scalar (.int .u8)), .scalar .string, .scalar (.int .u8)] : List Ty) := by
      decide
    exact this u ih v hv

/-- Non-vacuity of `C96_same_descriptor_partial` and with it of `C96_stored_iff_partial`: adding a skipped field leaves the
stored descriptor as it was, so both versions accept the same Values. -/
example {v : Value} (hw : v.WF) : (∃ y, fromReflect demoEnv (.named "Tree") v.toObj = some y) ↔
    ∃ y, fromReflect treeNext (.named "Tree") v.toObj = some y := by
  have hx' : describeW treeNext demoFacts 10 (.named "Tree") = some demoFull := by cbv
  have inj : ∀ u ∈ ([.named "Tree", .nonzero .u8, .vec (.named "Tree"), .map (.scalar .string) (.scalar (.int .u8)),
      .scalar .string, .scalar (.int .u8)] : List Ty), ∀ v ∈ ([.named "Tree", .nonzero .u8, .vec (.named "Tree"),
      .map (.scalar .string) (.scalar (.int .u8)), .scalar .string, .scalar (.int .u8)] : List Ty),
      demoHash u.unbox = demoHash v.unbox → u.unbox = v.unbox := by decide
  have hn' : NoCollision treeNext demoFacts.id (.named "Tree") :=
    fun u v hu hv => inj u (treeNext_reach hu) v (treeNext_reach hv)
  obtain ⟨d, hd⟩ := Option.isSome_iff_exists.mp
    ((C94_full demo_declsOK demoFacts_parsed demo_noCollision 10).1.symm.trans (by rw [demoFull_built]; rfl))
  obtain ⟨d', hd'⟩ := Option.isSome_iff_exists.mp
    ((C94_full treeNext_declsOK demoFacts_parsed hn' 10).1.symm.trans (by rw [hx']; rfl))
  refine C96_same_descriptor_partial demo_declsOK treeNext_declsOK demoFacts_parsed demoFacts_parsed demoFacts_id
    demoFacts_id demoFacts_storable demoFacts_storable (fun u n h => absurd h (demo_arrays u n))
    (fun u n h => absurd (treeNext_reach h) (by simp)) demo_noCollision hn' hd hd' demoFull_built hx'
    (fun u _ => demo_noPosGap _) (fun u _ => ?_)
    (fun u u' hu hu' he _ => inj u (demo_reach hu) u' (treeNext_reach hu') he) hw
  rintro ⟨n, c, _, ⟨fds, h, _⟩ | ⟨vn, fds, vds, h, _⟩⟩ <;>
    (obtain ⟨_, h1, _⟩ := treeNext_decl h; cases h1)

end Mirror
