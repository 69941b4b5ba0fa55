import Verif.Lemmas.VisitAny
import Verif.Lemmas.StandIn
import Verif.Props.Visit
import Mathlib.Data.List.Perm.Basic

/-!
# Walking over the copy of a value along the type of the value
-/

set_option linter.unusedSimpArgs false

namespace Mirror

variable {E : Env} {g : TypeGraph}

/-- A part of a value, and what takes its place in the copy. -/
def partCopy (p : Ty × Obj) : Ty × Obj := (p.1.unbox, p.2.copied)

theorem asked_named {fds : List FieldDef} {fs : List (String × Obj)}
    (hn : fs.map (·.1) = fds.map (·.name))
    (ht : ∀ (i : Nat) fd p, fds[i]? = some fd → fs[i]? = some p → fd.skip = false → HasTy E fd.ty p.2)
    (hnd : (fds.map (·.name)).Nodup) {names fields}
    (hf : namedTypes names fields = (fds.filter fun fd => !fd.skip).map fun fd => (fd.name, some fd.ty.unbox))
    {o : Obj} (ho : ∀ m, o.field m = (lookup m (visFields fs)).map Obj.copied) :
    AskedNamed o names fields
      ((((fds.zip fs).filter fun q => !q.1.skip).map fun q => (q.1.ty, q.2.2)).map partCopy) := by
  have hlen : fs.length = fds.length := by simpa using congrArg List.length hn
  have hfn : (fs.map (·.1)).Nodup := by rw [hn]; exact hnd
  have h2 : List.Forall₂ (fun fd (q : FieldDef × (String × Obj)) => q.1 = fd ∧ lookup fd.name (visFields fs) = some q.2.2)
      (fds.filter fun fd => !fd.skip) ((fds.zip fs).filter fun q => !q.1.skip) := by
    refine filter_forall2 (by simp [hlen]) fun i fd q hfd hq => ?_
    obtain ⟨h1, h2⟩ := zip_getElem hq
    rw [hfd] at h1; cases h1
    refine ⟨rfl, fun hk => ⟨rfl, ?_⟩⟩
    have hk' : q.1.skip = false := by simpa using hk
    have hty := ht i _ _ hfd h2 hk'
    have hname : q.2.1 = q.1.name := by
      have e : (fs.map (·.1))[i]? = (fds.map (·.name))[i]? := by rw [hn]
      simpa [h2, hfd] using e
    rw [← hname]; exact lookup_vis_of_idx hfn h2 hty.not_hidden
  constructor
  · have := congrArg List.length hf
    simp only [namedTypes, List.length_map] at this
    simp only [List.length_map]
    rw [this, h2.length_eq]
  · intro i n p hi hp
    rw [List.map_map, List.getElem?_map] at hp
    cases hq : ((fds.zip fs).filter fun q => !q.1.skip)[i]? with
    | none => rw [hq] at hp; cases hp
    | some q =>
      rw [hq] at hp; cases hp
      obtain ⟨fd, hfd, rfl, hl⟩ := forall2_right h2 hq
      have := congrArg (fun l => l[i]?) hf
      simp only [namedTypes, List.getElem?_map, hi, hfd, Option.map_some, Option.some.injEq, Prod.mk.injEq] at this
      refine ⟨this.2, ?_⟩
      rw [ho, this.1, hl]; rfl

theorem asked_pos {fds : List FieldDef} {fs : List Obj} (hn : fs.length = fds.length)
    (hs : ∀ (i : Nat) fd x, fds[i]? = some fd → fs[i]? = some x → fd.skip = true → x.isHidden = true)
    (ht : ∀ (i : Nat) fd x, fds[i]? = some fd → fs[i]? = some x → fd.skip = false → HasTy E fd.ty x)
    {o : Obj} (ho : ∀ i, o.fieldAt i = visAt ((visPos fs).map Obj.copied) i) :
    AskedPos o ((fds.filter fun fd => !fd.skip).map fun fd => fd.ty.unbox)
      ((((fds.zip fs).filter fun q => !q.1.skip).map fun q => (q.1.ty, q.2)).map partCopy) := by
  have h1 : List.Forall₂ (fun fd q => q.1 = fd) (fds.filter fun fd => !fd.skip)
      ((fds.zip fs).filter fun q => !q.1.skip) := by
    refine filter_forall2 (by simp [hn]) fun i fd q hfd hq => ?_
    obtain ⟨h1, _⟩ := zip_getElem hq
    rw [hfd] at h1; cases h1
    exact ⟨rfl, fun _ => rfl⟩
  have h2 : List.Forall₂ (fun x q => q.2 = x) (visPos fs)
      ((fds.zip fs).filter fun q => !q.1.skip) := by
    refine filter_forall2 (by simp [hn]) fun i x q hx hq => ?_
    obtain ⟨h1, h2⟩ := zip_getElem hq
    rw [hx] at h2; cases h2
    refine ⟨?_, fun _ => rfl⟩
    cases hk : q.1.skip with
    | true => simp [hs i _ _ h1 hx hk]
    | false => simp [(ht i _ _ h1 hx hk).not_hidden]
  constructor
  · generalize (fds.zip fs).filter (fun q => !q.1.skip) = l at h1
    clear h2
    generalize fds.filter (fun fd => !fd.skip) = m at h1
    induction h1 with
    | nil => rfl
    | cons h _ ih => subst h; simp only [List.map_cons, ih]; rfl
  · intro i p hp
    rw [List.map_map, List.getElem?_map] at hp
    cases hq : ((fds.zip fs).filter fun q => !q.1.skip)[i]? with
    | none => rw [hq] at hp; cases hp
    | some q =>
      rw [hq] at hp; cases hp
      obtain ⟨x, hx, rfl⟩ := forall2_right h2 hq
      rw [ho, visAt, List.getElem?_map, hx]
      simp [copied_not_hidden, partCopy]

theorem zip_tys {fds : List FieldDef} {fs : List Obj}
    (ht : ∀ (i : Nat) fd x, fds[i]? = some fd → fs[i]? = some x → fd.skip = false → HasTy E fd.ty x) {p : Ty × Obj}
    (hp : p ∈ ((fds.zip fs).filter fun q => !q.1.skip).map fun q => (q.1.ty, q.2)) :
    HasTy E p.1 p.2 ∧ p.1.unbox ∈ (fds.filter fun fd => !fd.skip).map fun fd => fd.ty.unbox := by
  obtain ⟨q, hq, rfl⟩ := List.mem_map.mp hp
  obtain ⟨hq1, hq2⟩ := List.mem_filter.mp hq
  obtain ⟨i, hi⟩ := List.getElem?_of_mem hq1
  obtain ⟨h1, h2⟩ := zip_getElem hi
  refine ⟨ht i _ _ h1 h2 (by simpa using hq2), ?_⟩
  exact List.mem_map.mpr ⟨q.1, List.mem_filter.mpr ⟨List.mem_of_getElem? h1, hq2⟩, rfl⟩

theorem fieldAt_copies (l : List Obj) (o : Obj) (i : Nat) (h : o.fieldAt i = visAt (l.map Obj.copied) i) {x : Obj}
    (hx : l[i]? = some x) : o.fieldAt i = some x.copied := by
  rw [h, visAt, List.getElem?_map, hx]
  simp [copied_not_hidden]

/-- What the type of a value asks of its copy. -/
theorem asked_copy (hD : DeclsOK E) (hO : OrdLaws E) (hF : KeysFaithful E) {id node} (hd : Describes E id node)
    (hc : ∀ j ∈ node.ids, ∃ m, g.node j = some m) {x : Obj} (hx : HasTy E id x) (h1 : ∀ k, node ≠ .scalar k)
    (h2 : node ≠ .opaque) (h3 : ∀ t n, id ≠ .array t n) :
    ∃ ps qs, Parts E id x ps ∧ AskedOf g x.copied node qs ∧ qs.Perm (ps.map partCopy) ∧
      ∀ p ∈ ps, HasTy E p.1 p.2 ∧ p.1.unbox ∈ node.ids ∧ sizeOf p.2 < sizeOf x := by
  have isSome : ∀ t : Ty, t.unbox ∈ node.ids → (g.node t.unbox).isSome = true := by
    intro t ht
    obtain ⟨m, hm⟩ := hc _ ht
    rw [hm]; rfl
  have fin : ∀ {ps : List (Ty × Obj)}, Parts E id x ps → (∀ p ∈ ps, HasTy E p.1 p.2 ∧ p.1.unbox ∈ node.ids) →
      ∀ p ∈ ps, HasTy E p.1 p.2 ∧ p.1.unbox ∈ node.ids ∧ sizeOf p.2 < sizeOf x := by
    intro ps hps h p hp
    exact ⟨(h p hp).1, (h p hp).2, Obj.parts_size ((hps.parts_iff hD hx _).mpr ⟨p, hp, rfl⟩)⟩
  cases hd with
  | scalar k => exact absurd rfl (h1 k)
  | nonzero | value | structValue | tupleStructValue | tupleValue | enumValue => exact absurd rfl h2
  | array t n => exact absurd rfl (h3 t n)
  | vec t =>
    cases hx with
    | vec _ xs h =>
      refine ⟨_, _, .vec t xs, ?_, .refl _, fin (.vec t xs) ?_⟩
      · have := AskedOf.list (g := g) (o := (Obj.vec t xs).copied) t.unbox (by rw [copied_vec]; rfl)
          (isSome t (by simp [TypeNode.ids]))
        rw [copied_vec] at this ⊢
        simpa [Obj.posIter, partCopy, Function.comp_def] using this
      · intro p hp
        obtain ⟨y, hy, rfl⟩ := List.mem_map.mp hp
        exact ⟨h y hy, by simp [TypeNode.ids]⟩
  | map k v =>
    have hx' := hx
    cases hx with
    | map _ _ kvs _ hk hv =>
      refine ⟨_, (entryCopy kvs).flatMap fun p => [(k.unbox, p.1), (v.unbox, p.2)], .map k v kvs, ?_, ?_,
        fin (.map k v kvs) ?_⟩
      · have := AskedOf.map (g := g) (o := (Obj.map k v kvs).copied) k.unbox v.unbox (by rw [copied_map]; rfl)
          (isSome k (by simp [TypeNode.ids])) (isSome v (by simp [TypeNode.ids]))
        rw [copied_map] at this ⊢
        exact this
      · have := (entryCopy_perm hO hF ⟨_, hx'⟩).flatMap_right
          fun p : Obj × Obj => [(k.unbox, p.1), (v.unbox, p.2)]
        simpa [List.map_flatMap, List.flatMap_map, partCopy] using this
      · intro p hp
        obtain ⟨q, hq, hp⟩ := List.mem_flatMap.mp hp
        simp only [List.mem_cons, List.not_mem_nil, or_false] at hp
        rcases hp with rfl | rfl
        · exact ⟨hk q hq, by simp [TypeNode.ids]⟩
        · exact ⟨hv q hq, by simp [TypeNode.ids]⟩
  | tuple ts =>
    cases hx with
    | tuple _ fs hl h =>
      refine ⟨_, _, .tuple ts fs, .tuple _ _ (by rw [copied_tuple]; rfl) ⟨?_, ?_⟩, .refl _, fin (.tuple ts fs) ?_⟩
      · rw [List.map_map]
        have : (ts.zip fs).map (·.1) = ts := List.map_fst_zip (by omega)
        conv_rhs => rw [← this]
        rw [List.map_map]; rfl
      · intro i p hp
        rw [List.getElem?_map] at hp
        cases hq : (ts.zip fs)[i]? with
        | none => rw [hq] at hp; cases hp
        | some q =>
          rw [hq] at hp; cases hp
          exact fieldAt_copies fs _ i (by rw [copied_tuple]; rfl) (zip_getElem hq).2
      · intro p hp
        obtain ⟨i, hi⟩ := List.getElem?_of_mem hp
        obtain ⟨h1, h2⟩ := zip_getElem hi
        refine ⟨h i _ _ h1 h2, ?_⟩
        exact List.mem_map.mpr ⟨p.1, List.mem_of_getElem? h1, rfl⟩
  | struct n fds c names fields hd hf hlen hso =>
    cases hx with
    | struct _ fds' c' fs hd' e1 e2 e3 =>
      rw [hd] at hd'; cases hd'
      have hnd := hD.struct_names n fds c hd
      obtain ⟨_, hp⟩ := named_parts e1 e3 hnd hf (o := .struct (.derived n) fs) (fun _ => rfl)
      refine ⟨_, _, .struct n fds c fs hd, .struct _ _ _ (by rw [copied_struct]; rfl)
        (asked_named e1 e3 hnd hf fun m => ?_), .refl _, fin (.struct n fds c fs hd) fun p hp' => ?_⟩
      · rw [copied_struct]
        exact nameCopy_lookup (by rw [e1]; exact hnd) (.inl ⟨n, rfl⟩) m
      · obtain ⟨a, m, b⟩ := hp p hp'
        exact ⟨a, namedTypes_ids b⟩
    | tupleStruct _ _ _ _ hd' => rw [hd] at hd'; cases hd'
    | enumS _ _ _ _ _ _ hd' => rw [hd] at hd'; cases hd'
    | enumT _ _ _ _ _ _ hd' => rw [hd] at hd'; cases hd'
    | enumU _ _ _ _ hd' => rw [hd] at hd'; cases hd'
  | tupleStruct n fds c hd =>
    cases hx with
    | tupleStruct _ fds' c' fs hd' e1 e2 e3 =>
      rw [hd] at hd'; cases hd'
      refine ⟨_, _, .tupleStruct n fds c fs hd, .tupleStruct _ _ (by rw [copied_tupleStruct]; rfl)
        (asked_pos e1 e2 e3 fun i => by rw [copied_tupleStruct]; rfl), .refl _,
        fin (.tupleStruct n fds c fs hd) fun p hp' => ?_⟩
      exact zip_tys e3 hp'
    | struct _ _ _ _ hd' => rw [hd] at hd'; cases hd'
    | enumS _ _ _ _ _ _ hd' => rw [hd] at hd'; cases hd'
    | enumT _ _ _ _ _ _ hd' => rw [hd] at hd'; cases hd'
    | enumU _ _ _ _ hd' => rw [hd] at hd'; cases hd'
  | enum n vds c vs hd hlen hv =>
    have find : ∀ {vd : VariantDef}, vd ∈ vds → ∃ v ∈ vs, DescribesVariant vd v ∧
        findVariant vs vd.name = some v := by
      intro vd hm
      obtain ⟨v, hvm, hdv, hu⟩ := enum_variant_node hD hd hlen hv hm
      refine ⟨v, hvm, hdv, ?_⟩
      have hname := describesVariant_name hdv
      cases hfv : findVariant vs vd.name with
      | none =>
        have := List.find?_eq_none.mp hfv v hvm
        simp [hname] at this
      | some w =>
        have h1 := List.find?_some hfv
        have h2 := List.mem_of_find?_eq_some hfv
        rw [hu w h2 (by simpa [hname] using h1)]
    rcases enum_inv hd hx with ⟨vn, fds, fs, hm, rfl, e1, e2, e3⟩ | ⟨vn, fds, fs, hm, rfl, e1, e2, e3⟩ |
        ⟨vn, hm, rfl⟩
    · obtain ⟨v, hvm, hdv, hf⟩ := find hm
      cases hdv with
      | struct _ _ names fields hff hlen' hso =>
        have hnd := hD.variant_fields n vds c vn fds hd hm
        obtain ⟨_, hp⟩ := named_parts e1 e3 hnd hff (o := .enumS (.derived n) vn fs) (fun _ => rfl)
        refine ⟨_, _, .enumS n vds c vn fds fs hd hm, .enumS _ vn vn names fields _ (by rw [copied_enumS]; rfl) hf
          (asked_named e1 e3 hnd hff fun m => ?_), .refl _, fin (.enumS n vds c vn fds fs hd hm) fun p hp' => ?_⟩
        · rw [copied_enumS]
          exact nameCopy_lookup (by rw [e1]; exact hnd) (.inl ⟨n, rfl⟩) m
        · obtain ⟨a, m, b⟩ := hp p hp'
          exact ⟨a, List.mem_flatMap.mpr ⟨_, hvm, namedTypes_ids b⟩⟩
    · obtain ⟨v, hvm, hdv, hf⟩ := find hm
      cases hdv with
      | tuple =>
        refine ⟨_, _, .enumT n vds c vn fds fs hd hm, .enumT _ vn vn _ _ (by rw [copied_enumT]; rfl) hf
          (asked_pos e1 e2 e3 fun i => by rw [copied_enumT]; rfl), .refl _,
          fin (.enumT n vds c vn fds fs hd hm) fun p hp' => ?_⟩
        obtain ⟨a, b⟩ := zip_tys e3 hp'
        exact ⟨a, List.mem_flatMap.mpr ⟨_, hvm, b⟩⟩
    · obtain ⟨v, hvm, hdv, hf⟩ := find hm
      cases hdv with
      | unit =>
        exact ⟨_, _, .enumU n vds c vn hd hm, .enumU _ vn vn (by rw [copied_enumU]; rfl) hf, .refl _, by simp⟩

theorem AskedOf.unique {o : Obj} {node : TypeNode} {ps qs : List (Ty × Obj)} (h : AskedOf g o node ps)
    (h' : AskedOf g o node qs) : ps = qs := by
  have a := (steps_iff h.node.1 h.node.2).mpr h
  have b := (steps_iff h.node.1 h.node.2).mpr h'
  exact map_some_inj (a.symm.trans b)

theorem Walks.inv {id : Ty} {o : Obj} {l : List Leaf} {node : TypeNode} (h : Walks g id o l)
    (hn : g.node id = some node) (h1 : ∀ k, node ≠ .scalar k) (h2 : node ≠ .opaque) :
    ∃ ps ls, AskedOf g o node ps ∧ l = ls.flatten ∧
      List.Forall₂ (fun (p : Ty × Obj) l => Walks g p.1 p.2 l) ps ls := by
  cases h with
  | scalar _ k _ _ hn' => rw [hn] at hn'; cases hn'; exact absurd rfl (h1 k)
  | «opaque» _ _ hn' => rw [hn] at hn'; cases hn'; exact absurd rfl h2
  | parts _ _ node' ps ls hn' ha hl hw =>
    rw [hn] at hn'; cases hn'
    refine ⟨ps, ls, ha, rfl, ?_⟩
    rw [List.forall₂_iff_get]
    exact ⟨hl.symm, fun i i1 i2 => hw i _ _ (List.getElem?_eq_getElem i1) (List.getElem?_eq_getElem i2)⟩

theorem leaves_toUnbox {t : Ty} {o : Obj} {l : List Leaf} (h : Leaves E t o l) : Leaves E t.unbox o l := by
  induction t using Ty.unbox.induct with
  | case1 t ih =>
    rw [Ty.unbox]
    cases h with
    | box _ _ _ h => exact ih h
    | «opaque» _ _ h => cases h
    | parts _ _ _ _ hp => cases hp
  | case2 t h' => rw [Ty.unbox]; exact h; exact h'

theorem meetsArray_unbox {t : Ty} {o : Obj} : MeetsArray E t.unbox o ↔ MeetsArray E t o := by
  induction t using Ty.unbox.induct with
  | case1 t ih =>
    rw [Ty.unbox, ih]
    refine ⟨.box _ _, fun h => ?_⟩
    cases h with
    | box _ _ h => exact h
    | part _ _ ps p hp => cases hp
  | case2 t h' =>
    rw [Ty.unbox]
    exact h'

/-- The copy is walked along the type of the value, except where there is an array; and over the same leaves. -/
theorem walks_copy (hD : DeclsOK E) (hO : OrdLaws E) (hF : KeysFaithful E) (hG : GraphOK E g) {id : Ty}
    {node : TypeNode} (hn : g.node id = some node) {x : Obj} (hx : HasTy E id x) :
    ((∃ l, Walks g id x.copied l) ↔ ¬ MeetsArray E id x) ∧
    ∀ l l', Walks g id x.copied l → Leaves E id x l' → l.Perm (l'.map Leaf.copied) := by
  induction x using Obj.ind generalizing id node with
  | h x ih =>
    obtain ⟨hd, hc⟩ := hG id node hn
    by_cases h1 : ∃ k, node = .scalar k
    · obtain ⟨k, rfl⟩ := h1
      cases hd
      generalize he : Ty.scalar k = q at hx
      cases hx <;> cases he
      rename_i s'
      have hw : Walks g _ (Obj.scalar s').copied [.scalar s'] := .scalar _ _ _ s' hn (by rw [copied_scalar]; rfl)
      refine ⟨⟨fun _ h => ?_, fun _ => ⟨_, hw⟩⟩, fun l l' h h' => ?_⟩
      · cases h with
        | part _ _ ps p hp => cases hp
      · rw [h.unique hw]
        generalize hk : s'.kind = k at h'
        generalize ho : Obj.scalar s' = o at h'
        cases h' with
        | scalar _ => cases ho; exact .refl _
        | «opaque» _ _ h => cases h
        | parts _ _ _ _ hp => cases hp
    · by_cases h2 : node = .opaque
      · subst h2
        have hw : Walks g id x.copied [.opaque x.copied id] := .opaque _ _ hn
        refine ⟨⟨fun _ h => ?_, fun _ => ⟨_, hw⟩⟩, fun l l' h h' => ?_⟩
        · cases h with
          | here => cases hd
          | box => cases hd
          | part _ _ ps p hp => cases hd <;> cases hp
        · rw [h.unique hw]
          cases h' with
          | scalar _ => cases hd
          | «opaque» _ _ h => exact .refl _
          | box => cases hd
          | parts _ _ _ _ hp => cases hd <;> cases hp
      · have h1' : ∀ k, node ≠ .scalar k := fun k hk => h1 ⟨k, hk⟩
        by_cases h3 : ∃ t n, id = .array t n
        · obtain ⟨t, n, rfl⟩ := h3
          have no : ∀ l, ¬ Walks g (.array t n) x.copied l := by
            intro l h
            obtain ⟨ps, ls, ha, _⟩ := h.inv hn h1' h2
            cases hd
            cases hx with
            | array _ xs hh =>
              cases ha with
              | array _ _ hk => rw [copied_array] at hk; cases hk
          refine ⟨⟨fun ⟨l, h⟩ => absurd h (no l), fun h => absurd ?_ h⟩, fun l _ h => absurd h (no l)⟩
          cases hx with
          | array _ xs hh => exact .here t xs
        · have h3' : ∀ t n, id ≠ .array t n := fun t n h => h3 ⟨t, n, h⟩
          obtain ⟨ps, qs, hp, ha, hperm, hty⟩ := asked_copy (g := g) hD hO hF hd hc hx h1' h2 h3'
          have part : ∀ p ∈ ps, ((∃ l, Walks g p.1.unbox p.2.copied l) ↔ ¬ MeetsArray E p.1 p.2) ∧
              ∀ l l', Walks g p.1.unbox p.2.copied l → Leaves E p.1 p.2 l' → l.Perm (l'.map Leaf.copied) := by
            intro p hp'
            obtain ⟨a, b, c⟩ := hty p hp'
            obtain ⟨m, hm⟩ := hc _ b
            have := ih p.2 c hm (hasTy_unbox.mpr a)
            rw [meetsArray_unbox] at this
            exact ⟨this.1, fun l l' h h' => this.2 l l' h (leaves_toUnbox h')⟩
          constructor
          · constructor
            · rintro ⟨l, h⟩ hm
              obtain ⟨qs', ls, ha', _, hw⟩ := h.inv hn h1' h2
              cases ha.unique ha'
              cases hm with
              | here t xs => exact h3' _ _ rfl
              | box => cases hd
              | part _ _ ps' p hp' hmem hm =>
                cases hp.unique hD hp'
                have : partCopy p ∈ qs := hperm.mem_iff.mpr (List.mem_map_of_mem hmem)
                obtain ⟨i, hi⟩ := List.getElem?_of_mem this
                obtain ⟨l, _, hl⟩ := forall2_left hw hi
                exact (part p hmem).1.mp ⟨l, hl⟩ hm
            · intro hm
              have hw : ∀ q ∈ qs, ∃ l, Walks g q.1 q.2 l := by
                intro q hq
                obtain ⟨p, hp', rfl⟩ := List.mem_map.mp (hperm.mem_iff.mp hq)
                exact (part p hp').1.mpr fun h => hm (.part _ _ ps p hp hp' h)
              have hls : ∃ ls : List (List Leaf), List.Forall₂ (fun (p : Ty × Obj) l => Walks g p.1 p.2 l) qs ls := by
                clear ha hperm
                induction qs with
                | nil => exact ⟨[], .nil⟩
                | cons p r ihr =>
                  obtain ⟨l, hl⟩ := hw p (List.mem_cons_self ..)
                  obtain ⟨ls, hls⟩ := ihr fun q hq => hw q (List.mem_cons_of_mem _ hq)
                  exact ⟨l :: ls, .cons hl hls⟩
              obtain ⟨ls, hls⟩ := hls
              refine ⟨ls.flatten, .parts id _ node qs ls hn ha hls.length_eq.symm ?_⟩
              intro i p l hp hl
              obtain ⟨l', hl', hr⟩ := forall2_left hls hp
              rw [hl] at hl'; cases hl'; exact hr
          · intro l l' h h'
            obtain ⟨qs', ls, ha', rfl, hw⟩ := h.inv hn h1' h2
            cases ha.unique ha'
            cases h' with
            | scalar _ => cases hd; exact absurd rfl (h1' _)
            | «opaque» _ _ h => cases hd <;> first | exact absurd rfl h2 | cases h
            | box => cases hd
            | parts _ _ ps' ls' hp' hl' hlv =>
              cases hp.unique hD hp'
              obtain ⟨ls₂, hw₂, hpl⟩ := List.perm_comp_forall₂ hperm.symm hw
              refine hpl.flatten.symm.trans ?_
              rw [List.map_flatten]
              refine List.Perm.flatten_congr ?_
              rw [List.forall₂_map_left_iff] at hw₂
              rw [List.forall₂_map_right_iff, List.forall₂_iff_get]
              have e1 := hw₂.length_eq
              refine ⟨by omega, fun i i1 i2 => ?_⟩
              have hi : i < ps.length := by omega
              have hpi := List.getElem?_eq_getElem hi
              obtain ⟨l₂, hl₂, hr⟩ := forall2_left hw₂ hpi
              rw [List.getElem?_eq_getElem i1] at hl₂; cases hl₂
              exact (part _ (List.getElem_mem hi)).2 _ _ hr
                (hlv i _ _ hpi (List.getElem?_eq_getElem i2))

end Mirror
