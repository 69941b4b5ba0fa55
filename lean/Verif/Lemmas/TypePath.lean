import Verif.Lemmas.Align
import Verif.Spec.TypePath

set_option linter.unusedSimpArgs false

/-!
# Lemmas about type paths
-/

namespace Mirror

variable {E : Env}

/-- Every node describes its type, and everything it refers to is there. -/
def GraphOK (E : Env) (g : TypeGraph) : Prop :=
  ∀ i n, g.node i = some n → Describes E i n ∧ ∀ j ∈ n.ids, ∃ m, g.node j = some m

theorem describe_graphOK (hD : DeclsOK E) {fuel t d} (h : describe E fuel t = some d) :
    GraphOK E d.graph := by
  obtain ⟨_, _, _, hg⟩ := describe_good hD h
  intro i n hn
  have hi : d.graph i ≠ none := by intro he; simp [TypeGraph.node, he] at hn
  obtain ⟨_, _, m, hm, hd, hc⟩ := hg i hi
  have : n = m := by simpa [TypeGraph.node, hm] using hn.symm
  subst this
  refine ⟨hd, fun j hj => ?_⟩
  obtain ⟨_, _, k, hk, _⟩ := hg j (hc j hj)
  exact ⟨k, by simp [TypeGraph.node, hk]⟩

theorem describe_root_node (hD : DeclsOK E) {fuel t d} (h : describe E fuel t = some d) :
    ∃ n, d.graph.node d.root = some n := by
  obtain ⟨_, hp, _, hg⟩ := describe_good hD h
  obtain ⟨_, _, m, hm, _⟩ := hg _ hp
  exact ⟨m, by simp [TypeGraph.node, hm]⟩

/-- `ta` is part of the graph, and everything it refers to is there. -/
def TypeAt.In (g : TypeGraph) : TypeAt → Prop
  | .ty id n => g.node id = some n
  | .variant v => ∀ j ∈ v.ids, ∃ m, g.node j = some m

theorem newOpt_some {g : TypeGraph} {id : Ty} {m} (h : g.node id = some m) :
    TypeAt.newOpt g (some id) = some (some (.ty id m)) := by
  simp [TypeAt.newOpt, TypeAt.new, h]

theorem newOpt_ok {g : TypeGraph} {o : Option Ty} (h : ∀ id, o = some id → ∃ m, g.node id = some m) :
    ∃ r, TypeAt.newOpt g o = some r ∧ ∀ ta, r = some ta → ta.In g := by
  cases o with
  | none => exact ⟨none, rfl, by simp⟩
  | some id =>
    obtain ⟨m, hm⟩ := h id rfl
    exact ⟨_, newOpt_some hm, by rintro ta ⟨⟩; exact hm⟩

theorem namedType_mem {fields n u} (h : namedType fields n = some u) : u ∈ fields.map (·.2) := by
  obtain ⟨k, hk, _⟩ := bmGet_mem h
  exact List.mem_map.mpr ⟨_, hk, rfl⟩

/-- A step never panics. -/
theorem atKey_in {g : TypeGraph} (hG : GraphOK E g) {ta : TypeAt} (h : ta.In g) (k : Key) :
    ∃ r, ta.atKey g k = some r ∧ ∀ ta', r = some ta' → ta'.In g := by
  have hnone : ∃ r : Option TypeAt, some none = some r ∧ ∀ ta', r = some ta' → ta'.In g :=
    ⟨none, rfl, by simp⟩
  cases ta with
  | ty id n =>
    have hc := (hG id n h).2
    cases k with
    | named m =>
      cases n <;> simp only [TypeAt.atKey] <;> first | exact hnone | skip
      exact newOpt_ok fun id hid => hc id (namedType_mem hid)
    | numbered i =>
      cases n <;> simp only [TypeAt.atKey] <;> first | exact hnone | skip
      · exact newOpt_ok fun id hid => hc id (List.mem_of_getElem? hid)
      · exact newOpt_ok fun id hid => hc id (List.mem_of_getElem? hid)
    | get v =>
      cases n <;> simp only [TypeAt.atKey] <;> first | exact hnone | skip
      · split
        · exact newOpt_ok fun id hid => hc id (by cases hid; simp [TypeNode.ids])
        · exact hnone
      · split
        · exact newOpt_ok fun id hid => hc id (by cases hid; simp [TypeNode.ids])
        · exact hnone
      · exact newOpt_ok fun id hid => hc id (by cases hid; simp [TypeNode.ids])
    | variant v =>
      cases n <;> simp only [TypeAt.atKey] <;> first | exact hnone | skip
      next vs =>
      refine ⟨_, rfl, ?_⟩
      intro ta' hta
      simp only [Option.map_eq_some_iff] at hta
      obtain ⟨w, hw, rfl⟩ := hta
      intro j hj
      exact hc j (List.mem_flatMap.mpr ⟨w, List.mem_of_find?_eq_some hw, hj⟩)
  | variant w =>
    cases k with
    | named m =>
      cases w <;> simp only [TypeAt.atKey] <;> first | exact hnone | skip
      exact newOpt_ok fun id hid => h id (namedType_mem hid)
    | numbered i =>
      cases w <;> simp only [TypeAt.atKey] <;> first | exact hnone | skip
      exact newOpt_ok fun id hid => h id (List.mem_of_getElem? hid)
    | get v => cases w <;> exact hnone
    | variant v =>
      have e : (TypeAt.variant w).atKey g (.variant v) =
        some (if w.name = v then some (.variant w) else none) := by cases w <;> rfl
      refine ⟨_, e, ?_⟩
      intro ta' hta
      split at hta <;> cases hta
      exact h

theorem typeAtGo_cons (g : TypeGraph) (ta : TypeAt) (k : Key) (p : KeyPath) :
    ta.typeAt g (k :: p) = (ta.atKey g k).bind fun r =>
      match r with
      | none => some none
      | some x => x.typeAt g p := by
  have e : ta.typeAt g (k :: p) = typeAtGo g ta (k :: p) := rfl
  rw [e, typeAtGo]
  rcases ta.atKey g k with _ | _ | x
  · rfl
  · rfl
  · cases p <;> rfl

theorem typeAt_in {g : TypeGraph} (hG : GraphOK E g) (p : KeyPath) : ∀ {ta : TypeAt}, ta.In g →
    ∃ r, ta.typeAt g p = some r ∧ ∀ ta', r = some ta' → ta'.In g := by
  induction p with
  | nil => exact fun {ta} h => ⟨some ta, rfl, by rintro _ ⟨⟩; exact h⟩
  | cons k p ih =>
    intro ta h
    obtain ⟨r, hr, h'⟩ := atKey_in hG h k
    rw [typeAtGo_cons, hr]
    cases r with
    | none => exact ⟨none, rfl, by simp⟩
    | some x => exact ih (h' x rfl)

/-! ## One step on both sides -/

theorem named_step {fds : List FieldDef} {names fields} {fs : List (String × Obj)}
    (hnd : (fds.map (·.name)).Nodup)
    (hf : namedTypes names fields = (fds.filter fun fd => !fd.skip).map fun fd => (fd.name, some fd.ty.unbox))
    (hlen : fields.length = (fds.filter fun fd => !fd.skip).length) (hso : BMSorted strCmp fields)
    (ha : List.Forall₂ (fun p fd => p.1 = fd.name ∧ HasTy E fd.ty p.2) (visFields fs) (visDefs fds))
    {n : String} {y : Obj} (hy : lookup n (visFields fs) = some y) :
    ∃ fd ∈ visDefs fds, namedType fields n = some fd.ty.unbox ∧ HasTy E fd.ty y := by
  obtain ⟨fd, hfd, rfl, ht⟩ := forall2_lookup ha hy
  exact ⟨fd, hfd, (namedType_iff hnd hf hlen hso).mpr ⟨fd, hfd, rfl, rfl⟩, ht⟩

theorem visAt_some_iff {fs : List Obj} {i : Nat} {y : Obj} :
    visAt fs i = some y ↔ fs[i]? = some y ∧ y.isHidden = false := by
  simp only [visAt]
  cases h : fs[i]? with
  | none => simp
  | some x =>
    simp
    constructor
    · rintro ⟨h1, rfl⟩; exact ⟨rfl, h1⟩
    · rintro ⟨rfl, h1⟩; exact ⟨h1, rfl⟩

theorem pos_step {fds : List FieldDef} {fs : List Obj} (hn : fs.length = fds.length)
    (hs : ∀ (i : Nat) fd x, fds[i]? = some fd → fs[i]? = some x → fd.skip = true → x.isHidden = true)
    (ht : ∀ (i : Nat) fd x, fds[i]? = some fd → fs[i]? = some x → fd.skip = false → HasTy E fd.ty x)
    {i : Nat} {y : Obj} (hy : visAt fs i = some y) (hl : ∀ j < i, (visAt fs j).isSome = true) :
    ∃ fd ∈ visDefs fds, (visDefs fds)[i]? = some fd ∧ HasTy E fd.ty y := by
  obtain ⟨hi, hh⟩ := visAt_some_iff.mp hy
  obtain ⟨fd, hfd⟩ := align_pos hn hi
  have hsk : fd.skip = false := by
    cases h : fd.skip with
    | false => rfl
    | true => rw [hs i fd y hfd hi h] at hh; cases hh
  have hv : (visDefs fds)[i]? = some fd := by
    rw [visDefs, filter_getElem?_of_prefix, hfd]
    intro j x hj hx
    rcases Nat.lt_or_ge j i with h | h
    · obtain ⟨z, hz⟩ := Option.isSome_iff_exists.mp (hl j h)
      obtain ⟨hz, hzh⟩ := visAt_some_iff.mp hz
      cases hxs : x.skip with
      | false => rfl
      | true => rw [hs j x z hx hz hxs] at hzh; cases hzh
    · have : j = i := by omega
      subst this
      rw [hfd] at hx; cases hx; simp [hsk]
  exact ⟨fd, List.mem_of_getElem? hv, hv, ht i fd y hfd hi hsk⟩

/-- The value `o` is what `ta` says, and `ta` is a component of `t` in the graph. -/
inductive TA (E : Env) (g : TypeGraph) (t : Ty) : TypeAt → Obj → Prop
  | ty (id node o) : g.node id = some node → t.Reach E id → HasTy E id o → TA E g t (.ty id node) o
  | variant (n vds c vd v o) : E.decl n = some ⟨.enum vds, c⟩ → vd ∈ vds → DescribesVariant vd v →
      (∀ j ∈ v.ids, ∃ m, g.node j = some m) → t.Reach E (.named n) → HasTy E (.named n) o →
      o.variantName = some v.name → TA E g t (.variant v) o

theorem reach_comp {t u w : Ty} (h : t.Reach E u) (hw : w ∈ u.comps E) : t.Reach E w.unbox :=
  (h.step _ _ hw).trans (reach_unbox w)

theorem describesVariant_name {vd v} (h : DescribesVariant vd v) : vd.name = v.name := by
  cases h <;> rfl

/-- Variants with the same name are the same. -/
theorem variantDef_unique {vds : List VariantDef} (hn : (vds.map (·.name)).Nodup) {a b : VariantDef}
    (ha : a ∈ vds) (hb : b ∈ vds) (h : a.name = b.name) : a = b :=
  List.inj_on_of_nodup_map hn ha hb h

theorem comps_struct {n fds c} (h : E.decl n = some ⟨.struct fds, c⟩) :
    (Ty.named n).comps E = (visDefs fds).map (·.ty) := by simp [Ty.comps, h, visDefs]

theorem comps_tupleStruct {n fds c} (h : E.decl n = some ⟨.tupleStruct fds, c⟩) :
    (Ty.named n).comps E = (visDefs fds).map (·.ty) := by simp [Ty.comps, h, visDefs]

theorem comps_variant {n vds c} (h : E.decl n = some ⟨.enum vds, c⟩) {vd fds}
    (hv : vd ∈ vds) (hf : variantComps vd = (visDefs fds).map (·.ty)) {fd} (hfd : fd ∈ visDefs fds) :
    fd.ty ∈ (Ty.named n).comps E := by
  rw [comps_enum h]
  exact List.mem_flatMap.mpr ⟨vd, hv, by rw [hf]; exact List.mem_map.mpr ⟨fd, hfd, rfl⟩⟩

theorem ta_new {g : TypeGraph} {t u w : Ty} {y : Obj} (hr : t.Reach E u) (hw : w ∈ u.comps E)
    (hm : ∃ m, g.node w.unbox = some m) (hy : HasTy E w y) :
    ∃ ta', TypeAt.newOpt g (some w.unbox) = some (some ta') ∧ TA E g t ta' y := by
  obtain ⟨m, hm⟩ := hm
  exact ⟨_, newOpt_some hm, .ty _ _ _ hm (reach_comp hr hw) (hasTy_unbox.mpr hy)⟩

theorem ta_step {g : TypeGraph} {t : Ty} (hD : DeclsOK E) (hG : GraphOK E g)
    {ta : TypeAt} {o y : Obj} {k : Key} (hta : TA E g t ta o) (hy : o.atKey E k = some y)
    (hcl : ∀ i, k = .numbered i → ∀ j < i, (o.fieldAt j).isSome = true)
    (hdyn : ∀ id n, ta = .ty id n → ¬ id.Dyn)
    (hen : ∀ id n, ta = .ty id n → o.kind = .enum → ∃ v, k = .variant v) :
    ∃ ta', ta.atKey g k = some (some ta') ∧ TA E g t ta' y := by
  cases hta with
  | ty id node _ hn hr ho =>
    have hdy := hdyn _ _ rfl
    obtain ⟨hd, hc⟩ := hG id node hn
    cases hd with
    | scalar k' => generalize he : Ty.scalar k' = q at ho; cases ho <;> cases he; cases k <;> simp [Obj.atKey, Obj.kind] at hy
    | nonzero k' => cases ho; cases k <;> simp [Obj.atKey, Obj.kind] at hy
    | value => exact absurd (.inl rfl) hdy
    | structValue => exact absurd (.inr (.inl rfl)) hdy
    | tupleStructValue => exact absurd (.inr (.inr (.inl rfl))) hdy
    | tupleValue => exact absurd (.inr (.inr (.inr (.inl rfl)))) hdy
    | enumValue => exact absurd (.inr (.inr (.inr (.inr rfl)))) hdy
    | vec u =>
      cases ho with
      | vec _ xs hxs =>
      cases k <;> simp [Obj.atKey, Obj.kind] at hy
      next v =>
      obtain ⟨i, hi, hy⟩ := Option.bind_eq_some_iff.mp hy
      simp only [TypeAt.atKey, hi, Option.isSome_some, if_true]
      exact ta_new hr (by simp [Ty.comps]) (hc _ (by simp [TypeNode.ids]))
        (hxs _ (List.mem_of_getElem? hy))
    | array u len =>
      generalize he : Ty.array u len = q at ho
      cases ho <;> cases he
      next xs hxs =>
      cases k <;> simp [Obj.atKey, Obj.kind] at hy
      next v =>
      obtain ⟨i, hi, hy⟩ := Option.bind_eq_some_iff.mp hy
      simp only [TypeAt.atKey, hi, Option.isSome_some, if_true]
      exact ta_new hr (by simp [Ty.comps]) (hc _ (by simp [TypeNode.ids]))
        (hxs _ (List.mem_of_getElem? hy))
    | map kt vt =>
      cases ho with
      | map _ _ kvs hs hk hv =>
      cases k <;> simp [Obj.atKey, Obj.kind] at hy
      next v =>
      simp only [Obj.mapGet] at hy
      obtain ⟨k', _, hg⟩ := Option.bind_eq_some_iff.mp hy
      obtain ⟨k'', hm, _⟩ := bmGet_mem hg
      exact ta_new hr (by simp [Ty.comps]) (hc _ (by simp [TypeNode.ids])) (hv _ hm)
    | tuple ts =>
      cases ho with
      | tuple _ fs hl ht =>
      cases k <;> simp [Obj.atKey, Obj.kind] at hy
      next i =>
      have hyi : fs[i]? = some y := by
        simp only [Obj.fieldAt, visAt] at hy
        split at hy
        · next z hz => split at hy <;> cases hy; exact hz
        · cases hy
      obtain ⟨hi, _⟩ := List.getElem?_eq_some_iff.mp hyi
      have hti : ts[i]? = some ts[i] := List.getElem?_eq_getElem (by omega)
      have hmem : ts[i] ∈ ts := List.getElem_mem _
      simp only [TypeAt.atKey, List.getElem?_map, hti, Option.map_some]
      exact ta_new hr (by simp [Ty.comps, hmem])
        (hc _ (List.mem_map.mpr ⟨_, hmem, rfl⟩)) (ht i _ _ hti hyi)
    | struct n fds c names fields hdecl hf hlen hso =>
      obtain ⟨fs, rfl, h1, h2, h3⟩ := struct_inv hdecl ho
      cases k <;> simp [Obj.atKey, Obj.kind] at hy
      next m =>
      obtain ⟨fd, hfd, hnt, hyt⟩ := named_step (hD.struct_names _ _ _ hdecl) hf hlen hso
        (alignNamed h1 h2 h3) hy
      simp only [TypeAt.atKey, hnt]
      exact ta_new hr (by rw [comps_struct hdecl]; exact List.mem_map.mpr ⟨fd, hfd, rfl⟩)
        (hc _ (namedType_mem hnt)) hyt
    | tupleStruct n fds c hdecl =>
      obtain ⟨fs, rfl, h1, h2, h3⟩ := tupleStruct_inv hdecl ho
      cases k <;> simp [Obj.atKey, Obj.kind] at hy
      next i =>
      obtain ⟨fd, hfd, hnt, hyt⟩ := pos_step h1 h2 h3 hy (hcl i rfl)
      have hnt' : (fds.filter fun fd => !fd.skip)[i]? = some fd := hnt
      simp only [TypeAt.atKey, List.getElem?_map, hnt', Option.map_some]
      exact ta_new hr (by rw [comps_tupleStruct hdecl]; exact List.mem_map.mpr ⟨fd, hfd, rfl⟩)
        (hc _ (List.mem_map.mpr ⟨fd, hfd, rfl⟩)) hyt
    | enum n vds c vs hdecl hl hvs =>
      have hk : o.kind = .enum := by
        rcases enum_inv hdecl ho with ⟨_, _, _, _, rfl, _⟩ | ⟨_, _, _, _, rfl, _⟩ | ⟨_, _, rfl⟩ <;> rfl
      obtain ⟨v, rfl⟩ := hen _ _ rfl hk
      simp only [Obj.atKey, hk] at hy
      split at hy <;> cases hy
      next hv =>
      -- the variant of the value is declared, so it is described
      have hex : ∃ vd ∈ vds, vd.name = v := by
        rcases enum_inv hdecl ho with ⟨vn, fds, fs, hm, rfl, _⟩ | ⟨vn, fds, fs, hm, rfl, _⟩ | ⟨vn, hm, rfl⟩ <;>
          (simp [Obj.variantName] at hv; subst hv; exact ⟨_, hm, rfl⟩)
      obtain ⟨vd, hvd, rfl⟩ := hex
      obtain ⟨i, hi⟩ := List.getElem?_of_mem hvd
      obtain ⟨hi', _⟩ := List.getElem?_eq_some_iff.mp hi
      have hvi : vs[i]? = some vs[i] := List.getElem?_eq_getElem (by omega)
      have hdv := hvs i _ _ hi hvi
      have hfind : ∃ w, findVariant vs vd.name = some w := by
        have : (findVariant vs vd.name).isSome := by
          rw [findVariant, List.find?_isSome]
          exact ⟨_, List.mem_of_getElem? hvi, by simp [describesVariant_name hdv]⟩
        exact Option.isSome_iff_exists.mp this
      obtain ⟨w, hw⟩ := hfind
      have hwm : w ∈ vs := List.mem_of_find?_eq_some hw
      have hwn : w.name = vd.name := by simpa using List.find?_some hw
      obtain ⟨j, hj⟩ := List.getElem?_of_mem hwm
      obtain ⟨hj', _⟩ := List.getElem?_eq_some_iff.mp hj
      have hdj : vds[j]? = some vds[j] := List.getElem?_eq_getElem (by omega)
      have hdw := hvs j _ _ hdj hj
      refine ⟨.variant w, by simp [TypeAt.atKey, hw], ?_⟩
      refine .variant n vds c vds[j] w _ hdecl (List.getElem_mem _) hdw ?_ hr ho (by rw [hv, hwn])
      intro q hq
      exact hc q (List.mem_flatMap.mpr ⟨w, hwm, hq⟩)
  | variant n vds c vd w _ hdecl hvd hdw hw hr ho hv =>
    have hk : o.kind = .enum := by
      rcases enum_inv hdecl ho with ⟨_, _, _, _, rfl, _⟩ | ⟨_, _, _, _, rfl, _⟩ | ⟨_, _, rfl⟩ <;> rfl
    by_cases hkv : ∃ v, k = .variant v
    · obtain ⟨v, rfl⟩ := hkv
      simp only [Obj.atKey, hk] at hy
      split at hy <;> cases hy
      next hv' =>
      have : w.name = v := by rw [hv] at hv'; simpa using hv'
      have e : (TypeAt.variant w).atKey g (.variant v) =
        some (if w.name = v then some (.variant w) else none) := by cases w <;> rfl
      refine ⟨.variant w, by rw [e, if_pos this], ?_⟩
      exact .variant n vds c vd w _ hdecl hvd hdw hw hr ho hv
    · have hnodup := hD.variant_names _ _ _ hdecl
      have hname := describesVariant_name hdw
      rcases enum_inv hdecl ho with ⟨vn, fds, fs, hm, rfl, h1, h2, h3⟩ | ⟨vn, fds, fs, hm, rfl, h1, h2, h3⟩ |
        ⟨vn, hm, rfl⟩
      · simp only [Obj.variantName, Option.some.injEq] at hv
        have : vd = .struct vn fds := variantDef_unique hnodup hvd hm (by rw [hname, ← hv]; rfl)
        subst this
        cases hdw with
        | struct _ _ names fields hf hlen hso =>
        cases k <;> simp [Obj.atKey, Obj.kind, Obj.variantKind] at hy
        · next m =>
          obtain ⟨fd, hfd, hnt, hyt⟩ := named_step (hD.variant_fields _ _ _ _ _ hdecl hm) hf hlen hso
            (alignNamed h1 h2 h3) hy
          simp only [TypeAt.atKey, hnt]
          exact ta_new hr (comps_variant hdecl hm rfl hfd) (hw _ (namedType_mem hnt)) hyt
        · exact absurd ⟨_, rfl⟩ hkv
      · simp only [Obj.variantName, Option.some.injEq] at hv
        have : vd = .tuple vn fds := variantDef_unique hnodup hvd hm (by rw [hname, ← hv]; rfl)
        subst this
        cases hdw with
        | tuple _ _ =>
        cases k <;> simp [Obj.atKey, Obj.kind, Obj.variantKind] at hy
        · next i =>
          obtain ⟨fd, hfd, hnt, hyt⟩ := pos_step h1 h2 h3 hy (hcl i rfl)
          have hnt' : (fds.filter fun fd => !fd.skip)[i]? = some fd := hnt
          simp only [TypeAt.atKey, List.getElem?_map, hnt', Option.map_some]
          exact ta_new hr (comps_variant hdecl hm rfl hfd) (hw _ (List.mem_map.mpr ⟨fd, hfd, rfl⟩)) hyt
        · exact absurd ⟨_, rfl⟩ hkv
      · cases k <;> simp [Obj.atKey, Obj.kind, Obj.variantKind] at hy
        exact absurd ⟨_, rfl⟩ hkv

/-- Where `type_at` and `at` both lead somewhere, they lead to corresponding places. -/
theorem ta_sound_step {g : TypeGraph} {t : Ty} (hD : DeclsOK E) (hG : GraphOK E g)
    {ta ta' : TypeAt} {o y : Obj} {k : Key} (hta : TA E g t ta o) (hy : o.atKey E k = some y)
    (hcl : ∀ i, k = .numbered i → ∀ j < i, (o.fieldAt j).isSome = true)
    (ht : ta.atKey g k = some (some ta')) : TA E g t ta' y := by
  obtain ⟨ta'', h, h'⟩ := ta_step hD hG hta hy hcl
    (by
      rintro id n rfl hd
      cases hta with
      | ty _ _ _ hn _ _ =>
      have := (hG id n hn).1
      rcases hd with rfl | rfl | rfl | rfl | rfl <;> cases this <;> cases k <;> simp [TypeAt.atKey] at ht)
    (by
      rintro id n rfl hk
      cases hta with
      | ty _ _ _ hn _ ho =>
      have hd := (hG id n hn).1
      by_cases hkv : ∃ v, k = .variant v
      · exact hkv
      · exfalso
        have hne : ∀ vs, n ≠ .enum vs := by
          rintro vs rfl
          cases k <;> simp [TypeAt.atKey] at ht
          exact hkv ⟨_, rfl⟩
        cases hd with
        | enum => exact hne _ rfl
        | scalar k' => generalize he : Ty.scalar k' = q at ho; cases ho <;> cases he; cases hk
        | array u l => generalize he : Ty.array u l = q at ho; cases ho <;> cases he; cases hk
        | struct n fds c names fields hdecl => obtain ⟨_, rfl, _⟩ := struct_inv hdecl ho; cases hk
        | tupleStruct n fds c hdecl => obtain ⟨_, rfl, _⟩ := tupleStruct_inv hdecl ho; cases hk
        | vec => cases ho; cases hk
        | map => cases ho; cases hk
        | tuple => cases ho; cases hk
        | nonzero => cases ho; cases hk
        | _ => cases k <;> simp [TypeAt.atKey] at ht)
  rw [h] at ht; cases ht; exact h'

theorem ClearPath.head {o : Obj} {k : Key} {p : KeyPath} (h : ClearPath E o (k :: p)) :
    ∀ i, k = .numbered i → ∀ j < i, (o.fieldAt j).isSome = true := by
  rintro i rfl
  exact h [] i p o rfl (atPath_nil _ _)

theorem ClearPath.tail {o x : Obj} {k : Key} {p : KeyPath} (h : ClearPath E o (k :: p))
    (hx : o.atKey E k = some x) : ClearPath E x p := by
  rintro q i r z rfl hz
  exact h (k :: q) i r z rfl (by rw [atPath_cons, hx]; exact hz)

theorem ta_sound {g : TypeGraph} {t : Ty} (hD : DeclsOK E) (hG : GraphOK E g)
    (p : KeyPath) : ∀ {ta ta' : TypeAt} {o y : Obj}, TA E g t ta o → ClearPath E o p → atPath E o p = some y →
    ta.typeAt g p = some (some ta') → TA E g t ta' y := by
  induction p with
  | nil =>
    intro ta ta' o y h hcl hy ht
    simp only [atPath_nil, Option.some.injEq] at hy
    simp only [TypeAt.typeAt, KeyPath.isEmpty, List.isEmpty_nil, if_true, Option.some.injEq] at ht
    subst hy ht; exact h
  | cons k p ih =>
    intro ta ta' o y h hcl hy ht
    rw [atPath_cons] at hy
    obtain ⟨x, hx, hy⟩ := Option.bind_eq_some_iff.mp hy
    rw [typeAtGo_cons] at ht
    obtain ⟨r, hr, ht⟩ := Option.bind_eq_some_iff.mp ht
    cases r with
    | none => simp at ht
    | some tx => exact ih (ta_sound_step hD hG h hx hcl.head hr) (hcl.tail hx) hy ht

/-- A value path that spells out its variants exists as a type path, up to the first dynamic type. -/
theorem ta_complete {g : TypeGraph} {t : Ty} (hD : DeclsOK E) (hG : GraphOK E g)
    {b : Bool} {o : Obj} {p : KeyPath} (hp : SpelledOut E b o p) :
    ∀ {ta : TypeAt}, TA E g t ta o → ClearPath E o p → (b = true → ∃ v, ta = .variant v) →
    (∃ ta', ta.typeAt g p = some (some ta')) ∨
    ∃ q k r id n, p = q ++ k :: r ∧ ta.typeAt g q = some (some (.ty id n)) ∧ id.Dyn ∧ t.Reach E id := by
  have dyn : ∀ ta : TypeAt, (∀ id n, ta = .ty id n → ¬ id.Dyn) ∨ ∃ id n, ta = .ty id n ∧ id.Dyn := by
    intro ta
    by_cases h : ∃ id n, ta = .ty id n ∧ id.Dyn
    · exact .inr h
    · exact .inl fun id n e hd => h ⟨id, n, e, hd⟩
  have lift : ∀ {ta ta' : TypeAt} {k : Key} {p : KeyPath}, ta.atKey g k = some (some ta') →
      ((∃ ta'', ta'.typeAt g p = some (some ta'')) ∨
        ∃ q k r id n, p = q ++ k :: r ∧ ta'.typeAt g q = some (some (.ty id n)) ∧ id.Dyn ∧ t.Reach E id) →
      (∃ ta'', ta.typeAt g (k :: p) = some (some ta'')) ∨
        ∃ q k' r id n, k :: p = q ++ k' :: r ∧ ta.typeAt g q = some (some (.ty id n)) ∧ id.Dyn ∧ t.Reach E id := by
    intro ta ta' k p h1 h
    rcases h with ⟨r, hr⟩ | ⟨q, k', r, id, n, rfl, hq, hd⟩
    · exact .inl ⟨r, by rw [typeAtGo_cons, h1]; exact hr⟩
    · exact .inr ⟨k :: q, k', r, id, n, rfl, by rw [typeAtGo_cons, h1]; exact hq, hd⟩
  induction hp with
  | nil b o => exact fun {ta} h _ _ => .inl ⟨ta, rfl⟩
  | variant b o x v p hx _ ih =>
    intro ta h hcl hb
    rcases dyn ta with hst | ⟨id, n, rfl, hd⟩
    · obtain ⟨ta', h1, h2⟩ := ta_step hD hG h hx hcl.head hst fun _ _ _ _ => ⟨_, rfl⟩
      refine lift h1 (ih h2 (hcl.tail hx) fun _ => ?_)
      cases h2 with
      | variant => exact ⟨_, rfl⟩
      | ty id n _ hn _ _ =>
        exfalso
        cases ta with
        | ty id n =>
          cases n <;> simp [TypeAt.atKey] at h1
        | variant w =>
          have e : (TypeAt.variant w).atKey g (.variant v) =
            some (if w.name = v then some (.variant w) else none) := by cases w <;> rfl
          rw [e] at h1
          split at h1 <;> cases h1
    · exact .inr ⟨[], _, _, id, n, rfl, rfl, hd, by cases h with | ty _ _ _ _ hr _ => exact hr⟩
  | other b o x k p hk he hx _ ih =>
    intro ta h hcl hb
    rcases dyn ta with hst | ⟨id, n, rfl, hd⟩
    · obtain ⟨ta', h1, h2⟩ := ta_step hD hG h hx hcl.head hst (by
        rintro id n rfl hkind
        obtain ⟨v, hv⟩ := hb (he hkind)
        cases hv)
      exact lift h1 (ih h2 (hcl.tail hx) (by simp))
    · exact .inr ⟨[], _, _, id, n, rfl, rfl, hd, by cases h with | ty _ _ _ _ hr _ => exact hr⟩

theorem filter_shift {α} {p : α → Bool} : ∀ {l : List α} {i : Nat} {a : α}, (l.filter p)[i]? = some a →
    ∃ k, i ≤ k ∧ l[k]? = some a ∧ ∀ (j : Nat) b, j ≤ k → l[j]? = some b → p b = false → i < k
  | [], i, a, h => by simp at h
  | c :: l, i, a, h => by
    cases hc : p c with
    | true =>
      rw [List.filter_cons, if_pos hc] at h
      cases i with
      | zero =>
        simp at h; subst h
        refine ⟨0, Nat.le_refl _, rfl, ?_⟩
        intro j b hj hb hpb
        have : j = 0 := by omega
        subst this; simp at hb; subst hb; rw [hc] at hpb; cases hpb
      | succ i =>
        obtain ⟨k, h1, h2, h3⟩ := filter_shift (l := l) (i := i) (by simpa using h)
        refine ⟨k + 1, by omega, by simpa using h2, ?_⟩
        intro j b hj hb hpb
        cases j with
        | zero => simp at hb; subst hb; rw [hc] at hpb; cases hpb
        | succ j => have := h3 j b (by omega) (by simpa using hb) hpb; omega
    | false =>
      rw [List.filter_cons, if_neg (by simp [hc])] at h
      obtain ⟨k, h1, h2, _⟩ := filter_shift h
      exact ⟨k + 1, by omega, by simpa using h2, fun _ _ _ _ _ => by omega⟩

/-- With a skipped field before index `i`, what is described there is a later field. -/
theorem pos_shift {fds : List FieldDef} {fs : List Obj} (hn : fs.length = fds.length)
    (hs : ∀ (i : Nat) fd x, fds[i]? = some fd → fs[i]? = some x → fd.skip = true → x.isHidden = true)
    (ht : ∀ (i : Nat) fd x, fds[i]? = some fd → fs[i]? = some x → fd.skip = false → HasTy E fd.ty x)
    {i j : Nat} {y : Obj} (hy : visAt fs i = some y) (hj : j < i) (hg : visAt fs j = none)
    {fd : FieldDef} (hfd : (visDefs fds)[i]? = some fd) :
    ∃ k z, i < k ∧ visAt fs k = some z ∧ HasTy E fd.ty z := by
  obtain ⟨k, h1, h2, h3⟩ := filter_shift hfd
  have hfsk : fd.skip = false := by
    have := (List.mem_filter.mp (List.mem_of_getElem? hfd)).2
    simpa using this
  have hk : k < fds.length := (List.getElem?_eq_some_iff.mp h2).1
  have hz : fs[k]? = some (fs[k]'(by omega)) := List.getElem?_eq_getElem _
  refine ⟨k, fs[k]'(by omega), ?_, ?_, ht k fd _ h2 hz hfsk⟩
  · have hi := (List.getElem?_eq_some_iff.mp (visAt_some_iff.mp hy).1).1
    have hjd : fds[j]? = some (fds[j]'(by omega)) := List.getElem?_eq_getElem _
    have hjs : fs[j]? = some (fs[j]'(by omega)) := List.getElem?_eq_getElem _
    refine h3 j _ (by omega) hjd ?_
    cases hsk : (fds[j]'(by omega)).skip with
    | true => rfl
    | false =>
      have := (ht j _ _ hjd hjs hsk).not_hidden
      rw [visAt_some_iff.mpr ⟨hjs, this⟩] at hg; cases hg
  · exact visAt_some_iff.mpr ⟨hz, (ht k fd _ h2 hz hfsk).not_hidden⟩

/-- One step to an index with a skipped field before it. -/
theorem ta_shift {g : TypeGraph} {t : Ty} (hD : DeclsOK E) (hG : GraphOK E g)
    {ta : TypeAt} {o y : Obj} {i j : Nat} (hta : TA E g t ta o) (hy : o.atKey E (.numbered i) = some y)
    (hj : j < i) (hg : o.fieldAt j = none) :
    ta.atKey g (.numbered i) = some none ∨
    ∃ ta' k z, ta.atKey g (.numbered i) = some (some ta') ∧ i < k ∧ o.fieldAt k = some z ∧ TA E g t ta' z := by
  cases hta with
  | ty id node _ hn hr ho =>
    obtain ⟨hd, hc⟩ := hG id node hn
    cases hd with
    | tuple ts =>
      cases ho with
      | tuple _ fs hl ht =>
      exfalso
      obtain ⟨hi, _⟩ := visAt_some_iff.mp hy
      have := (List.getElem?_eq_some_iff.mp hi).1
      have hjs : fs[j]? = some (fs[j]'(by omega)) := List.getElem?_eq_getElem _
      have hjt : ts[j]? = some (ts[j]'(by omega)) := List.getElem?_eq_getElem _
      have hh := (ht j _ _ hjt hjs).not_hidden
      have hg : visAt fs j = none := hg
      rw [visAt_some_iff.mpr ⟨hjs, hh⟩] at hg; cases hg
    | tupleStruct n fds c hdecl =>
      obtain ⟨fs, rfl, h1, h2, h3⟩ := tupleStruct_inv hdecl ho
      cases hv : (visDefs fds)[i]? with
      | none =>
        left
        have hv' : (fds.filter fun fd => !fd.skip)[i]? = none := hv
        simp [TypeAt.atKey, List.getElem?_map, hv', TypeAt.newOpt]
      | some fd =>
        right
        obtain ⟨k, z, a, b, c'⟩ := pos_shift h1 h2 h3 hy hj hg hv
        have hfd := List.mem_of_getElem? hv
        have hv' : (fds.filter fun fd => !fd.skip)[i]? = some fd := hv
        obtain ⟨ta', e1, e2⟩ := ta_new hr
          (by rw [comps_tupleStruct hdecl]; exact List.mem_map.mpr ⟨fd, hfd, rfl⟩)
          (hc _ (List.mem_map.mpr ⟨fd, hfd, rfl⟩)) c'
        exact ⟨ta', k, z, by simpa [TypeAt.atKey, List.getElem?_map, hv'] using e1, a, b, e2⟩
    | _ => left; rfl
  | variant n vds c vd w _ hdecl hvd hdw hw hr ho hv =>
    have hnodup := hD.variant_names _ _ _ hdecl
    have hname := describesVariant_name hdw
    rcases enum_inv hdecl ho with ⟨vn, fds, fs, hm, rfl, h1, h2, h3⟩ | ⟨vn, fds, fs, hm, rfl, h1, h2, h3⟩ |
      ⟨vn, hm, rfl⟩
    · simp [Obj.atKey, Obj.kind, Obj.variantKind] at hy
    · simp only [Obj.variantName, Option.some.injEq] at hv
      have : vd = .tuple vn fds := variantDef_unique hnodup hvd hm (by rw [hname, ← hv]; rfl)
      subst this
      cases hdw with
      | tuple _ _ =>
      cases hv : (visDefs fds)[i]? with
      | none =>
        left
        have hv' : (fds.filter fun fd => !fd.skip)[i]? = none := hv
        simp [TypeAt.atKey, List.getElem?_map, hv', TypeAt.newOpt]
      | some fd =>
        right
        obtain ⟨k, z, a, b, c'⟩ := pos_shift h1 h2 h3 hy hj hg hv
        have hfd := List.mem_of_getElem? hv
        have hv' : (fds.filter fun fd => !fd.skip)[i]? = some fd := hv
        obtain ⟨ta', e1, e2⟩ := ta_new hr (comps_variant hdecl hm rfl hfd)
          (hw _ (List.mem_map.mpr ⟨fd, hfd, rfl⟩)) c'
        exact ⟨ta', k, z, by simpa [TypeAt.atKey, List.getElem?_map, hv'] using e1, a, b, e2⟩
    · simp [Obj.atKey, Obj.kind, Obj.variantKind] at hy

theorem atKey_parts {o x : Obj} {k : Key} (ho : o.OK E) (h : o.atKey E k = some x) : x = o ∨ x ∈ o.parts := by
  have hdv : o.DynVis := ho.choose_spec.dynVis
  cases k with
  | variant v => rw [atKey_variant] at h; split at h <;> cases h; exact .inl rfl
  | named n =>
    right
    cases o <;> simp only [Obj.atKey, Obj.kind, Obj.variantKind, reduceCtorEq] at h <;>
      exact Obj.field_parts h
  | numbered n =>
    right
    cases o <;> simp only [Obj.atKey, Obj.kind, Obj.variantKind, reduceCtorEq] at h <;>
      exact Obj.fieldAt_parts hdv h
  | get v =>
    right
    cases o <;> simp only [Obj.atKey, Obj.kind, Obj.variantKind, reduceCtorEq] at h
    · obtain ⟨i, _, h⟩ := Option.bind_eq_some_iff.mp h; exact Obj.fieldAt_parts hdv h
    · obtain ⟨i, _, h⟩ := Option.bind_eq_some_iff.mp h; exact Obj.fieldAt_parts hdv h
    · simp only [Obj.mapGet] at h
      obtain ⟨k', _, hg⟩ := Option.bind_eq_some_iff.mp h
      obtain ⟨k'', hm, _⟩ := bmGet_mem hg
      simp only [Obj.parts, List.mem_append]
      exact .inr (List.mem_map.mpr ⟨_, hm, rfl⟩)

theorem everywhere_atPath {Q : Obj → Prop} (p : KeyPath) : ∀ {o x : Obj}, o.OK E → o.Everywhere Q →
    atPath E o p = some x → x.OK E ∧ x.Everywhere Q := by
  induction p with
  | nil => intro o x ho hq h; rw [atPath_nil] at h; cases h; exact ⟨ho, hq⟩
  | cons k p ih =>
    intro o x ho hq h
    rw [atPath_cons] at h
    obtain ⟨z, hz, h⟩ := Option.bind_eq_some_iff.mp h
    refine ih (OK_atKey ho hz) ?_ h
    rcases atKey_parts ho hz with rfl | hm
    · exact hq
    · exact hq.parts hm

theorem HiddenLast.before {fs : List Obj} (h : HiddenLast fs) {i j : Nat} {y : Obj} (hy : visAt fs i = some y)
    (hj : j < i) : (visAt fs j).isSome = true := by
  obtain ⟨hi, hh⟩ := visAt_some_iff.mp hy
  have hl := (List.getElem?_eq_some_iff.mp hi).1
  have hjs : fs[j]? = some (fs[j]'(by omega)) := List.getElem?_eq_getElem _
  have : (fs[j]'(by omega)).isHidden = false := by
    cases hjh : (fs[j]'(by omega)).isHidden with
    | false => rfl
    | true => have := h j i _ _ hjs hi hjh hh; omega
  rw [visAt_some_iff.mpr ⟨hjs, this⟩]; rfl

/-- Paths in values without gaps are clear. -/
theorem Obj.NoGaps.clearPath (hO : OrdLaws E) {o y : Obj} (ho : o.OK E) (hg : o.NoGaps) {p : KeyPath}
    (hy : atPath E o p = some y) : ClearPath E o p := by
  rintro q i r z rfl hz j hj
  obtain ⟨hzo, hzg⟩ := everywhere_atPath q ho hg hz
  rw [atPath_append, hz] at hy
  simp only [Option.bind_some] at hy
  rw [atPath_cons] at hy
  obtain ⟨w, hw, _⟩ := Option.bind_eq_some_iff.mp hy
  have hl := Obj.NoGaps.last hO hzo hzg
  cases z <;> simp only [Obj.atKey, Obj.kind, Obj.variantKind, reduceCtorEq] at hw
  · exact (hl.1 _ _ rfl).before hw hj
  · exact (hl.2.1 _ _ rfl).before hw hj
  · exact (hl.2.2 _ _ _ rfl).before hw hj

/-- Nothing is found below a dynamic type. -/
theorem dyn_stops {g : TypeGraph} (hG : GraphOK E g) {id : Ty} {n : TypeNode} (hn : g.node id = some n) (hd : id.Dyn)
    (k : Key) : (TypeAt.ty id n).atKey g k = some none := by
  have := (hG id n hn).1
  rcases hd with rfl | rfl | rfl | rfl | rfl <;> cases this <;> cases k <;> rfl

end Mirror
