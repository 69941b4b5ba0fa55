import Verif.Lemmas.Panic
import Verif.Lemmas.PatchSpec
import Verif.Lemmas.Demo
import Verif.Props.Mut
import Verif.Props.TypeInfo
import Verif.Props.Visit

set_option linter.unusedSimpArgs false

/-!
# C54: enums that hold a skipped variant; C55: what can panic

Values are those of `HasTy (E.full S)`: `S n` are the variants of enum `n` with `#[reflect(skip)]`.
-/

namespace Mirror

variable {E : Env} {S : String → List VariantDef}

/-! ## C54 -/

/-- C54: an enum that holds a skipped variant tells the name and the kind of the variant and nothing else: it
has no field under any name or index, shared or mutable, and its iterators are empty. -/
theorem C54_shows_nothing (hD : DeclsOK (E.full S)) {t : Ty} {o : Obj} (h : HasTy (E.full S) t o)
    (hs : o.skippedVariant E = true) :
    ∃ n, ∃ vd ∈ S n, o.typeOf = some (.named n) ∧ o.kind = .enum ∧ o.variantName = some vd.name ∧
      o.variantKind = some vd.kind ∧ o.fieldsLen = 0 ∧
      (∀ m, o.field m = none ∧ o.fieldMut m = none) ∧
      (∀ i, o.fieldAt i = none ∧ o.nameAt i = none ∧ o.fieldAtMut i = none) ∧
      o.namedIter = [] ∧ o.posIter = [] ∧ o.fieldsMut.items = [] := by
  obtain ⟨n, vds, c, vd, -, -, hvd, h1, h2, -, hf⟩ := skipped_form hD h hs
  have key : o.kind = .enum ∧ o.variantKind = some vd.kind ∧ o.fieldsLen = 0 ∧ (∀ m, o.field m = none) ∧
      (∀ i, o.fieldAt i = none) ∧ (∀ i, o.nameAt i = none) ∧ o.namedIter = [] ∧ o.posIter = [] ∧
      o.fieldsMut.items = [] := by
    rcases hf with ⟨vn, fds, fs, rfl, rfl, hh⟩ | ⟨vn, fds, fs, rfl, rfl, hh⟩ | ⟨vn, rfl, rfl⟩
    · have hv : visFields fs = [] := by
        simp only [visFields, List.filter_eq_nil_iff]
        intro p hp; simp [hh p hp]
      have ht : (fs.takeWhile fun p => !p.2.isHidden) = [] := by
        cases fs with
        | nil => rfl
        | cons p r => simp [List.takeWhile_cons, hh p List.mem_cons_self]
      refine ⟨rfl, rfl, by simp [Obj.fieldsLen, hv], fun m => by simp [Obj.field, hv, lookup], fun i => ?_,
        fun i => ?_, by simp [Obj.namedIter, ht], rfl, ?_⟩
      · simp only [Obj.fieldAt, visAt, List.getElem?_map]
        cases hi : fs[i]? with
        | none => simp
        | some p => simp [hh p (List.mem_of_getElem? hi)]
      · simp only [Obj.nameAt]
        cases hi : fs[i]? with
        | none => simp
        | some p => simp [hh p (List.mem_of_getElem? hi)]
      · simp [Obj.fieldsMut, hv]
    · have hv : visPos fs = [] := by
        simp only [visPos, List.filter_eq_nil_iff]
        intro p hp; simp [hh p hp]
      have ht : (fs.takeWhile fun p => !p.isHidden) = [] := by
        cases fs with
        | nil => rfl
        | cons p r => simp [List.takeWhile_cons, hh p List.mem_cons_self]
      have hat : ∀ i, visAt fs i = none := by
        intro i
        simp only [visAt]
        cases hi : fs[i]? with
        | none => simp
        | some p => simp [hh p (List.mem_of_getElem? hi)]
      simp only [visPos] at hv
      exact ⟨rfl, rfl, by simp [Obj.fieldsLen, hv], fun m => rfl, fun i => by simp [Obj.fieldAt, hat],
        fun i => by simp [Obj.nameAt, hat], rfl, by simp [Obj.posIter, ht], by simp [Obj.fieldsMut, hv]⟩
    · exact ⟨rfl, rfl, rfl, fun _ => rfl, fun _ => rfl, fun _ => rfl, rfl, rfl, rfl⟩
  obtain ⟨k1, k2, k3, k4, k5, k6, k7, k8, k9⟩ := key
  refine ⟨n, vd, hvd, h1, k1, h2, k2, k3, fun m => ⟨k4 m, ?_⟩, fun i => ⟨k5 i, k6 i, ?_⟩, k7, k8, k9⟩
  · have := (C52_field_mut_agrees h m 0).1
    rw [k4 m] at this
    simpa using this
  · have := (C52_field_mut_agrees h "" i).2
    rw [k5 i] at this
    simpa using this

/-- C54: `to_value` panics on it. -/
theorem C54_to_value_panics {t : Ty} {o : Obj} (h : HasTy (E.full S) t o) (hs : o.skippedVariant E = true) :
    toValuePanics E o = true :=
  (toValuePanics_iff ⟨t, h⟩).mpr (holdsSkipped_iff.mpr (.inl hs))

theorem find?_none_of_names {vds : List VariantDef} {vn : String} (h : ∀ a ∈ vds, a.name ≠ vn) :
    (vds.find? fun vd => vd.name = vn) = none := by
  simpa [List.find?_eq_none] using h

/-- C54: `from_reflect` of its own type does not accept it, and does not panic. -/
theorem C54_from_reflect_none (hD : DeclsOK (E.full S)) {n : String} {o : Obj}
    (h : HasTy (E.full S) (.named n) o) (hs : o.skippedVariant E = true) :
    fromReflect E (.named n) o = none ∧ fromReflectPanics E (.named n) o = false := by
  obtain ⟨n', vds, c, vd, e, hd, hvd, h1, h2, h3, -⟩ := skipped_form hD h hs
  simp only [Ty.unbox, Ty.named.injEq] at e
  subst e
  rw [fromReflect.eq_def, fromReflectPanics.eq_def]
  simp only [hd, h2, find?_none_of_names h3, and_self]

/-- C54: as an `EnumValue` it is accepted: the result has the variant's name and kind and no fields. -/
theorem C54_to_enum_value (hD : DeclsOK (E.full S)) {t : Ty} {o : Obj} (h : HasTy (E.full S) t o)
    (hs : o.skippedVariant E = true) :
    ∃ n, ∃ vd ∈ S n, o.variantName = some vd.name ∧
      fromReflect E .enumValue o = some vd.bare.toObj ∧ fromReflectPanics E .enumValue o = false := by
  obtain ⟨n, vd, hvd, h1, hk, h2, h3, -, -, -, h4, h5, -⟩ := C54_shows_nothing hD h hs
  refine ⟨n, vd, hvd, h2, ?_, ?_⟩
  · rw [fromReflect.eq_def]
    cases vd <;> simp only [VariantDef.kind] at h3 <;>
      simp [h2, h3, h4, h5, dynStruct, svOfList, VariantDef.bare, VariantDef.name]
  · rw [fromReflectPanics.eq_def]
    simp [h4, h5]

theorem mapHidden {fs : List (String × Obj)} (h : ∀ p ∈ fs, p.2.isHidden = true) (v : Obj) :
    (fs.map fun p =>
      if p.2.isHidden then p
      else
        match _h : v.field p.1 with
        | none => p
        | some w => (p.1, patch E p.2 w)) = fs := by
  conv_rhs => rw [← List.map_id fs]
  refine List.map_congr_left fun p hp => ?_
  simp [h p hp]

theorem mapIdxHidden {fs : List Obj} (h : ∀ p ∈ fs, p.isHidden = true) (v : Obj) :
    (fs.mapIdx fun i y =>
      if y.isHidden then y
      else
        match _h : v.fieldAt i with
        | none => y
        | some w => patch E y w) = fs := by
  apply List.ext_getElem (by simp)
  intro i h1 h2
  simp only [List.getElem_mapIdx, h _ (List.getElem_mem h2), if_true]

/-- How patching goes for an enum in a skipped variant. -/
theorem patch_skipped {n : String} {o v : Obj}
    (hf : (∃ vn fs, o = .enumS (.derived n) vn fs ∧ ∀ p ∈ fs, p.2.isHidden = true) ∨
       (∃ vn fs, o = .enumT (.derived n) vn fs ∧ ∀ x ∈ fs, x.isHidden = true) ∨
       (∃ vn, o = .enumU (.derived n) vn)) :
    patch E o v = if v.isTy (.named n) && !((E.decl n).any (·.cloneOptOut)) then v
      else if v.kind = .enum then (fromReflect E (.named n) v).getD o else o := by
  rcases hf with ⟨vn, fs, rfl, hh⟩ | ⟨vn, fs, rfl, hh⟩ | ⟨vn, rfl⟩
  · rw [patch.eq_def]
    simp only
    split
    · rfl
    · split
      · cases fromReflect E (.named n) v with
        | some y => rfl
        | none =>
          simp only [Option.getD_none]
          split
          · exact congrArg _ (mapHidden hh v)
          · rfl
      · rfl
  · rw [patch.eq_def]
    simp only
    split
    · rfl
    · split
      · cases fromReflect E (.named n) v with
        | some y => rfl
        | none =>
          simp only [Option.getD_none]
          split
          · exact congrArg _ (mapIdxHidden hh v)
          · rfl
      · rfl
  · rw [patch.eq_def]

/-- C54: patching an enum that holds a skipped variant replaces it as a whole, by a value of its type, or
failing that by a value that converts to its type, or leaves it alone. -/
theorem C54_patch_skipped (hD : DeclsOK (E.full S)) {n : String} {o : Obj}
    (h : HasTy (E.full S) (.named n) o) (hs : o.skippedVariant E = true) (v : Obj) :
    let cloned := v.typeOf = some (.named n) ∧ ∀ d, E.decl n = some d → d.cloneOptOut = false
    (cloned → patch E o v = v) ∧
    (¬ cloned → ∀ y, fromReflect E (.named n) v = some y → patch E o v = y) ∧
    (¬ cloned → fromReflect E (.named n) v = none → patch E o v = o) := by
  obtain ⟨n', vds, c, vd, e, hd, hvd, h1, h2, h3, hf⟩ := skipped_form hD h hs
  simp only [Ty.unbox, Ty.named.injEq] at e
  subst e
  have hp := patch_skipped (E := E) (v := v) (n := n) (o := o) (by
    rcases hf with ⟨vn, fds, fs, _, e, hh⟩ | ⟨vn, fds, fs, _, e, hh⟩ | ⟨vn, _, e⟩
    · exact .inl ⟨vn, fs, e, hh⟩
    · exact .inr (.inl ⟨vn, fs, e, hh⟩)
    · exact .inr (.inr ⟨vn, e⟩))
  have hc : (v.isTy (.named n) && !((E.decl n).any (·.cloneOptOut))) = true ↔
      (v.typeOf = some (.named n) ∧ ∀ d, E.decl n = some d → d.cloneOptOut = false) := by
    simp [Obj.isTy, hd]
  refine ⟨fun hcl => ?_, fun hcl y hy => ?_, fun hcl hn => ?_⟩
  · rw [hp]; exact if_pos (hc.mpr hcl)
  · rw [hp, if_neg (fun h => hcl (hc.mp h)), if_pos (fromReflect_enum_kind hd hy), hy]; rfl
  · rw [hp, if_neg (fun h => hcl (hc.mp h)), hn]; simp

/-- C54: patching an enum with a value of its type that holds a skipped variant takes over the value, if the
type has `Clone`; with `opt_out(Clone)` it has no effect. -/
theorem C54_patch_with_skipped (hD : DeclsOK (E.full S)) {n : String} {x v : Obj}
    (hx : HasTy (E.full S) (.named n) x) (hv : HasTy (E.full S) (.named n) v)
    (hs : v.skippedVariant E = true) {d : TyDef} (hd : E.decl n = some d) :
    patch E x v = if d.cloneOptOut then x else v := by
  obtain ⟨n', vds, c, vd, e, hd', hvd, h1, h2, h3, hf⟩ := skipped_form hD hv hs
  simp only [Ty.unbox, Ty.named.injEq] at e
  subst e
  rw [hd] at hd'
  obtain rfl := Option.some.inj hd'
  have hfr := (C54_from_reflect_none hD hv hs).1
  have hfull := full_enum (S := S).mpr ⟨vds, hd, rfl⟩
  by_cases hxs : x.skippedVariant E = true
  · have := C54_patch_skipped hD hx hxs v
    cases c with
    | false =>
      simp only [Bool.false_eq_true, if_false]
      exact this.1 ⟨h1, fun d hd' => by rw [hd] at hd'; cases hd'; rfl⟩
    | true =>
      simp only [if_true]
      exact this.2.2 (fun h => by simpa using h.2 _ hd) hfr
  · have hne : v.variantName ≠ x.variantName := by
      intro e
      have : v.skippedVariant E = x.skippedVariant E := by
        have hxt : x.typeOf = some (.named n) := by
          cases hx <;> simp [Obj.typeOf]
        simp only [Obj.skippedVariant, hxt, h1, e]
      rw [hs] at this; exact hxs this.symm
    cases hx with
    | struct _ _ _ _ hd2 => rw [hfull] at hd2; simp at hd2
    | tupleStruct _ _ _ _ hd2 => rw [hfull] at hd2; simp at hd2
    | enumS _ _ _ vn fds fs =>
      rw [patch.eq_def]
      simp only [Obj.isTy, h1, hd, BEq.rfl, Bool.true_and, Option.any_some, hfr]
      cases c <;> simp
      intro _ e
      exact absurd e hne
    | enumT _ _ _ vn fds fs =>
      rw [patch.eq_def]
      simp only [Obj.isTy, h1, hd, BEq.rfl, Bool.true_and, Option.any_some, hfr]
      cases c <;> simp
      intro _ e
      exact absurd e hne
    | enumU _ _ _ vn =>
      rw [patch.eq_def]
      simp only [Obj.isTy, h1, hd, BEq.rfl, Bool.true_and, Option.any_some, hfr]
      cases c <;> simp

/-- C54: compared with any value of its type it is equal exactly if that holds the same variant: contents do
not count. -/
theorem C54_reflect_eq (hD : DeclsOK (E.full S)) {n : String} {a b : Obj}
    (ha : HasTy (E.full S) (.named n) a) (hb : HasTy (E.full S) (.named n) b)
    (hs : a.skippedVariant E = true) :
    reflectEq E a b = some (decide (a.variantName = b.variantName)) := by
  obtain ⟨n', vds, c, vd, e, hd, hvd, h1, h2, h3, hf⟩ := skipped_form hD ha hs
  simp only [Ty.unbox, Ty.named.injEq] at e
  subst e
  obtain ⟨_, _, _, _, _, _, _, hl, _, _, hi1, hi2, _⟩ := C54_shows_nothing hD ha hs
  have hfull := full_enum (S := S).mpr ⟨vds, hd, rfl⟩
  have hbk : b.kind = .enum := by
    cases hb with
    | struct _ _ _ _ hd2 => rw [hfull] at hd2; simp at hd2
    | tupleStruct _ _ _ _ hd2 => rw [hfull] at hd2; simp at hd2
    | _ => rfl
  have hbt : b.typeOf = some (.named n) := by
    cases hb <;> simp [Obj.typeOf]
  by_cases hn : a.variantName = b.variantName
  · have hbs : b.skippedVariant E = true := by
      rw [← hs]; simp only [Obj.skippedVariant, hbt, h1, hn]
    obtain ⟨n', vd', hvd', h1', _, h2', hk', hl', _⟩ := C54_shows_nothing hD hb hbs
    rw [hbt] at h1'
    obtain rfl : n = n' := by simpa using h1'
    have hk : vd.kind = vd'.kind := by
      have nd := hD.variant_names n _ c hfull
      have hname : ∀ w : VariantDef, w.hide.name = w.name := by intro w; cases w <;> rfl
      have hkind : ∀ w : VariantDef, w.hide.kind = w.kind := by intro w; cases w <;> rfl
      have : vd.hide = vd'.hide := by
        refine List.inj_on_of_nodup_map nd (List.mem_append_right _ (List.mem_map.mpr ⟨_, hvd, rfl⟩))
          (List.mem_append_right _ (List.mem_map.mpr ⟨_, hvd', rfl⟩)) ?_
        rw [hname, hname]
        rw [h2, h2'] at hn
        exact Option.some.inj hn
      rw [← hkind vd, this, hkind]
    have hlen : a.fieldsLen = b.fieldsLen := by rw [hl, hl']
    rw [decide_eq_true hn]
    rcases hf with ⟨vn, fds, fs, rfl, rfl, hh⟩ | ⟨vn, fds, fs, rfl, rfl, hh⟩ | ⟨vn, rfl, rfl⟩
    · rw [reflectEq.eq_def]
      simp only [hbk, if_true, hlen]
      rw [if_pos ⟨hn.symm, trivial⟩, hk', ← hk]
      simp only [VariantDef.kind, if_true]
      rw [List.attach_eq_nil_iff.mpr hi1]
      rfl
    · rw [reflectEq.eq_def]
      simp only [hbk, if_true, hlen]
      rw [if_pos ⟨hn.symm, trivial⟩, hk', ← hk]
      simp only [VariantDef.kind, if_true]
      have : (fs.takeWhile fun x => !x.isHidden).zip b.posIter = [] := by
        have h0 : (fs.takeWhile fun x => !x.isHidden) = [] := hi2
        rw [h0]; rfl
      rw [List.attach_eq_nil_iff.mpr this]
      rfl
    · rw [reflectEq.eq_def]
      simp only [hbk, if_true, hlen]
      rw [if_pos ⟨hn.symm, trivial⟩, hk', ← hk]
      rfl
  · rw [decide_eq_false hn]
    rcases hf with ⟨vn, fds, fs, rfl, rfl, hh⟩ | ⟨vn, fds, fs, rfl, rfl, hh⟩ | ⟨vn, rfl, rfl⟩ <;>
    · rw [reflectEq.eq_def]
      simp only [hbk, if_true]
      rw [if_neg]
      rintro ⟨e, _⟩
      exact hn e.symm

/-- C54: `clone_reflect` panics on it if the type has `opt_out(Clone)`, and otherwise gives an identical
value. -/
theorem C54_clone (hD : DeclsOK (E.full S)) {n : String} {o : Obj}
    (h : HasTy (E.full S) (.named n) o) (hs : o.skippedVariant E = true) {d : TyDef}
    (hd : E.decl n = some d) :
    clonePanics E o = d.cloneOptOut ∧ (d.cloneOptOut = false → cloneReflect E o = some o) := by
  obtain ⟨n', vds, c, vd, e, hd', hvd, h1, h2, h3, hf⟩ := skipped_form hD h hs
  simp only [Ty.unbox, Ty.named.injEq] at e
  subst e
  simp only [clonePanics, cloneReflect, h1, hd, Option.any_some, C54_to_value_panics h hs, Bool.true_or,
    Bool.and_true, true_and]
  intro hc
  simp [hc]

theorem describe_node (hD : DeclsOK E) {fuel t d} (h : describe E fuel t = some d) {i n}
    (hn : d.graph.node i = some n) : Describes E i n := by
  obtain ⟨hr, hp, _, hg⟩ := describe_good hD h
  have : d.graph i ≠ none := by intro he; simp [TypeGraph.node, he] at hn
  obtain ⟨hu, _, m, hm, hd, _⟩ := hg i this
  have : n = m := by simpa [TypeGraph.node, hm] using hn.symm
  subst this
  exact hd

theorem DeclsOK.of_full (hD : DeclsOK (E.full S)) : DeclsOK E where
  struct_names n fds c h := hD.struct_names n fds c (full_struct.mpr h)
  variant_names n vds c h := by
    have := hD.variant_names n _ c (full_enum.mpr ⟨vds, h, rfl⟩)
    rw [List.map_append, List.nodup_append] at this
    exact this.1
  variant_fields n vds c vn fds h hv :=
    hD.variant_fields n _ c vn fds (full_enum.mpr ⟨vds, h, rfl⟩) (List.mem_append_left _ hv)

/-- C54: type descriptors do not list the variant. -/
theorem C54_type_info (hD : DeclsOK (E.full S)) {n : String} {o : Obj}
    (h : HasTy (E.full S) (.named n) o) (hs : o.skippedVariant E = true) {fuel t d}
    (hd : describe E fuel t = some d) {vs : List VariantNode}
    (hn : d.graph.node (.named n) = some (.enum vs)) :
    ∀ v ∈ vs, o.variantName ≠ some v.name := by
  obtain ⟨n', vds, c, vd, e, hd', hvd, h1, h2, h3, -⟩ := skipped_form hD h hs
  simp only [Ty.unbox, Ty.named.injEq] at e
  subst e
  have hdesc := describe_node (.of_full hD) hd hn
  cases hdesc with
  | enum _ vds' c' _ hd2 hl hv =>
    rw [hd'] at hd2
    simp only [Option.some.injEq, TyDef.mk.injEq, Shape.enum.injEq] at hd2
    obtain ⟨rfl, rfl⟩ := hd2
    intro v hv' e
    obtain ⟨i, hi⟩ := List.getElem?_of_mem hv'
    obtain ⟨hlt, rfl⟩ := List.getElem?_eq_some_iff.mp hi
    have hlt' : i < vds.length := by omega
    have hdv := hv i vds[i] vs[i] (List.getElem?_eq_getElem hlt') hi
    have : vs[i].name = vds[i].name := by
      generalize vs[i] = a at hdv
      generalize vds[i] = b at hdv
      cases hdv <;> rfl
    rw [h2, Option.some.injEq, this] at e
    exact h3 _ (List.getElem_mem hlt') e.symm

/-- C54: visiting it with its own type panics. -/
theorem C54_try_visit_panics (hD : DeclsOK (E.full S)) {n : String} {o : Obj}
    (h : HasTy (E.full S) (.named n) o) (hs : o.skippedVariant E = true) {fuel d}
    (hd : describe E fuel (.named n) = some d) {σ ε : Type} (v : Visitor σ ε) (s : σ) :
    tryVisit d.graph v d.root o s = .panic s := by
  obtain ⟨n', vds, c, vd, e, hd', hvd, h1, h2, h3, -⟩ := skipped_form hD h hs
  simp only [Ty.unbox, Ty.named.injEq] at e
  subst e
  obtain ⟨node, hn⟩ := descriptor_closed (.of_full hD) hd .root
  have hr : d.root = .named n := by rw [descriptor_root (.of_full hD) hd]; rfl
  rw [hr] at hn ⊢
  have hdesc := describe_node (.of_full hD) hd hn
  cases hdesc with
  | struct _ _ _ _ _ hd2 => rw [hd'] at hd2; simp at hd2
  | tupleStruct _ _ _ hd2 => rw [hd'] at hd2; simp at hd2
  | enum _ vds' c' vs hd2 hl hv =>
    have hno := C54_type_info hD h hs hd hn
    have hf : o.variantName.bind (findVariant vs) = none := by
      rw [h2, Option.bind_some, findVariant, List.find?_eq_none]
      intro w hw
      have := hno w hw
      rw [h2] at this
      simpa using fun e => this (by rw [e])
    rw [tryVisit.eq_def]
    simp only [hn]
    simp [visitSteps, hf, visitLoop]

/-! ## C55 -/

/-- C55: values that hold no skipped variant, anywhere inside, are exactly the values the declarations
without skipped variants describe; all theorems about `HasTy E` are about them. -/
theorem C55_proper_iff (hD : DeclsOK (E.full S)) {t : Ty} {o : Obj} :
    HasTy E t o ↔ HasTy (E.full S) t o ∧ ¬ o.HoldsSkipped E :=
  ⟨fun h => ⟨h.to_full, Obj.OK.not_holds ⟨t, h⟩⟩, fun h => h.1.of_full hD h.2⟩

/-- C55: `to_value` panics exactly if a skipped variant is held somewhere inside. -/
theorem C55_to_value_panics_iff {t : Ty} {o : Obj} (h : HasTy (E.full S) t o) :
    toValuePanics E o = true ↔ o.HoldsSkipped E := toValuePanics_iff ⟨t, h⟩

/-- C55: so does conversion to `Value`. -/
theorem C55_value_from_reflect_panics_iff {t : Ty} {o : Obj} (h : HasTy (E.full S) t o) :
    fromReflectPanics E .value o = true ↔ o.HoldsSkipped E := by
  rw [fromReflectPanics]; exact toValuePanics_iff ⟨t, h⟩

/-- C55: `from_reflect` panics only if a skipped variant is held somewhere inside and the target type is made of
some dynamic type. -/
theorem C55_from_reflect_panics_only {t T : Ty} {o : Obj} (h : HasTy (E.full S) t o)
    (hp : fromReflectPanics E T o = true) : o.HoldsSkipped E ∧ T.HasDynamic E :=
  fromReflectPanics_only T o (.inl ⟨t, h⟩) hp

/-- C55: `x.patch(v)` panics only if a skipped variant is held somewhere inside `v`. -/
theorem C55_patch_panics_only {t : Ty} {x v : Obj} (h : HasTy (E.full S) t v)
    (hp : patchPanics E x v = true) : v.HoldsSkipped E :=
  patchPanics_only x v (.inl ⟨t, h⟩) hp

/-- C55: `reflect_eq(a, b)` panics only if a skipped variant is held somewhere inside `a`. -/
theorem C55_reflect_eq_panics_only {t : Ty} {a b : Obj} (h : HasTy (E.full S) t a)
    (hp : reflectEqPanics E a b = true) : a.HoldsSkipped E :=
  reflectEqPanics_only a b (.inl ⟨t, h⟩) hp

/-- C55: on values that hold no skipped variant none of the operations panics. -/
theorem C55_no_panic {t u : Ty} {o v : Obj} (ho : HasTy E t o) (hv : HasTy E u v) (x : Obj) (T : Ty) :
    toValuePanics E v = false ∧ fromReflectPanics E T v = false ∧ patchPanics E x v = false ∧
      reflectEqPanics E v x = false ∧ x.mapGetPanics E v = false ∧ x.mapInsertPanics E o v = false ∧
      x.listPushPanics E v = false := by
  have nh : ∀ {w : Obj} {t : Ty}, HasTy E t w → ¬ w.HoldsSkipped E := fun h => Obj.OK.not_holds ⟨_, h⟩
  have fr : ∀ {w : Obj} {t : Ty}, HasTy E t w → ∀ T, fromReflectPanics E T w = false := fun h T => by
    by_contra h'
    exact nh h (fromReflectPanics_only T _ (.inl ⟨_, h⟩) (by simpa using h')).1
  refine ⟨?_, fr hv T, ?_, ?_, ?_, ?_, ?_⟩
  · by_contra h'
    exact nh hv ((toValuePanics_iff ⟨_, hv⟩).mp (by simpa using h'))
  · by_contra h'
    exact nh hv (patchPanics_only x v (.inl ⟨_, hv⟩) (by simpa using h'))
  · by_contra h'
    exact nh hv (reflectEqPanics_only v x (.inl ⟨_, hv⟩) (by simpa using h'))
  · cases x <;> simp [Obj.mapGetPanics, fr hv]
  · cases x <;> simp only [Obj.mapInsertPanics, fr hv, fr ho]
    next kt vt kvs =>
    cases (fromReflect E kt o).isSome <;> cases (fromReflect E vt v).isSome <;> rfl
  · cases x <;> simp [Obj.listPushPanics, fr hv]

/-! ## Non-vacuity: `Opt` of the demo environment with a skipped variant `Ghost(bool)` -/

/-- `enum Opt { Some(Point), None, #[reflect(skip)] Ghost(bool) }`. -/
def demoSkipped : String → List VariantDef
  | "Opt" => [.tuple "Ghost" [⟨"", .scalar .bool, false⟩]]
  | _ => []

theorem demoSkipped_declsOK : DeclsOK (demoEnv.full demoSkipped) where
  struct_names n fds c h := demo_declsOK.struct_names n fds c (full_struct.mp h)
  variant_names n vds c h := by
    obtain ⟨vds', hd, rfl⟩ := full_enum.mp h
    simp only [demoEnv, valueOrdEnv, demoDecl] at hd
    split at hd <;> simp at hd <;> (obtain ⟨rfl, _⟩ := hd; decide)
  variant_fields n vds c vn fds h hv := by
    obtain ⟨vds', hd, rfl⟩ := full_enum.mp h
    rcases List.mem_append.mp hv with hv | hv
    · exact demo_declsOK.variant_fields n vds' c vn fds hd hv
    · simp only [demoSkipped] at hv
      split at hv <;> simp [VariantDef.hide] at hv

/-- `Opt::Ghost(true)`. -/
def demoGhost : Obj := .enumT (.derived "Opt") "Ghost" [.hidden 7]

theorem demoGhost_typed' (d : Nat) : HasTy (demoEnv.full demoSkipped) (.named "Opt")
    (.enumT (.derived "Opt") "Ghost" [.hidden d]) :=
  .enumT "Opt" _ true "Ghost" [⟨"", .scalar .bool, true⟩] [.hidden d]
    (full_enum.mpr ⟨_, rfl, rfl⟩) (by simp [demoSkipped, VariantDef.hide]) rfl
    (fun i fd x h1 h2 _ => by
      match i with
      | 0 => simp at h2; subst h2; rfl
      | n + 1 => simp at h2)
    (fun i fd x h1 h2 hs => by
      match i with
      | 0 => simp at h1; subst h1; simp at hs
      | n + 1 => simp at h2)

theorem demoGhost_typed : HasTy (demoEnv.full demoSkipped) (.named "Opt") demoGhost :=
  demoGhost_typed' 7

theorem demoGhost_skipped : demoGhost.skippedVariant demoEnv = true := rfl

/-- C54: the hypotheses are met, by a value of a type that has other, reflected variants. -/
example : demoGhost.variantName = some "Ghost" ∧ demoGhost.fieldsLen = 0 ∧
    toValuePanics demoEnv demoGhost = true ∧ fromReflect demoEnv (.named "Opt") demoGhost = none ∧
    clonePanics demoEnv demoGhost = true ∧ (∃ d, describe demoEnv 9 (.named "Opt") = some d) :=
  ⟨rfl, rfl, C54_to_value_panics demoGhost_typed demoGhost_skipped,
    (C54_from_reflect_none demoSkipped_declsOK demoGhost_typed demoGhost_skipped).1,
    (C54_clone demoSkipped_declsOK demoGhost_typed demoGhost_skipped rfl).1, _, rfl⟩

/-- C54: patching `Opt::None` with the ghost has no effect, as `Opt` has `opt_out(Clone)`; the two compare
unequal. -/
example : patch demoEnv (.enumU (.derived "Opt") "None") demoGhost = .enumU (.derived "Opt") "None" ∧
    reflectEq demoEnv demoGhost (.enumU (.derived "Opt") "None") = some false ∧
    reflectEq demoEnv demoGhost (.enumT (.derived "Opt") "Ghost" [.hidden 8]) = some true := by
  have hn : HasTy (demoEnv.full demoSkipped) (.named "Opt") (.enumU (.derived "Opt") "None") :=
    .enumU "Opt" _ true "None" (full_enum.mpr ⟨_, rfl, rfl⟩) (by simp)
  refine ⟨C54_patch_with_skipped demoSkipped_declsOK hn demoGhost_typed demoGhost_skipped rfl,
    C54_reflect_eq demoSkipped_declsOK demoGhost_typed hn demoGhost_skipped,
    C54_reflect_eq demoSkipped_declsOK demoGhost_typed (demoGhost_typed' 8) demoGhost_skipped⟩

/-- A list of `Opt`s with a ghost in it. -/
def demoGhosts : Obj := .vec (.named "Opt") [.enumU (.derived "Opt") "None", demoGhost]

theorem demoGhosts_typed : HasTy (demoEnv.full demoSkipped) (.vec (.named "Opt")) demoGhosts := by
  refine .vec _ _ fun x hx => ?_
  rcases List.mem_cons.mp hx with rfl | hx
  · exact .enumU "Opt" _ true "None" (full_enum.mpr ⟨_, rfl, rfl⟩) (by simp)
  · obtain rfl := List.mem_singleton.mp hx
    exact demoGhost_typed

/-- C55: both sides of the equivalences are inhabited, and panics do spread. -/
example : demoGhosts.HoldsSkipped demoEnv ∧ toValuePanics demoEnv demoGhosts = true ∧
    fromReflectPanics demoEnv (.vec .value) demoGhosts = true ∧
    patchPanics demoEnv (Value.enumU "A").toObj (.enumT (.derived "Some") "B" [demoGhost]) = true ∧
    ¬ (Obj.vec (.named "Opt") [.enumU (.derived "Opt") "None"]).HoldsSkipped demoEnv := by
  have h : demoGhosts.HoldsSkipped demoEnv :=
    ⟨demoGhost, .part _ _ _ (by simp [demoGhosts, Obj.parts]) (.self _), rfl⟩
  refine ⟨h, (C55_to_value_panics_iff demoGhosts_typed).mpr h, ?_, ?_, ?_⟩
  · simp [demoGhosts, demoGhost, fromReflectPanics, toValuePanics, loopPanics, Obj.skippedVariant,
      Obj.typeOf, Obj.variantName, demoEnv, valueOrdEnv, demoDecl, fromReflect, VariantDef.name]
  · simp [demoGhost, Value.toObj, patchPanics, fromReflectPanics, toValuePanics, Obj.kind, Obj.namedIter,
      Obj.posIter, Obj.isHidden, Obj.skippedVariant,
      Obj.typeOf, Obj.variantName, demoEnv, valueOrdEnv, demoDecl, VariantDef.name]
  · refine Obj.OK.not_holds ⟨.vec (.named "Opt"), .vec _ _ fun x hx => ?_⟩
    obtain rfl := List.mem_singleton.mp hx
    exact .enumU "Opt" _ true "None" rfl (by simp)

/-- C55: a type without dynamic types, and one with. -/
example : ¬ (Ty.named "Point").HasDynamic demoEnv ∧ (Ty.vec .value).HasDynamic demoEnv := by
  constructor
  · rintro ⟨u, hr, hd⟩
    have : u = .named "Point" ∨ u = .scalar (.int .i32) ∨ u = .scalar .f32 := by
      clear hd
      induction hr with
      | refl => exact .inl rfl
      | step a b _ hb ih =>
        rcases ih with rfl | rfl | rfl
        · simp [Ty.comps, demoEnv, valueOrdEnv, demoDecl] at hb
          rcases hb with rfl | rfl <;> simp
        · simp [Ty.comps] at hb
        · simp [Ty.comps] at hb
    rcases this with rfl | rfl | rfl <;> exact hd
  · exact ⟨.value, .step _ _ .refl (by simp [Ty.comps]), trivial⟩

end Mirror
