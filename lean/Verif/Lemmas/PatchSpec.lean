import Verif.Spec.Patch
import Verif.Lemmas.PatchEq
import Verif.Lemmas.Convert

set_option linter.unusedSimpArgs false

/-!
# `patch` meets its specification
-/

namespace Mirror

theorem hits_iff {E : Env} (hD : DeclsOK E) {kt : Ty} {k : Obj} {new : List (Obj × Obj)}
    {ws : List Obj} : Hits E kt k new ws ↔ ws = hits E kt k new := by
  constructor
  · intro h
    induction h with
    | nil => rfl
    | take q qs ws k' hc he _ ih =>
      rw [convertsTo_iff hD] at hc
      simp [hits, hc, he] at ih ⊢
      exact ih
    | drop q qs ws hn _ ih =>
      simp only [convertsTo_iff hD] at hn
      cases hf : fromReflect E kt q.1 with
      | none => simp [hits, hf] at ih ⊢; exact ih
      | some k' => simp [hits, hf, hn k' hf] at ih ⊢; exact ih
  · rintro rfl
    induction new with
    | nil => exact .nil
    | cons q qs ih =>
      cases hf : fromReflect E kt q.1 with
      | none =>
        have : hits E kt k (q :: qs) = hits E kt k qs := by simp [hits, hf]
        rw [this]
        exact .drop _ _ _ (by simp [convertsTo_iff hD, hf]) ih
      | some k' =>
        by_cases he : E.kcmp kt k' k = .eq
        · have : hits E kt k (q :: qs) = q.2 :: hits E kt k qs := by simp [hits, hf, he]
          rw [this]
          exact .take _ _ _ k' ((convertsTo_iff hD).mpr hf) he ih
        · have : hits E kt k (q :: qs) = hits E kt k qs := by simp [hits, hf, he]
          rw [this]
          exact .drop _ _ _ (by simpa [convertsTo_iff hD, hf] using he) ih

theorem hits_mem {E : Env} {kt : Ty} {k : Obj} {new : List (Obj × Obj)} {w : Obj}
    (h : w ∈ hits E kt k new) : ∃ q ∈ new, q.2 = w := by
  simp only [hits, List.mem_filterMap] at h
  obtain ⟨q, hq, h⟩ := h
  refine ⟨q, hq, ?_⟩
  cases hf : fromReflect E kt q.1 with
  | none => simp [hf] at h
  | some k' => simp [hf] at h; exact h.2

/-- The parts of a value that `patch` recurses into. -/
theorem part_ok {E : Env} {x : Obj} (hx : x.OK E) {a : Obj} (ha : a.isHidden = false) :
    (∀ n, (n, a) ∈ (match x with
      | .struct _ fs => fs | .enumS _ _ fs => fs | _ => []) → a.OK E) ∧
    (a ∈ (match x with
      | .tupleStruct _ fs => fs | .tuple _ fs => fs | .enumT _ _ fs => fs | .vec _ fs => fs
      | .array _ fs => fs | _ => []) → a.OK E) := by
  constructor
  · intro n hm
    cases x <;> simp only [List.not_mem_nil] at hm <;>
      exact hx.parts (List.mem_map_of_mem (f := (·.2)) (List.mem_filter.mpr ⟨hm, by simp [ha]⟩))
  · intro hm
    cases x <;> simp only [List.not_mem_nil] at hm <;>
      first
      | exact hx.parts (List.mem_filter.mpr ⟨hm, by simp [ha]⟩)
      | exact hx.parts hm

theorem enum_shape {E : Env} (hO : OrdLaws E) {x : Obj} {n : String} (hx : x.OK E)
    (hk : x.kind = .enum) (ht : x.typeOf = some (.named n)) :
    ∃ vds c, E.decl n = some ⟨.enum vds, c⟩ := by
  have h2 := OK.typed hO hx ht
  cases h2 with
  | struct => simp [Obj.kind] at hk
  | tupleStruct => simp [Obj.kind] at hk
  | enumS _ vds c _ _ _ hd => exact ⟨vds, c, hd⟩
  | enumT _ vds c _ _ _ hd => exact ⟨vds, c, hd⟩
  | enumU _ vds c _ hd => exact ⟨vds, c, hd⟩

theorem kind_of_variantName {v : Obj} {vn : String} (h : v.variantName = some vn) :
    v.kind = .enum := by
  cases v <;> simp [Obj.variantName] at h <;> rfl

theorem variantName_of_kind {v : Obj} (h : v.kind = .enum) : ∃ vn, v.variantName = some vn := by
  cases v <;> simp [Obj.kind] at h <;> exact ⟨_, rfl⟩

theorem fromReflect_enum_kind {E : Env} {n : String} {vds : List VariantDef} {c : Bool} {v y : Obj}
    (hd : E.decl n = some ⟨.enum vds, c⟩) (h : fromReflect E (.named n) v = some y) :
    v.kind = .enum := by
  rw [fromReflect_enum hd] at h
  cases hv : v.variantName with
  | none => simp [hv] at h
  | some vn => exact kind_of_variantName hv

theorem fromReflect_enumValue_kind {E : Env} {v y : Obj}
    (h : fromReflect E .enumValue v = some y) : v.kind = .enum := by
  rw [fromReflect] at h
  cases v <;> simp [Obj.variantKind] at h <;> rfl

/-- A relation that holds of `patch` on the smaller parts of `v`. -/
def Small (E : Env) (R : Obj → Obj → Obj → Prop) (v : Obj) : Prop :=
  ∀ a w, a.OK E → w.OK E → sizeOf w < sizeOf v → R a w (patch E a w)

theorem namedPatched_of {E : Env} {R : Obj → Obj → Obj → Prop} {v : Obj} (hR : Small E R v)
    (hv : v.OK E) {fs : List (String × Obj)}
    (hf : ∀ n a, (n, a) ∈ fs → a.isHidden = false → a.OK E) :
    NamedPatched R v fs (patchNamed E v fs) := by
  refine ⟨by simp [patchNamed, Function.comp_def], ?_⟩
  intro i n a b ha hb
  simp only [patchNamed, List.getElem?_map, ha, Option.map_some, Option.some.injEq, Prod.mk.injEq,
    true_and] at hb
  subst hb
  cases hh : a.isHidden with
  | true => exact .inr ⟨.inl rfl, patchO_of_hidden E hh _⟩
  | false =>
    cases hw : v.field n with
    | none => exact .inr ⟨.inr rfl, rfl⟩
    | some w =>
      obtain ⟨h1, h2⟩ := field_small hv n w hw
      exact .inl ⟨w, rfl, rfl, hR a w (hf n a (List.mem_of_getElem? ha) hh) h2 h1⟩

theorem posPatched_of {E : Env} {R : Obj → Obj → Obj → Prop} {v : Obj} (hR : Small E R v)
    (hv : v.OK E) {fs : List Obj} (hf : ∀ a ∈ fs, a.isHidden = false → a.OK E) :
    PosPatched R v fs (patchPos E v fs) := by
  refine ⟨by simp [patchPos], ?_⟩
  intro i a b ha hb
  simp only [patchPos, List.getElem?_mapIdx, ha, Option.map_some, Option.some.injEq] at hb
  subst hb
  cases hh : a.isHidden with
  | true => exact .inr ⟨.inl rfl, patchO_of_hidden E hh _⟩
  | false =>
    cases hw : v.fieldAt i with
    | none => exact .inr ⟨.inr rfl, rfl⟩
    | some w =>
      obtain ⟨h1, h2⟩ := fieldAt_small hv i w hw
      exact .inl ⟨w, rfl, rfl, hR a w (hf a (List.mem_of_getElem? ha) hh) h2 h1⟩

theorem variantPatched_of {E : Env} {R : Obj → Obj → Obj → Prop} {x v : Obj} (hR : Small E R v)
    (hx : x.OK E) (hv : v.OK E) (hk : x.kind = .enum) : VariantPatched R v x (patchFields E v x) := by
  cases x <;> simp only [Obj.kind, reduceCtorEq] at hk
  · exact .enumS _ _ _ _ (namedPatched_of hR hv fun n a ha hh => (part_ok hx hh).1 n ha)
  · exact .enumT _ _ _ _ (posPatched_of hR hv fun a ha hh => (part_ok hx hh).2 ha)
  · exact .enumU _ _

theorem patchSeq_of {E : Env} (hO : OrdLaws E) {R : Obj → Obj → Obj → Prop} {v : Obj}
    (hR : Small E R v) {ws : List Obj} (hw : ∀ w ∈ ws, w.OK E ∧ sizeOf w < sizeOf v) :
    ∀ {a : Obj}, a.OK E → PatchSeq R a ws (patchSeq E a ws) := by
  induction ws with
  | nil => intro a _; exact .nil a
  | cons w ws ih =>
    intro a ha
    obtain ⟨h1, h2⟩ := hw w (by simp)
    rw [patchSeq_cons]
    refine .cons _ _ _ _ _ (hR a w ha h1 h2) (ih (fun w hw' => hw w (by simp [hw'])) ?_)
    obtain ⟨t, ha⟩ := ha
    exact ⟨t, patch_hasTy hO w h1 ha⟩

/-- `patch` is a step of the specification, given that it is on smaller patches. -/
theorem patch_step {E : Env} (hD : DeclsOK E) (hO : OrdLaws E) {R : Obj → Obj → Obj → Prop}
    {x v : Obj} (hx : x.OK E) (hv : v.OK E) (hR : Small E R v) :
    PatchStep E R x v (patch E x v) := by
  by_cases hk : v.kind = x.kind
  swap
  · rw [patch_other_kind hO hx hv hk]; exact .other x v hk
  have derived : ∀ {n : String}, x.kind = .enum → x.typeOf = some (.named n) →
      PatchStep E R x v (patch E x v) := by
    intro n hxk ht
    obtain ⟨vds, c, hd⟩ := enum_shape hO hx hxk ht
    have hif : (v.isTy (.named n) && !((E.decl n).any (·.cloneOptOut))) = true ↔
        c = false ∧ v.typeOf = some (.named n) := by simp [hd, Obj.isTy, and_comm]
    rw [patch_enum_derived E hxk ht]
    by_cases hc : c = false ∧ v.typeOf = some (.named n)
    · rw [if_pos (hif.mpr hc)]
      exact .enumTake n _ x v hxk ht hd hc.1 hc.2
    · rw [if_neg (mt hif.mp hc), if_pos (hk.trans hxk)]
      split
      · next y hy => exact .enumConvert n _ x v y hxk ht hd hc ((convertsTo_iff hD).mpr hy)
      · next hy =>
        have hy := (not_convertsTo_iff hD).mpr hy
        split
        · next hvn => exact .enumFields n _ x v _ hxk ht hd hc hy hvn (variantPatched_of hR hx hv hxk)
        · next hvn => exact .enumKeep n _ x v hxk ht hd hc hy hvn
  have dyn : x.kind = .enum → x.typeOf = some .enumValue → PatchStep E R x v (patch E x v) := by
    intro hxk ht
    rw [patch_enum_dyn E hxk ht, if_pos (hk.trans hxk)]
    split
    · next hvn => exact .enumValueFields x v _ hxk ht hvn (variantPatched_of hR hx hv hxk)
    · next hvn =>
      obtain ⟨y, hy⟩ := fromReflect_enumValue_some E (hk.trans hxk)
      rw [hy]
      exact .enumValueReplace x v y hxk ht hvn ((convertsTo_iff hD).mpr hy)
  cases x with
  | hidden d => exact absurd hx.not_hidden (by simp [Obj.isHidden])
  | scalar s =>
    rw [patch_scalar]
    split
    · next h =>
      obtain ⟨s', rfl, hs⟩ := isTy_scalar_inv h
      exact .scalar s s' hs
    · next h => exact .scalarOther s v (by simpa [Obj.isTy] using h)
  | nonzero k n =>
    rw [patch_nonzero]
    cases h : fromReflect E (.nonzero k) v with
    | none => exact .nonzeroOther k n v ((not_convertsTo_iff hD).mpr h)
    | some y => exact .nonzero k n v y ((convertsTo_iff hD).mpr h)
  | struct tag fs =>
    rw [patch_struct, if_pos (by exact hk)]
    exact .struct _ _ _ _ hk (namedPatched_of hR hv fun n a ha hh => (part_ok hx hh).1 n ha)
  | tupleStruct tag fs =>
    rw [patch_tupleStruct, if_pos (by exact hk)]
    exact .tupleStruct _ _ _ _ hk (posPatched_of hR hv fun a ha hh => (part_ok hx hh).2 ha)
  | tuple tag fs =>
    rw [patch_tuple, if_pos (by exact hk)]
    exact .tuple _ _ _ _ hk (posPatched_of hR hv fun a ha hh => (part_ok hx hh).2 ha)
  | vec t fs =>
    rw [patch_vec, if_pos (by exact hk)]
    exact .vec _ _ _ _ hk (posPatched_of hR hv fun a ha hh => (part_ok hx hh).2 ha)
  | array t fs =>
    rw [patch_array, if_pos (by exact hk)]
    exact .array _ _ _ _ hk (posPatched_of hR hv fun a ha hh => (part_ok hx hh).2 ha)
  | map kt vt kvs =>
    cases v <;> simp only [Obj.kind, reduceCtorEq] at hk
    rename_i u w new
    have hty := OK.typed hO hx rfl
    cases hty with
    | map _ _ _ hs hkt hvt =>
      rw [patch_map, patchEntries_eq hO _ (fun p hp => (map_entry_ok hv hp).1) _ hs hkt]
      refine .map _ _ _ _ _ _ _ (by simp [Function.comp_def]) ?_
      intro i k a b ha hb
      simp only [List.getElem?_map, ha, Option.map_some, Option.some.injEq, Prod.mk.injEq,
        true_and] at hb
      subst hb
      refine ⟨_, (hits_iff hD).mpr rfl, patchSeq_of hO hR ?_ ⟨_, hvt _ (List.mem_of_getElem? ha)⟩⟩
      intro w hw
      obtain ⟨q, hq, rfl⟩ := hits_mem hw
      refine ⟨(map_entry_ok hv hq).2, ?_⟩
      have := List.sizeOf_lt_of_mem hq
      obtain ⟨q1, q2⟩ := q
      simp at this ⊢
      omega
  | enumS tag vn fs => cases tag <;> first | exact derived rfl rfl | exact dyn rfl rfl
  | enumT tag vn fs => cases tag <;> first | exact derived rfl rfl | exact dyn rfl rfl
  | enumU tag vn => cases tag <;> first | exact derived rfl rfl | exact dyn rfl rfl

theorem patch_patchesTo {E : Env} (hD : DeclsOK E) (hO : OrdLaws E) (v : Obj) (hv : v.OK E) :
    ∀ x : Obj, x.OK E → PatchesTo E x v (patch E x v) := by
  induction v using Obj.ind with
  | h v ih =>
    intro x hx R hR
    exact hR _ _ _ (patch_step hD hO hx hv fun a w ha hw hs => ih w hs hw a ha R hR)

/-- `R` describes `patch` on proper values. -/
def IsPatch (E : Env) (a w b : Obj) : Prop := a.OK E → w.OK E → b = patch E a w

theorem namedPatched_eq {E : Env} {v : Obj} (hv : v.OK E) {fs gs : List (String × Obj)}
    (hf : ∀ n a, (n, a) ∈ fs → a.isHidden = false → a.OK E)
    (h : NamedPatched (IsPatch E) v fs gs) : gs = patchNamed E v fs := by
  apply List.ext_getElem?
  intro i
  have hn := congrArg (·[i]?) h.names
  simp only [List.getElem?_map] at hn
  simp only [patchNamed, List.getElem?_map]
  cases hg : gs[i]? with
  | none => rw [hg] at hn; cases hfi : fs[i]? <;> simp [hfi] at hn ⊢
  | some q =>
    obtain ⟨m, b⟩ := q
    cases hfi : fs[i]? with
    | none => simp [hg, hfi] at hn
    | some p =>
      obtain ⟨n, a⟩ := p
      simp [hg, hfi] at hn
      subst hn
      simp only [Option.map_some, Option.some.injEq, Prod.mk.injEq, true_and]
      rcases h.same i _ a b hfi hg with ⟨w, hh, hw, hp⟩ | ⟨hh | hw, rfl⟩
      · rw [hw]; exact hp (hf _ _ (List.mem_of_getElem? hfi) hh) (OK_field hv hw)
      · rw [patchO_of_hidden E hh]
      · rw [hw]; rfl

theorem posPatched_eq {E : Env} {v : Obj} (hv : v.OK E) {fs gs : List Obj}
    (hf : ∀ a ∈ fs, a.isHidden = false → a.OK E)
    (h : PosPatched (IsPatch E) v fs gs) : gs = patchPos E v fs := by
  apply List.ext_getElem?
  intro i
  simp only [patchPos, List.getElem?_mapIdx]
  cases hfi : fs[i]? with
  | none =>
    have := List.getElem?_eq_none_iff.mp hfi
    exact List.getElem?_eq_none_iff.mpr (h.length ▸ this)
  | some a =>
    obtain ⟨b, hg⟩ := align_pos h.length.symm hfi
    rw [hg]
    simp only [Option.map_some, Option.some.injEq]
    rcases h.same i a b hfi hg with ⟨w, hh, hw, hp⟩ | ⟨hh | hw, rfl⟩
    · rw [hw]; exact hp (hf _ (List.mem_of_getElem? hfi) hh) (OK_fieldAt hv hw)
    · rw [patchO_of_hidden E hh]
    · rw [hw]; rfl

theorem variantPatched_eq {E : Env} {x v z : Obj} (hx : x.OK E) (hv : v.OK E)
    (h : VariantPatched (IsPatch E) v x z) : z = patchFields E v x := by
  cases h with
  | enumS tag vn fs gs h =>
    rw [patchFields, namedPatched_eq hv (fun n a ha hh => (part_ok hx hh).1 n ha) h]
  | enumT tag vn fs gs h =>
    rw [patchFields, posPatched_eq hv (fun a ha hh => (part_ok hx hh).2 ha) h]
  | enumU => rfl

theorem patchSeq_eq {E : Env} (hO : OrdLaws E) {a b : Obj} {ws : List Obj}
    (h : PatchSeq (IsPatch E) a ws b) (ha : a.OK E) (hw : ∀ w ∈ ws, w.OK E) :
    b = patchSeq E a ws := by
  induction h with
  | nil => rfl
  | cons a w ws b c h1 _ ih =>
    have h1 := h1 ha (hw w (by simp))
    rw [patchSeq_cons, ← h1]
    refine ih ?_ fun w hm => hw w (by simp [hm])
    obtain ⟨t, ha⟩ := ha
    exact ⟨t, h1 ▸ patch_hasTy hO w (hw w (by simp)) ha⟩

theorem isPatch_of_step {E : Env} (hD : DeclsOK E) (hO : OrdLaws E) {x v z : Obj}
    (h : PatchStep E (IsPatch E) x v z) : IsPatch E x v z := by
  intro hx hv
  have base : ∀ n d, x.kind = .enum → x.typeOf = some (.named n) → E.decl n = some d →
      ¬ (d.cloneOptOut = false ∧ v.typeOf = some (.named n)) → v.kind = .enum →
      patch E x v = match fromReflect E (.named n) v with
        | some y => y
        | none => if v.variantName = x.variantName then patchFields E v x else x := by
    intro n d hk ht hd hc hvk
    have hif : (v.isTy (.named n) && !((E.decl n).any (·.cloneOptOut))) = true ↔
        d.cloneOptOut = false ∧ v.typeOf = some (.named n) := by simp [hd, Obj.isTy, and_comm]
    rw [patch_enum_derived E hk ht, if_neg (mt hif.mp hc), if_pos hvk]
    cases fromReflect E (.named n) v <;> rfl
  cases h with
  | other _ _ hk => exact (patch_other_kind hO hx hv hk).symm
  | scalar s s' h => rw [patch_scalar, if_pos (by simp [Obj.isTy, Obj.typeOf, h])]
  | scalarOther s _ h => rw [patch_scalar, if_neg (by simpa [Obj.isTy] using h)]
  | nonzero k n _ _ h => rw [patch_nonzero, (convertsTo_iff hD).mp h]; rfl
  | nonzeroOther k n _ h => rw [patch_nonzero, (not_convertsTo_iff hD).mp h]; rfl
  | struct tag fs _ gs hk h =>
    rw [patch_struct, if_pos hk, namedPatched_eq hv (fun n a ha hh => (part_ok hx hh).1 n ha) h]
  | tupleStruct tag fs _ gs hk h =>
    rw [patch_tupleStruct, if_pos hk, posPatched_eq hv (fun a ha hh => (part_ok hx hh).2 ha) h]
  | tuple tag fs _ gs hk h =>
    rw [patch_tuple, if_pos hk, posPatched_eq hv (fun a ha hh => (part_ok hx hh).2 ha) h]
  | vec tag fs _ gs hk h =>
    rw [patch_vec, if_pos hk, posPatched_eq hv (fun a ha hh => (part_ok hx hh).2 ha) h]
  | array tag fs _ gs hk h =>
    rw [patch_array, if_pos hk, posPatched_eq hv (fun a ha hh => (part_ok hx hh).2 ha) h]
  | map kt vt u w kvs new r hkeys h =>
    have hty := OK.typed hO hx rfl
    cases hty with
    | map _ _ _ hs hkt hvt =>
      rw [patch_map, patchEntries_eq hO _ (fun p hp => (map_entry_ok hv hp).1) _ hs hkt]
      congr 1
      apply List.ext_getElem?
      intro i
      have hn := congrArg (·[i]?) hkeys
      simp only [List.getElem?_map] at hn ⊢
      cases hg : r[i]? with
      | none => rw [hg] at hn; cases hfi : kvs[i]? <;> simp [hfi] at hn ⊢
      | some q =>
        obtain ⟨m, b⟩ := q
        cases hfi : kvs[i]? with
        | none => simp [hg, hfi] at hn
        | some p =>
          obtain ⟨n, a⟩ := p
          simp [hg, hfi] at hn
          subst hn
          simp only [Option.map_some, Option.some.injEq, Prod.mk.injEq, true_and]
          obtain ⟨ws, hw, hsq⟩ := h i _ a b hfi hg
          rw [hits_iff hD] at hw
          subst hw
          refine patchSeq_eq hO hsq ⟨_, hvt _ (List.mem_of_getElem? hfi)⟩ ?_
          intro w hw
          obtain ⟨q, hq, rfl⟩ := hits_mem hw
          exact (map_entry_ok hv hq).2
  | enumTake n d _ _ hk ht hd hc hvt =>
    rw [patch_enum_derived E hk ht, hd, if_pos (by simp [Obj.isTy, hvt, hc])]
  | enumConvert n d _ _ y hk ht hd hc hy =>
    rw [convertsTo_iff hD] at hy
    obtain ⟨vds, c, hd'⟩ := enum_shape hO hx hk ht
    rw [base n d hk ht hd hc (fromReflect_enum_kind hd' hy), hy]
  | enumFields n d _ _ _ hk ht hd hc hy hvn hz =>
    rw [not_convertsTo_iff hD] at hy
    obtain ⟨vn, hxn⟩ := variantName_of_kind hk
    rw [base n d hk ht hd hc (kind_of_variantName (hvn.trans hxn)), hy]
    simp only [hvn, if_true]
    exact variantPatched_eq hx hv hz
  | enumKeep n d _ _ hk ht hd hc hy hvn =>
    rw [not_convertsTo_iff hD] at hy
    by_cases hvk : v.kind = .enum
    · rw [base n d hk ht hd hc hvk, hy]
      simp [hvn]
    · exact (patch_other_kind hO hx hv (by rw [hk]; exact hvk)).symm
  | enumValueFields _ _ _ hk ht hvn hz =>
    obtain ⟨vn, hxn⟩ := variantName_of_kind hk
    rw [patch_enum_dyn E hk ht, if_pos (kind_of_variantName (hvn.trans hxn)), if_pos hvn]
    exact variantPatched_eq hx hv hz
  | enumValueReplace _ _ y hk ht hvn hy =>
    rw [convertsTo_iff hD] at hy
    rw [patch_enum_dyn E hk ht, if_pos (fromReflect_enumValue_kind hy), if_neg hvn, hy]
    rfl

end Mirror
