import Verif.Lemmas.PatchIdem
import Verif.Lemmas.PatchFullValue
import Verif.Lemmas.Align
import Verif.Lemmas.Panic
import Verif.Spec.TypePath
import Verif.Spec.PatchHistory

set_option linter.unusedSimpArgs false

/-!
# Histories of patches

What a patch does to two values that a later patch makes equal.
-/

namespace Mirror

theorem Static.comp {E : Env} {t u : Ty} (h : Static E t) (hu : u ∈ t.comps E) : Static E u := by
  intro w hw
  refine h w ?_
  induction hw with
  | refl => exact .step _ _ .refl hu
  | step a b _ hb ih => exact .step _ _ ih hb

theorem Static.unbox {E : Env} {t : Ty} (h : Static E t) : Static E t.unbox := by
  induction t using Ty.unbox.induct with
  | case1 t ih => rw [Ty.unbox]; exact ih (h.comp (by simp [Ty.comps]))
  | case2 t h' => rw [Ty.unbox]; exact h; exact h'

theorem subN_append (q : Obj → Bool) (n : String) (us ws : List Obj) :
    subN q n (us ++ ws) = subN q n us ++ subN q n ws := by simp [subN]

theorem subP_append (q : Obj → Bool) (i : Nat) (us ws : List Obj) :
    subP q i (us ++ ws) = subP q i us ++ subP q i ws := by simp [subP]

theorem subM_append (E : Env) (kt : Ty) (k : Obj) (us ws : List Obj) :
    subM E kt k (us ++ ws) = subM E kt k us ++ subM E kt k ws := by simp [subM]

/-- If two values become equal under `ws`, they also become equal under `us` followed by `ws`. -/
def Forgets (E : Env) (us ws : List Obj) (a b : Obj) : Prop :=
  patchSeq E a ws = patchSeq E b ws → patchSeq E a (us ++ ws) = patchSeq E b (us ++ ws)

theorem named_forgets {E : Env} {us ws : List Obj} (q : Obj → Bool) (g : List (String × Obj) → Obj)
    (hinj : ∀ a b, g a = g b → a = b)
    (hg : ∀ fs, ∀ v ∈ us ++ ws, patch E (g fs) v = if q v then g (patchNamed E v fs) else g fs)
    {fs fs' : List (String × Obj)}
    (ih : ∀ (i : Nat) n a b, fs[i]? = some (n, a) → fs'[i]? = some (n, b) →
      Forgets E (subN q n us) (subN q n ws) a b) : Forgets E us ws (g fs) (g fs') := by
  intro h
  have hw : ∀ fs, ∀ v ∈ ws, patch E (g fs) v = if q v then g (patchNamed E v fs) else g fs :=
    fun fs v hv => hg fs v (by simp [hv])
  rw [patchNamed_seq E q g ws hw, patchNamed_seq E q g ws hw] at h
  have h := hinj _ _ h
  rw [patchNamed_seq E q g _ hg, patchNamed_seq E q g _ hg]
  congr 1
  apply List.ext_getElem?
  intro i
  have hi := congrArg (fun l : List (String × Obj) => l[i]?) h
  simp only [List.getElem?_map] at hi ⊢
  cases hx : fs[i]? with
  | none => cases hy : fs'[i]? with
    | none => rfl
    | some b => simp [hx, hy] at hi
  | some a => cases hy : fs'[i]? with
    | none => simp [hx, hy] at hi
    | some b =>
      obtain ⟨n, a⟩ := a
      obtain ⟨m, b⟩ := b
      simp only [hx, hy, Option.map_some, Option.some.injEq, Prod.mk.injEq] at hi
      obtain ⟨rfl, hi⟩ := hi
      simp only [Option.map_some, Option.some.injEq, Prod.mk.injEq, true_and, subN_append]
      exact ih i _ a b hx hy hi

theorem pos_forgets {E : Env} {us ws : List Obj} (q : Obj → Bool) (g : List Obj → Obj)
    (hinj : ∀ a b, g a = g b → a = b)
    (hg : ∀ fs, ∀ v ∈ us ++ ws, patch E (g fs) v = if q v then g (patchPos E v fs) else g fs)
    {fs fs' : List Obj}
    (ih : ∀ (i : Nat) a b, fs[i]? = some a → fs'[i]? = some b →
      Forgets E (subP q i us) (subP q i ws) a b) : Forgets E us ws (g fs) (g fs') := by
  intro h
  have hw : ∀ fs, ∀ v ∈ ws, patch E (g fs) v = if q v then g (patchPos E v fs) else g fs :=
    fun fs v hv => hg fs v (by simp [hv])
  rw [patchPos_seq E q g ws hw, patchPos_seq E q g ws hw] at h
  have h := hinj _ _ h
  rw [patchPos_seq E q g _ hg, patchPos_seq E q g _ hg]
  congr 1
  apply List.ext_getElem?
  intro i
  have hi := congrArg (fun l : List Obj => l[i]?) h
  simp only [List.getElem?_mapIdx] at hi ⊢
  cases hx : fs[i]? with
  | none => cases hy : fs'[i]? with
    | none => rfl
    | some b => simp [hx, hy] at hi
  | some a => cases hy : fs'[i]? with
    | none => simp [hx, hy] at hi
    | some b =>
      simp only [hx, hy, Option.map_some, Option.some.injEq] at hi
      simp only [Option.map_some, Option.some.injEq, subP_append]
      exact ih i a b hx hy hi

theorem map_forgets {E : Env} (hO : OrdLaws E) {us ws : List Obj} (hok : ∀ p ∈ us ++ ws, p.OK E) {kt vt : Ty}
    {kvs kvs' : List (Obj × Obj)} (hs : BMSorted (E.kcmp kt) kvs) (hk : ∀ p ∈ kvs, HasTy E kt p.1)
    (hs' : BMSorted (E.kcmp kt) kvs') (hk' : ∀ p ∈ kvs', HasTy E kt p.1)
    (ih : ∀ k a b, (k, a) ∈ kvs → (k, b) ∈ kvs' → Forgets E (subM E kt k us) (subM E kt k ws) a b) :
    Forgets E us ws (.map kt vt kvs) (.map kt vt kvs') := by
  intro h
  have hw : ∀ p ∈ ws, p.OK E := fun p hp => hok p (by simp [hp])
  rw [patchMap_seq hO ws hw kvs hs hk, patchMap_seq hO ws hw kvs' hs' hk'] at h
  simp only [Obj.map.injEq, true_and] at h
  rw [patchMap_seq hO _ hok kvs hs hk, patchMap_seq hO _ hok kvs' hs' hk']
  congr 1
  apply List.ext_getElem?
  intro i
  have hi := congrArg (fun l : List (Obj × Obj) => l[i]?) h
  simp only [List.getElem?_map] at hi ⊢
  cases hx : kvs[i]? with
  | none => cases hy : kvs'[i]? with
    | none => rfl
    | some b => simp [hx, hy] at hi
  | some a => cases hy : kvs'[i]? with
    | none => simp [hx, hy] at hi
    | some b =>
      obtain ⟨n, a⟩ := a
      obtain ⟨m, b⟩ := b
      simp only [hx, hy, Option.map_some, Option.some.injEq, Prod.mk.injEq] at hi
      obtain ⟨rfl, hi⟩ := hi
      simp only [Option.map_some, Option.some.injEq, Prod.mk.injEq, true_and, subM_append]
      exact ih _ a b (List.mem_of_getElem? hx) (List.mem_of_getElem? hy) hi

/-- If each patch is, on `C`, constant or the identity, then whatever comes before is forgotten as well. -/
theorem forgets_of_const_or_id {E : Env} {C : Obj → Prop} {us ws : List Obj}
    (hC : ∀ p ∈ us ++ ws, ∀ x, C x → C (patch E x p))
    (h : ∀ p ∈ us ++ ws, (∃ c, ∀ x, C x → patch E x p = c) ∨ ∀ x, C x → patch E x p = x) {x y : Obj}
    (hx : C x) (hy : C y) : Forgets E us ws x y := by
  intro he
  by_cases hc : ∃ p ∈ us ++ ws, ∃ c, ∀ x, C x → patch E x p = c
  · obtain ⟨p, hp, c, hc⟩ := hc
    obtain ⟨d, hd⟩ := constOn_of_mem hC hp hc
    rw [hd x hx, hd y hy]
  · have hid : ∀ z, C z → ∀ p ∈ us ++ ws, patch E z p = z := fun z hz p hp => by
      rcases h p hp with h | h
      · exact absurd ⟨p, hp, h⟩ hc
      · exact h z hz
    rw [patchSeq_id (hid x hx), patchSeq_id (hid y hy)]
    rw [patchSeq_id fun p hp => hid x hx p (by simp [hp]), patchSeq_id fun p hp => hid y hy p (by simp [hp])] at he
    exact he

theorem named_comps {E : Env} {n : String} {fds : List FieldDef} {c : Bool}
    (hd : E.decl n = some ⟨.struct fds, c⟩ ∨ E.decl n = some ⟨.tupleStruct fds, c⟩) {i : Nat} {fd : FieldDef}
    (hi : fds[i]? = some fd) (hs : fd.skip = false) : fd.ty ∈ (Ty.named n).comps E := by
  have : fd.ty ∈ (fds.filter fun fd => !fd.skip).map (·.ty) :=
    List.mem_map_of_mem (List.mem_filter.mpr ⟨List.mem_of_getElem? hi, by simp [hs]⟩)
  rcases hd with hd | hd <;> simpa only [Ty.comps, hd] using this

theorem variant_comps {E : Env} {n vn : String} {vds : List VariantDef} {fds : List FieldDef} {c : Bool}
    (hd : E.decl n = some ⟨.enum vds, c⟩) (hv : VariantDef.struct vn fds ∈ vds ∨ VariantDef.tuple vn fds ∈ vds)
    {i : Nat} {fd : FieldDef} (hi : fds[i]? = some fd) (hs : fd.skip = false) : fd.ty ∈ (Ty.named n).comps E := by
  have : fd.ty ∈ (fds.filter fun fd => !fd.skip).map (·.ty) :=
    List.mem_map_of_mem (List.mem_filter.mpr ⟨List.mem_of_getElem? hi, by simp [hs]⟩)
  simp only [Ty.comps, hd, List.mem_flatMap]
  rcases hv with hv | hv
  · exact ⟨_, hv, this⟩
  · exact ⟨_, hv, this⟩

theorem static_ne {E : Env} {t : Ty} (h : Static E t) : t ≠ .value ∧ t ≠ .structValue ∧ t ≠ .tupleStructValue ∧
    t ≠ .tupleValue ∧ t ≠ .enumValue := h t .refl

theorem unbox_ne (t u : Ty) : t.unbox ≠ .box u := by
  induction t using Ty.unbox.induct with
  | case1 t ih => rw [Ty.unbox]; exact ih
  | case2 t h' => rw [Ty.unbox]; exact h' u; exact h'

/-- Of two values of a type without dynamic components: if `ws` makes them equal, then so do `us` followed by
`ws`. -/
theorem patchSeq_forgets {E : Env} (hD : DeclsOK E) (hO : OrdLaws E) (N : Nat) : ∀ us ws : List Obj, tot (us ++ ws) ≤ N →
    (∀ p ∈ us ++ ws, p.OK E) → ∀ (T : Ty), Static E T → ∀ x y : Obj,
    (x.isHidden = true ∧ y.isHidden = true ∨ HasTy E T x ∧ HasTy E T y) → Forgets E us ws x y := by
  induction N with
  | zero =>
    intro us ws hN _ T _ x y _
    cases hps : us ++ ws with
    | nil =>
      obtain ⟨rfl, rfl⟩ := List.append_eq_nil_iff.mp hps
      exact fun h => h
    | cons p ps => have := obj_size_pos p; rw [hps] at hN; simp [tot] at hN; omega
  | succ N ih =>
    intro us ws hN hok T hT x y hxy
    by_cases hne : us ++ ws = []
    · obtain ⟨rfl, rfl⟩ := List.append_eq_nil_iff.mp hne
      exact fun h => h
    rcases hxy with ⟨hx, hy⟩ | ⟨hx, hy⟩
    · intro h
      rw [patchSeq_hidden E hx, patchSeq_hidden E hy] at h ⊢
      exact h
    have ihN : ∀ (q : Obj → Bool) (n : String) (t : Ty), Static E t → ∀ a b,
        (a.isHidden = true ∧ b.isHidden = true ∨ HasTy E t a ∧ HasTy E t b) →
        Forgets E (subN q n us) (subN q n ws) a b := by
      intro q n t ht a b hab
      have h1 := subN_tot q n hne
      rw [subN_append] at h1
      refine ih _ _ (by omega) ?_ t ht a b hab
      rw [← subN_append]; exact subN_ok hok
    have ihP : ∀ (q : Obj → Bool) (n : Nat) (t : Ty), Static E t → ∀ a b,
        (a.isHidden = true ∧ b.isHidden = true ∨ HasTy E t a ∧ HasTy E t b) →
        Forgets E (subP q n us) (subP q n ws) a b := by
      intro q n t ht a b hab
      have h1 := subP_tot q n hne
      rw [subP_append] at h1
      refine ih _ _ (by omega) ?_ t ht a b hab
      rw [← subP_append]; exact subP_ok hok
    have ihM : ∀ (kt : Ty) (k : Obj) (t : Ty), Static E t → ∀ a b,
        HasTy E t a → HasTy E t b →
        Forgets E (subM E kt k us) (subM E kt k ws) a b := by
      intro kt k t ht a b ha hb
      have h1 := subM_tot E kt k hne
      rw [subM_append] at h1
      refine ih _ _ (by omega) ?_ t ht a b (.inr ⟨ha, hb⟩)
      rw [← subM_append]; exact subM_ok hok
    have hT' := hT.unbox
    have hx := hasTy_unbox.mpr hx
    have hy := hasTy_unbox.mpr hy
    have hb := unbox_ne T
    generalize T.unbox = U at hT' hx hy hb
    obtain ⟨n1, n2, n3, n4, n5⟩ := static_ne hT'
    -- derived enums
    have enum : ∀ {n : String} {vds : List VariantDef} {c : Bool}, E.decl n = some ⟨.enum vds, c⟩ → U = .named n →
        Forgets E us ws x y := by
      rintro n vds c hd rfl
      let C : Obj → Prop := fun y => HasTy E (.named n) y
      have shape : ∀ {z}, C z → z.kind = .enum ∧ z.typeOf = some (.named n) := by
        intro z hz
        cases hz with
        | struct _ _ _ _ h => rw [hd] at h; cases h
        | tupleStruct _ _ _ _ h => rw [hd] at h; cases h
        | enumS => exact ⟨rfl, rfl⟩
        | enumT => exact ⟨rfl, rfl⟩
        | enumU => exact ⟨rfl, rfl⟩
      have hC : ∀ p ∈ us ++ ws, ∀ y, C y → C (patch E y p) := fun p hp y hy => patch_hasTy hO p (hok p hp) hy
      by_cases hc : ∃ p ∈ us ++ ws, ∃ c, ∀ x, C x → patch E x p = c
      · obtain ⟨p, hp, c, hc⟩ := hc
        obtain ⟨d, hd⟩ := constOn_of_mem hC hp hc
        intro _
        rw [hd x hx, hd y hy]
      · have partG : ∀ y, y.kind = .enum → y.typeOf = some (.named n) → ∀ p ∈ us ++ ws, patch E y p =
            if p.kind = .enum ∧ p.variantName = y.variantName then patchFields E p y else y := by
          intro y hyk hyt p hp
          rw [patch_enum_derived E hyk hyt]
          split
          · next h =>
            refine absurd ⟨p, hp, p, fun z hz => ?_⟩ hc
            rw [patch_enum_derived E (shape hz).1 (shape hz).2, if_pos h]
          · next h =>
            split
            · next hpk =>
              split
              · next w hw =>
                refine absurd ⟨p, hp, w, fun z hz => ?_⟩ hc
                rw [patch_enum_derived E (shape hz).1 (shape hz).2, if_neg h, if_pos hpk, hw]
              · simp [hpk]
            · next hpk => simp [hpk]
        have gS : ∀ vn fs, ∀ v ∈ us ++ ws, patch E (.enumS (.derived n) vn fs) v =
            if decide (v.kind = .enum ∧ v.variantName = some vn) = true
            then .enumS (.derived n) vn (patchNamed E v fs) else .enumS (.derived n) vn fs := by
          intro vn fs v hv
          rw [partG _ rfl rfl v hv]
          simp only [patchFields, decide_eq_true_eq]
          rfl
        have gT : ∀ vn fs, ∀ v ∈ us ++ ws, patch E (.enumT (.derived n) vn fs) v =
            if decide (v.kind = .enum ∧ v.variantName = some vn) = true
            then .enumT (.derived n) vn (patchPos E v fs) else .enumT (.derived n) vn fs := by
          intro vn fs v hv
          rw [partG _ rfl rfl v hv]
          simp only [patchFields, decide_eq_true_eq]
          rfl
        have gU : ∀ vn, ∀ v ∈ us ++ ws, patch E (.enumU (.derived n) vn) v = .enumU (.derived n) vn := by
          intro vn v hv
          rw [partG _ rfl rfl v hv]
          simp [patchFields]
        have seqS : ∀ vn fs, ∃ gs, patchSeq E (.enumS (.derived n) vn fs) ws = .enumS (.derived n) vn gs := by
          intro vn fs
          exact ⟨_, patchNamed_seq E _ _ ws (fun fs v hv => gS vn fs v (by simp [hv])) fs⟩
        have seqT : ∀ vn fs, ∃ gs, patchSeq E (.enumT (.derived n) vn fs) ws = .enumT (.derived n) vn gs := by
          intro vn fs
          exact ⟨_, patchPos_seq E _ _ ws (fun fs v hv => gT vn fs v (by simp [hv])) fs⟩
        have seqU : ∀ vn, patchSeq E (.enumU (.derived n) vn) ws = .enumU (.derived n) vn := by
          intro vn
          exact patchSeq_id fun v hv => gU vn v (by simp [hv])
        intro h
        cases hx with
        | struct _ _ _ _ h' => rw [hd] at h'; cases h'
        | tupleStruct _ _ _ _ h' => rw [hd] at h'; cases h'
        | enumS _ vds1 c1 vn fds fs h1 h2 h3 h4 h5 =>
          obtain ⟨gs, hgs⟩ := seqS vn fs
          cases hy with
          | struct _ _ _ _ h' => rw [hd] at h'; cases h'
          | tupleStruct _ _ _ _ h' => rw [hd] at h'; cases h'
          | enumS _ vds2 c2 vn' fds' fs' k1 k2 k3 k4 k5 =>
            obtain ⟨gs', hgs'⟩ := seqS vn' fs'
            have hvn : vn = vn' := by rw [hgs, hgs'] at h; cases h; rfl
            subst hvn
            rw [h1] at k1; cases k1
            have := decl_variant_unique hD h1 h2 k2 rfl
            cases this
            refine named_forgets _ (.enumS (.derived n) vn) (fun a b h => by cases h; rfl) (gS vn) ?_ h
            intro i m a b ha hb
            have hi : i < fds.length := by
              have := (List.getElem?_eq_some_iff.mp ha).1
              have h3 := congrArg List.length h3
              simp at h3; omega
            obtain ⟨fd, hfd⟩ : ∃ fd, fds[i]? = some fd := ⟨_, List.getElem?_eq_getElem hi⟩
            cases hs : fd.skip with
            | true => exact ihN _ _ T hT _ _ (.inl ⟨h4 i fd _ hfd ha hs, k4 i fd _ hfd hb hs⟩)
            | false =>
              exact ihN _ _ fd.ty (hT'.comp (variant_comps h1 (.inl h2) hfd hs)) _ _
                (.inr ⟨h5 i fd _ hfd ha hs, k5 i fd _ hfd hb hs⟩)
          | enumT _ _ _ vn' _ fs' => obtain ⟨gs', hgs'⟩ := seqT vn' fs'; rw [hgs, hgs'] at h; cases h
          | enumU _ _ _ vn' => rw [hgs, seqU] at h; cases h
        | enumT _ vds1 c1 vn fds fs h1 h2 h3 h4 h5 =>
          obtain ⟨gs, hgs⟩ := seqT vn fs
          cases hy with
          | struct _ _ _ _ h' => rw [hd] at h'; cases h'
          | tupleStruct _ _ _ _ h' => rw [hd] at h'; cases h'
          | enumT _ vds2 c2 vn' fds' fs' k1 k2 k3 k4 k5 =>
            obtain ⟨gs', hgs'⟩ := seqT vn' fs'
            have hvn : vn = vn' := by rw [hgs, hgs'] at h; cases h; rfl
            subst hvn
            rw [h1] at k1; cases k1
            have := decl_variant_unique hD h1 h2 k2 rfl
            cases this
            refine pos_forgets _ (.enumT (.derived n) vn) (fun a b h => by cases h; rfl) (gT vn) ?_ h
            intro i a b ha hb
            have hi : i < fds.length := by
              have := (List.getElem?_eq_some_iff.mp ha).1
              omega
            obtain ⟨fd, hfd⟩ : ∃ fd, fds[i]? = some fd := ⟨_, List.getElem?_eq_getElem hi⟩
            cases hs : fd.skip with
            | true => exact ihP _ _ T hT _ _ (.inl ⟨h4 i fd _ hfd ha hs, k4 i fd _ hfd hb hs⟩)
            | false =>
              exact ihP _ _ fd.ty (hT'.comp (variant_comps h1 (.inr h2) hfd hs)) _ _
                (.inr ⟨h5 i fd _ hfd ha hs, k5 i fd _ hfd hb hs⟩)
          | enumS _ _ _ vn' _ fs' => obtain ⟨gs', hgs'⟩ := seqS vn' fs'; rw [hgs, hgs'] at h; cases h
          | enumU _ _ _ vn' => rw [hgs, seqU] at h; cases h
        | enumU _ _ _ vn =>
          cases hy with
          | struct _ _ _ _ h' => rw [hd] at h'; cases h'
          | tupleStruct _ _ _ _ h' => rw [hd] at h'; cases h'
          | enumS _ _ _ vn' _ fs' => obtain ⟨gs', hgs'⟩ := seqS vn' fs'; rw [hgs', seqU] at h; cases h
          | enumT _ _ _ vn' _ fs' => obtain ⟨gs', hgs'⟩ := seqT vn' fs'; rw [hgs', seqU] at h; cases h
          | enumU _ _ _ vn' =>
            rw [seqU, seqU] at h
            cases h; rfl
    cases hx with
    | scalar s =>
      generalize hk : s.kind = k at hy
      cases hy with
      | scalar s' => 
        refine forgets_of_const_or_id (C := fun y => ∃ s', y = .scalar s' ∧ s'.kind = s.kind) ?_ ?_
          ⟨s, rfl, rfl⟩ ⟨s', rfl, hk.symm⟩
        · rintro p hp _ ⟨s', rfl, hs'⟩
          rw [patch_scalar]
          split
          · next h =>
            obtain ⟨s'', rfl, hk⟩ := isTy_scalar_inv h
            exact ⟨s'', rfl, by rw [hk, hs']⟩
          · exact ⟨s', rfl, hs'⟩
        · intro p hp
          by_cases h : p.isTy (.scalar s.kind)
          · left
            refine ⟨p, ?_⟩
            rintro _ ⟨s', rfl, hs'⟩
            rw [patch_scalar, hs', if_pos h]
          · right
            rintro _ ⟨s', rfl, hs'⟩
            rw [patch_scalar, hs', if_neg h]
    | nonzero k n h0 =>
      refine forgets_of_const_or_id (C := HasTy E (.nonzero k)) ?_ ?_ (.nonzero k n h0) hy
      · exact fun p hp y hy => patch_hasTy hO p (hok p hp) hy
      · intro p hp
        cases hf : fromReflect E (.nonzero k) p with
        | some c => left; refine ⟨c, ?_⟩; intro y hy; cases hy; rw [patch_nonzero, hf]; rfl
        | none => right; intro y hy; cases hy; rw [patch_nonzero, hf]; rfl
    | struct n fds c fs h1 h3 h4 h5 =>
      cases hy with
      | struct _ fds' c' fs' k1 k3 k4 k5 =>
        rw [h1] at k1; cases k1
        refine named_forgets (fun v => decide (v.kind = .struct)) (.struct (.derived n)) (fun a b h => by cases h; rfl)
          (fun fs v _ => by rw [patch_struct]; simp only [decide_eq_true_eq]) ?_
        intro i m a b ha hb
        have hi : i < fds.length := by
          have := (List.getElem?_eq_some_iff.mp ha).1
          have h3 := congrArg List.length h3
          simp at h3; omega
        obtain ⟨fd, hfd⟩ : ∃ fd, fds[i]? = some fd := ⟨_, List.getElem?_eq_getElem hi⟩
        cases hs : fd.skip with
        | true => exact ihN _ _ T hT _ _ (.inl ⟨h4 i fd _ hfd ha hs, k4 i fd _ hfd hb hs⟩)
        | false =>
              exact ihN _ _ fd.ty (hT'.comp (named_comps (.inl h1) hfd hs)) _ _
                (.inr ⟨h5 i fd _ hfd ha hs, k5 i fd _ hfd hb hs⟩)
      | tupleStruct _ _ _ _ h' => rw [h1] at h'; cases h'
      | enumS _ _ _ _ _ _ h' => rw [h1] at h'; cases h'
      | enumT _ _ _ _ _ _ h' => rw [h1] at h'; cases h'
      | enumU _ _ _ _ h' => rw [h1] at h'; cases h'
    | tupleStruct n fds c fs h1 h3 h4 h5 =>
      cases hy with
      | tupleStruct _ fds' c' fs' k1 k3 k4 k5 =>
        rw [h1] at k1; cases k1
        refine pos_forgets (fun v => decide (v.kind = .tupleStruct)) (.tupleStruct (.derived n))
          (fun a b h => by cases h; rfl) (fun fs v _ => by rw [patch_tupleStruct]; simp only [decide_eq_true_eq]) ?_
        intro i a b ha hb
        have hi : i < fds.length := by
          have := (List.getElem?_eq_some_iff.mp ha).1
          omega
        obtain ⟨fd, hfd⟩ : ∃ fd, fds[i]? = some fd := ⟨_, List.getElem?_eq_getElem hi⟩
        cases hs : fd.skip with
        | true => exact ihP _ _ T hT _ _ (.inl ⟨h4 i fd _ hfd ha hs, k4 i fd _ hfd hb hs⟩)
        | false =>
              exact ihP _ _ fd.ty (hT'.comp (named_comps (.inr h1) hfd hs)) _ _
                (.inr ⟨h5 i fd _ hfd ha hs, k5 i fd _ hfd hb hs⟩)
      | struct _ _ _ _ h' => rw [h1] at h'; cases h'
      | enumS _ _ _ _ _ _ h' => rw [h1] at h'; cases h'
      | enumT _ _ _ _ _ _ h' => rw [h1] at h'; cases h'
      | enumU _ _ _ _ h' => rw [h1] at h'; cases h'
    | enumS n vds c vn fds fs h1 => exact enum h1 rfl
    | enumT n vds c vn fds fs h1 => exact enum h1 rfl
    | enumU n vds c vn h1 => exact enum h1 rfl
    | tuple ts fs h3 h5 =>
      cases hy with
      | tuple _ fs' k3 k5 =>
        refine pos_forgets (fun v => decide (v.kind = .tuple)) (.tuple (.typed ts))
          (fun a b h => by cases h; rfl) (fun fs v _ => by rw [patch_tuple]; simp only [decide_eq_true_eq]) ?_
        intro i a b ha hb
        have hi : i < ts.length := by
          have := (List.getElem?_eq_some_iff.mp ha).1
          omega
        obtain ⟨t, ht⟩ : ∃ t, ts[i]? = some t := ⟨_, List.getElem?_eq_getElem hi⟩
        exact ihP _ _ t (hT'.comp (by simp only [Ty.comps]; exact List.mem_of_getElem? ht)) _ _
          (.inr ⟨h5 i t _ ht ha, k5 i t _ ht hb⟩)
    | vec t fs h5 =>
      cases hy with
      | vec _ fs' k5 =>
        refine pos_forgets (fun v => decide (v.kind = .list)) (.vec t)
          (fun a b h => by cases h; rfl) (fun fs v _ => by rw [patch_vec]; simp only [decide_eq_true_eq]) ?_
        intro i a b ha hb
        exact ihP _ _ t (hT'.comp (by simp [Ty.comps])) _ _
          (.inr ⟨h5 _ (List.mem_of_getElem? ha), k5 _ (List.mem_of_getElem? hb)⟩)
    | array t fs h5 =>
      generalize hl : fs.length = l at hy
      cases hy with
      | array _ fs' k5 =>
        refine pos_forgets (fun v => decide (v.kind = .array)) (.array t)
          (fun a b h => by cases h; rfl) (fun fs v _ => by rw [patch_array]; simp only [decide_eq_true_eq]) ?_
        intro i a b ha hb
        exact ihP _ _ t (hT'.comp (by simp [Ty.comps])) _ _
          (.inr ⟨h5 _ (List.mem_of_getElem? ha), k5 _ (List.mem_of_getElem? hb)⟩)
    | map kt vt kvs hs hk hv =>
      cases hy with
      | map _ _ kvs' hs' hk' hv' =>
        refine map_forgets hO hok hs hk hs' hk' ?_
        intro k a b ha hb
        exact ihM kt k vt (hT'.comp (by simp [Ty.comps])) _ _ (hv _ ha) (hv' _ hb)
    | box t o h => exact absurd rfl (hb t)
    | value => exact absurd rfl n1
    | structValue => exact absurd rfl n2
    | tupleStructValue => exact absurd rfl n3
    | tupleValue => exact absurd rfl n4
    | enumValueS => exact absurd rfl n5
    | enumValueT => exact absurd rfl n5
    | enumValueU => exact absurd rfl n5

end Mirror
