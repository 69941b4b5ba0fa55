import Verif.Lemmas.PatchFull

set_option linter.unusedSimpArgs false

/-!
# Exactly when patching with a dynamic value makes the contents equal
-/

namespace Mirror

theorem dyn_toValue {v : Value} {y : Obj} (h : v.WF) (hy : y = v.toObj) : y.toValue.toObj = y := by
  rw [hy, Value.toObj_toValue h]

theorem value_self {E : Env} {y : Obj} (h : HasTy E .value y) : y.toValue.toObj = y := by
  cases h with | value v _ hw ho => exact dyn_toValue hw ho

/-- Named fields of a list of dynamic values. -/
theorem dyn_field {gs : List (String × Value)} (hs : BMSorted strCmp gs)
    (hw : ∀ p ∈ gs, p.2.WF) (i : Nat) (q : String × Obj)
    (hq : (gs.map fun p => (p.1, p.2.toObj))[i]? = some q) :
    lookup q.1 (visFields (gs.map fun p => (p.1, p.2.toObj))) = some q.2.toValue.toObj := by
  rw [toObj_visFields]
  have hm := List.mem_of_getElem? hq
  obtain ⟨r, hr, rfl⟩ := List.mem_map.mp hm
  rw [Value.toObj_toValue (hw r hr)]
  refine lookup_of_mem_nodup ?_ hm
  rw [List.map_map]
  exact strSorted_nodup hs

theorem derived_field {gs : List (String × Obj)} (hn : (gs.map (·.1)).Nodup) (i : Nat)
    (q : String × Obj) (hq : gs[i]? = some q) (hh : q.2.isHidden = false) :
    lookup q.1 ((bmOfList strCmp ((visFields gs).map fun p => (p.1, p.2.toValue))).map
      fun p => (p.1, p.2.toObj)) = some q.2.toValue.toObj := by
  have hnv : ((visFields gs).map (·.1)).Nodup := hn.sublist (List.filter_sublist.map _)
  rw [lookup_toValue hn, lookup_of_mem_nodup hnv
    (List.mem_filter.mpr ⟨List.mem_of_getElem? hq, by simp [hh]⟩)]
  rfl

theorem struct_value_field {E : Env} (hD : DeclsOK E) (hO : OrdLaws E) {tag : STag}
    {gs : List (String × Obj)} (hy : (Obj.struct tag gs).OK E) :
    (Obj.struct tag gs).toValue.toObj.kind = .struct ∧
    ∀ (i : Nat) q, gs[i]? = some q → q.2.isHidden = false →
      (Obj.struct tag gs).toValue.toObj.field q.1 = some q.2.toValue.toObj := by
  have hnd := (OK.named_nodup hD hO hy).1 _ _ rfl
  cases tag with
  | derived n =>
    rw [toValue_struct, Value.toObj]
    refine ⟨rfl, fun i q hq hh => ?_⟩
    simp only [Obj.field, toObj_visFields]
    exact derived_field hnd i q hq hh
  | dyn ns =>
    cases OK.typed hO hy rfl with
    | structValue ns' fs' _ hw ho =>
      rw [dyn_toValue hw ho]
      refine ⟨rfl, fun i q hq hh => ?_⟩
      rw [Value.toObj] at ho; cases ho
      cases hw with | struct _ _ _ hs h1 => exact dyn_field hs h1 i q hq

theorem enumS_value_field {E : Env} (hD : DeclsOK E) (hO : OrdLaws E) {tag : STag} {vn : String}
    {gs : List (String × Obj)} (hy : (Obj.enumS tag vn gs).OK E) :
    ∀ (i : Nat) q, gs[i]? = some q → q.2.isHidden = false →
      (Obj.enumS tag vn gs).toValue.toObj.field q.1 = some q.2.toValue.toObj := by
  have hnd := (OK.named_nodup hD hO hy).2 _ _ _ rfl
  cases tag with
  | derived n =>
    rw [toValue_enumS, Value.toObj]
    refine fun i q hq hh => ?_
    simp only [Obj.field, toObj_visFields]
    exact derived_field hnd i q hq hh
  | dyn ns =>
    cases OK.typed hO hy rfl with
    | enumValueT v fs' _ hw ho => rw [Value.toObj] at ho; cases ho
    | enumValueU v _ ho => rw [Value.toObj] at ho; cases ho
    | enumValueS v ns' fs' _ hw ho =>
      rw [dyn_toValue hw ho]
      refine fun i q hq hh => ?_
      rw [Value.toObj] at ho; cases ho
      cases hw with | enumS _ _ _ _ hs h1 => exact dyn_field hs h1 i q hq

theorem derived_pos {gs : List Obj} (hl : HiddenLast gs) (i : Nat) (q : Obj) (hq : gs[i]? = some q)
    (hh : q.isHidden = false) :
    visAt (((visPos gs).map fun x => x.toValue).map fun x => x.toObj) i = some q.toValue.toObj := by
  rw [toObj_visAt, List.getElem?_map, visAt_eq_visPos hl (visAt_some hq hh)]
  rfl

theorem dyn_pos {gs : List Value} (hw : ∀ p ∈ gs, p.WF) (i : Nat) (q : Obj)
    (hq : (gs.map fun p => p.toObj)[i]? = some q) :
    visAt (gs.map fun p => p.toObj) i = some q.toValue.toObj := by
  rw [toObj_visAt, ← List.getElem?_map, hq]
  obtain ⟨r, hr, rfl⟩ := List.mem_map.mp (List.mem_of_getElem? hq)
  rw [Value.toObj_toValue (hw r hr)]

theorem tupleStruct_value_field {E : Env} (hO : OrdLaws E) {tag : TSTag}
    {gs : List Obj} (hy : (Obj.tupleStruct tag gs).OK E) (hg : (Obj.tupleStruct tag gs).NoGaps) :
    (Obj.tupleStruct tag gs).toValue.toObj.kind = .tupleStruct ∧
    ∀ (i : Nat) q, gs[i]? = some q → q.isHidden = false →
      (Obj.tupleStruct tag gs).toValue.toObj.fieldAt i = some q.toValue.toObj := by
  have hl := (hg.last hO hy).1 _ _ rfl
  cases tag with
  | derived n =>
    rw [toValue_tupleStruct, Value.toObj]
    exact ⟨rfl, fun i q hq hh => derived_pos hl i q hq hh⟩
  | dyn =>
    cases OK.typed hO hy rfl with
    | tupleStructValue fs' _ hw ho =>
      rw [dyn_toValue hw ho]
      refine ⟨rfl, fun i q hq hh => ?_⟩
      rw [Value.toObj] at ho; cases ho
      cases hw with | tupleStruct _ h1 => exact dyn_pos h1 i q hq

theorem enumT_value_field {E : Env} (hO : OrdLaws E) {tag : TSTag} {vn : String}
    {gs : List Obj} (hy : (Obj.enumT tag vn gs).OK E) (hg : (Obj.enumT tag vn gs).NoGaps) :
    ∀ (i : Nat) q, gs[i]? = some q → q.isHidden = false →
      (Obj.enumT tag vn gs).toValue.toObj.fieldAt i = some q.toValue.toObj := by
  have hl := (hg.last hO hy).2.2 _ _ _ rfl
  cases tag with
  | derived n =>
    rw [toValue_enumT, Value.toObj]
    exact fun i q hq hh => derived_pos hl i q hq hh
  | dyn =>
    cases OK.typed hO hy rfl with
    | enumValueS v ns fs' _ hw ho => rw [Value.toObj] at ho; cases ho
    | enumValueU v _ ho => rw [Value.toObj] at ho; cases ho
    | enumValueT v fs' _ hw ho =>
      rw [dyn_toValue hw ho]
      refine fun i q hq hh => ?_
      rw [Value.toObj] at ho; cases ho
      cases hw with | enumT _ _ h1 => exact dyn_pos h1 i q hq

theorem tuple_value_field {E : Env} (hO : OrdLaws E) {tag : TTag}
    {gs : List Obj} (hy : (Obj.tuple tag gs).OK E) :
    (Obj.tuple tag gs).toValue.toObj.kind = .tuple ∧
    ∀ (i : Nat) q, gs[i]? = some q →
      (Obj.tuple tag gs).toValue.toObj.fieldAt i = some q.toValue.toObj := by
  cases tag with
  | typed ts =>
    rw [Obj.toValue, Value.toObj]
    refine ⟨rfl, fun i q hq => ?_⟩
    rw [Obj.fieldAt, toObj_visAt, List.getElem?_map, hq]; rfl
  | dyn =>
    cases OK.typed hO hy rfl with
    | tupleValue fs' _ hw ho =>
      rw [dyn_toValue hw ho]
      refine ⟨rfl, fun i q hq => ?_⟩
      rw [Value.toObj] at ho; cases ho
      cases hw with | tuple _ h1 => exact dyn_pos h1 i q hq

theorem ValueFills.kind {x y : Obj} (h : ValueFills x y) : y.kind = x.kind := by
  cases h with
  | replaced n _ _ h1 h2 => rw [h1, h2]
  | otherVariant _ _ h1 h2 => rw [h1, h2]
  | _ => rfl

theorem enum_value_shape {y : Obj} (hk : y.kind = .enum) :
    y.toValue.toObj.kind = .enum ∧ y.toValue.toObj.typeOf = some .enumValue ∧
      y.toValue.toObj.variantName = y.variantName := by
  cases y <;> simp only [Obj.kind, reduceCtorEq] at hk
  case enumS tag vn fs =>
    cases tag with
    | derived n => rw [toValue_enumS, Value.toObj]; exact ⟨rfl, rfl, rfl⟩
    | dyn ns => rw [Obj.toValue, Value.toObj]; exact ⟨rfl, rfl, rfl⟩
  case enumT tag vn fs =>
    cases tag with
    | derived n => rw [toValue_enumT, Value.toObj]; exact ⟨rfl, rfl, rfl⟩
    | dyn => rw [Obj.toValue, Value.toObj]; exact ⟨rfl, rfl, rfl⟩
  case enumU tag vn => rw [Obj.toValue, Value.toObj]; exact ⟨rfl, rfl, rfl⟩

theorem patch_kind {E : Env} (hO : OrdLaws E) {x v : Obj} (hx : x.OK E) (hv : v.OK E) :
    (patch E x v).kind = x.kind := by
  have enum : x.kind = .enum → (patch E x v).kind = x.kind := by
    intro hk
    rw [hk]
    rcases enum_type hO hk hx with h | ⟨n, vds, c, h, hd⟩
    · cases patch_hasTy hO _ hv (OK.typed hO hx h) with
      | enumValueS _ _ _ _ _ ho => rw [ho, Value.toObj]; rfl
      | enumValueT _ _ _ _ ho => rw [ho, Value.toObj]; rfl
      | enumValueU _ _ ho => rw [ho, Value.toObj]; rfl
    · exact (enum_typeOf hd (patch_hasTy hO _ hv (OK.typed hO hx h))).1
  cases x with
  | hidden d => rw [patch_hidden]
  | enumS => exact enum rfl
  | enumT => exact enum rfl
  | enumU => exact enum rfl
  | struct => rw [patch_struct]; split <;> rfl
  | tupleStruct => rw [patch_tupleStruct]; split <;> rfl
  | tuple => rw [patch_tuple]; split <;> rfl
  | vec => rw [patch_vec]; split <;> rfl
  | array => rw [patch_array]; split <;> rfl
  | map kt vt fs => cases v <;> simp only [patch] <;> rfl
  | scalar s =>
    rw [patch_scalar]
    split
    · next h => obtain ⟨s', rfl, _⟩ := isTy_scalar_inv h; rfl
    · rfl
  | nonzero k n =>
    rw [patch_nonzero]
    cases h : fromReflect E (.nonzero k) v with
    | none => rfl
    | some z => cases fromReflect_sound hO _ _ hv h; rfl

/-- Which entries of the dynamic value of `gs` reach the entry of a map with the same keys. -/
theorem value_hits_same_keys {E : Env} (hD : DeclsOK E) (hO : OrdLaws E) (hK : KeysShown E)
    {kt : Ty} {gs : List (Obj × Obj)} (hs : BMSorted (E.kcmp kt) gs)
    (hk : ∀ p ∈ gs, HasTy E kt p.1) (hg : ∀ p ∈ gs, p.1.NoGaps) {q : Obj × Obj} (hq : q ∈ gs) {k : Obj} (hkt : HasTy E kt k)
    (he : k.reset = q.1.reset) :
    hits E kt k ((bmCollect Value.cmp (gs.map fun p => (p.1.toValue, p.2.toValue))).map
      fun p => (p.1.toObj, p.2.toObj)) = [q.2.toValue.toObj] := by
  have hperm := bmCollect_perm (map_value_keys hO hK hs hk)
  have hkq : E.kcmp kt k q.1 = .eq := hK kt _ _ hkt (hk q hq) (by
    rw [← toValue_reset k, ← toValue_reset q.1, he, Value.cmp_self])
  have hself : ∀ r ∈ gs, E.kcmp kt r.1 r.1.reset = .eq := fun r hr =>
    hK kt _ _ (hk r hr) ((hk r hr).reset hO hK) (by rw [toValue_reset, Value.cmp_self])
  rw [← List.perm_singleton]
  refine ((hperm.map fun p => (p.1.toObj, p.2.toObj)).filterMap _).trans ?_
  rw [List.perm_singleton, List.map_map, List.filterMap_map]
  apply filterMap_unique (sorted_nodup hO hs hk) hq
  · simp only [Function.comp_apply, roundtrip_noGaps hD hO hK (hk q hq) (hg q hq), Option.bind_some]
    rw [if_pos]
    have h1 := (hO.cmpOn kt).eq_symm (hk q hq) ((hk q hq).reset hO hK) (hself q hq)
    rw [(hO.cmpOn kt).eq_trans _ _ _ ((hk q hq).reset hO hK) (hk q hq) hkt h1]
    exact (hO.cmpOn kt).eq_symm hkt (hk q hq) hkq
  · intro r hr hsome
    simp only [Function.comp_apply, roundtrip_noGaps hD hO hK (hk r hr) (hg r hr), Option.bind_some] at hsome
    split at hsome
    · next hc =>
      rw [← (hO.cmpOn kt).eq_trans _ _ _ (hk r hr) ((hk r hr).reset hO hK) hkt (hself r hr)] at hc
      have hc' := (hO.cmpOn kt).eq_symm (hk r hr) hkt hc
      have h3 := (hO.cmpOn kt).eq_trans k r.1 q.1 hkt (hk r hr) (hk q hq) hc'
      rw [hkq] at h3
      exact sorted_key_unique (hO.cmpOn kt) hk hs hr hq h3.symm
    · cases hsome

/-- Exactly when patching with `y.to_value()` makes the shown content that of `y`. -/
theorem patch_value_fills_iff_aux {E : Env} (hD : DeclsOK E) (hO : OrdLaws E) (hK : KeysShown E)
    (x : Obj) : ∀ y : Obj, x.OK E → y.OK E → y.NoGaps → y.kind = x.kind →
      ((patch E x y.toValue.toObj).reset = y.reset ↔ ValueFills x y) := by
  induction x using Obj.ind with
  | h x ih =>
    intro y hx hy hg hk
    have hyv : y.toValue.toObj.OK E := by
      obtain ⟨T, hT⟩ := hy; exact hT.toValue_wf.ok
    have ih' : ∀ p : Obj, sizeOf p < sizeOf x → ∀ q, p.OK E → q.OK E → q.NoGaps →
        ((patch E p q.toValue.toObj).reset = q.reset ↔ ValueFills p q) := by
      intro p hp q h1 h2 h4
      by_cases hk' : q.kind = p.kind
      · exact ih p hp q h1 h2 h4 hk'
      · constructor
        · intro he
          exfalso
          obtain ⟨T, hT⟩ := h2
          have h3 := congrArg Obj.kind he
          rw [reset_kind, reset_kind, patch_kind hO h1 hT.toValue_wf.ok] at h3
          exact hk' h3.symm
        · intro h; exact absurd h.kind hk'
    have named : ∀ {fx fy : List (String × Obj)} {src : Obj},
        (∀ p ∈ fx, sizeOf p.2 < sizeOf x) → (∀ q ∈ (visFields fy).map (·.2), q.NoGaps) →
        (∀ (i : Nat) q, fy[i]? = some q → q.2.isHidden = false →
          src.field q.1 = some q.2.toValue.toObj) →
        (∀ (i : Nat) p q, fx[i]? = some p → fy[i]? = some q → Alike E p.2 q.2) →
        (((patchNamed E src fx).map fun p => (p.1, p.2.reset)) = (fy.map fun p => (p.1, p.2.reset)) ↔
          fx.map (·.1) = fy.map (·.1) ∧
          ∀ (i : Nat) p q, fx[i]? = some p → fy[i]? = some q → ValueFills p.2 q.2) := by
      intro fx fy src hsz hgy hf hal
      apply patchNamed_iff (g := fun q => q.toValue.toObj) (fun _ _ => .hidden _ _) hf
      intro _ i p q hp hq
      rcases hal i p q hp hq with h | ⟨h1, h2, h3⟩
      · exact .inl h
      · exact .inr ⟨h1, ih' p.2 (hsz p (List.mem_of_getElem? hp)) q.2 h2 h3
          (hgy _ (List.mem_map_of_mem (List.mem_filter.mpr ⟨List.mem_of_getElem? hq, by simp [h1]⟩)))⟩
    have posn : ∀ {fx fy : List Obj} {src : Obj},
        (∀ p ∈ fx, sizeOf p < sizeOf x) → (∀ q ∈ visPos fy, q.NoGaps) →
        (∀ (i : Nat) q, fy[i]? = some q → q.isHidden = false →
          src.fieldAt i = some q.toValue.toObj) →
        (∀ (i : Nat) p q, fx[i]? = some p → fy[i]? = some q → Alike E p q) →
        (((patchPos E src fx).map fun p => p.reset) = (fy.map fun p => p.reset) ↔
          fx.length = fy.length ∧
          ∀ (i : Nat) p q, fx[i]? = some p → fy[i]? = some q → ValueFills p q) := by
      intro fx fy src hsz hgy hf hal
      apply patchPos_iff (g := fun q => q.toValue.toObj) (fun _ _ => .hidden _ _) hf
      intro _ i p q hp hq
      rcases hal i p q hp hq with h | ⟨h1, h2, h3⟩
      · exact .inl h
      · exact .inr ⟨h1, ih' p (hsz p (List.mem_of_getElem? hp)) q h2 h3
          (hgy _ (List.mem_filter.mpr ⟨List.mem_of_getElem? hq, by simp [h1]⟩))⟩
    have enum : x.kind = .enum → ((patch E x y.toValue.toObj).reset = y.reset ↔ ValueFills x y) := by
      intro hkx
      have hky : y.kind = .enum := hk.trans hkx
      obtain ⟨sk, st, sv⟩ := enum_value_shape hky
      have same : ValueFills x y → x.typeOf = y.typeOf := by
        intro h
        cases h with
        | replaced n _ _ _ _ h1 h2 => rw [h1, h2]
        | otherVariant _ _ _ _ h1 h2 => rw [h1, h2]
        | enumS tag => cases tag <;> rfl
        | enumT tag => cases tag <;> rfl
        | enumU tag => cases tag <;> rfl
        | _ => simp [Obj.kind] at hkx
      have samet : (patch E x y.toValue.toObj).reset = y.reset → x.typeOf = y.typeOf := by
        intro he
        have h1 := congrArg Obj.typeOf he
        rw [reset_typeOf, reset_typeOf] at h1
        rw [← h1]
        obtain ⟨T, hT⟩ : ∃ T, x.typeOf = some T := by
          rcases enum_type hO hkx hx with h | ⟨n, _, _, h, _⟩ <;> exact ⟨_, h⟩
        have h2 := patch_hasTy hO _ hyv (OK.typed hO hx hT)
        rcases enum_type hO hkx hx with h | ⟨n, vds, c, h, hd⟩
        · rw [h] at hT; cases hT
          rw [h]
          cases h2 with
          | enumValueS v ns fs _ _ ho => rw [ho, Value.toObj]; rfl
          | enumValueT v fs _ _ ho => rw [ho, Value.toObj]; rfl
          | enumValueU v _ ho => rw [ho, Value.toObj]; rfl
        · rw [h] at hT; cases hT
          rw [h, (enum_typeOf hd h2).2]
      by_cases hty : x.typeOf = y.typeOf
      rotate_left
      · exact ⟨fun h => absurd (samet h) hty, fun h => absurd (same h) hty⟩
      rcases enum_type hO hkx hx with ht | ⟨n, vds, c, ht, hd⟩
      · have hty' := hty.symm.trans ht
        rw [patch_enum_dyn E hkx ht, if_pos sk]
        by_cases hv : y.toValue.toObj.variantName = x.variantName
        · rw [if_pos hv]
          have hvn : x.variantName = y.variantName := by rw [← hv, sv]
          constructor
          · intro he
            cases x <;> simp only [Obj.kind, reduceCtorEq] at hkx
            case enumS tag vn fs =>
              rw [patchFields, Obj.reset] at he
              cases y <;> rw [Obj.reset] at he <;> try (cases he; done)
              rename_i tag' vn' gs
              injection he with e1 e2 e3
              subst e1 e2
              obtain ⟨a, b⟩ := (named
                (fun p hp => by have := sizeOf_snd_lt_of_mem hp; simp; omega) (fun q hq => hg.parts hq)
                (enumS_value_field hD hO hy) (alike_enumS hD hO hx hy)).mp e3
              exact .enumS _ _ _ _ a b
            case enumT tag vn fs =>
              rw [patchFields, Obj.reset] at he
              cases y <;> rw [Obj.reset] at he <;> try (cases he; done)
              rename_i tag' vn' gs
              injection he with e1 e2 e3
              subst e1 e2
              obtain ⟨a, b⟩ := (posn
                (fun p hp => by have := List.sizeOf_lt_of_mem hp; simp; omega) (fun q hq => hg.parts hq)
                (enumT_value_field hO hy hg) (alike_enumT hD hO hx hy)).mp e3
              exact .enumT _ _ _ _ a b
            case enumU tag vn =>
              rw [patchFields, Obj.reset] at he
              · cases y <;> rw [Obj.reset] at he <;> cases he
                exact .enumU _ _
              · intros; contradiction
              · intros; contradiction
          · intro h
            cases h with
            | replaced m _ _ _ _ h1 _ => rw [ht] at h1; cases h1
            | otherVariant _ _ _ _ _ _ hne => exact absurd hvn hne
            | enumS tag vn fs gs a b =>
              rw [patchFields, Obj.reset, Obj.reset, (named
                (fun p hp => by have := sizeOf_snd_lt_of_mem hp; simp; omega) (fun q hq => hg.parts hq)
                (enumS_value_field hD hO hy) (alike_enumS hD hO hx hy)).mpr ⟨a, b⟩]
            | enumT tag vn fs gs a b =>
              rw [patchFields, Obj.reset, Obj.reset, (posn
                (fun p hp => by have := List.sizeOf_lt_of_mem hp; simp; omega) (fun q hq => hg.parts hq)
                (enumT_value_field hO hy hg) (alike_enumT hD hO hx hy)).mpr ⟨a, b⟩]
            | enumU tag vn => rfl
            | _ => simp [Obj.kind] at hkx
        · rw [if_neg hv]
          refine ⟨fun _ => .otherVariant _ _ hkx hky ht hty' (fun e => hv (by rw [sv, e])), fun _ => ?_⟩
          obtain ⟨z, hz⟩ := fromReflect_enumValue_some E sk
          rw [hz]
          have h1 := selfconv_sound hD hO hK (OK.typed hO hyv st) hz
          rw [Option.getD_some, h1, toObj_reset]
          have h2 := (OK.typed hO hy hty').of_enumValue
          rw [← toObj_reset, value_self h2]
      · have hty' := hty.symm.trans ht
        refine ⟨fun _ => .replaced n _ _ hkx hky ht hty', fun _ => ?_⟩
        have his : y.toValue.toObj.isTy (.named n) = false := by simp [Obj.isTy, st]
        rw [patch_enum_derived E hkx ht, his, Bool.false_and, if_neg (by simp), if_pos sk,
          roundtrip_noGaps hD hO hK (OK.typed hO hy hty') hg]
        exact reset_reset y
    cases x with
    | hidden d => obtain ⟨T, hT⟩ := hx; exact absurd hT.not_hidden (by simp [Obj.isHidden])
    | enumS => exact enum rfl
    | enumT => exact enum rfl
    | enumU => exact enum rfl
    | scalar s =>
      rw [patch_scalar]
      cases y <;> simp only [Obj.kind, reduceCtorEq] at hk
      case scalar s' =>
        rw [Obj.toValue, Value.toObj]
        by_cases hs : s.kind = s'.kind
        · rw [if_pos (by simp [Obj.isTy, Obj.typeOf, hs])]
          exact ⟨fun _ => .scalar _ _ hs, fun _ => rfl⟩
        · rw [if_neg (by simp [Obj.isTy, Obj.typeOf]; exact fun e => hs e.symm)]
          constructor
          · intro he
            rw [Obj.reset, Obj.reset] at he; cases he; exact absurd rfl hs
          · intro h
            cases h with
            | scalar _ _ h => exact absurd h hs
            | replaced _ _ _ h => simp [Obj.kind] at h
            | otherVariant _ _ h => simp [Obj.kind] at h
      case nonzero k n =>
        constructor
        · intro he
          split at he
          · rw [toObj_reset, Obj.toValue, Value.toObj, Obj.reset] at he; cases he
          · rw [Obj.reset, Obj.reset] at he; cases he
        · intro h
          cases h with
          | replaced _ _ _ h => simp [Obj.kind] at h
          | otherVariant _ _ h => simp [Obj.kind] at h
    | nonzero k m =>
      rw [patch_nonzero]
      cases y <;> simp only [Obj.kind, reduceCtorEq] at hk
      case scalar s =>
        constructor
        · intro he
          exfalso
          cases hf : fromReflect E (.nonzero k) (Obj.scalar s).toValue.toObj with
          | none => rw [hf] at he; simp [Obj.reset] at he
          | some z =>
            rw [hf] at he
            cases fromReflect_sound hO _ _ hyv hf
            simp [Obj.reset] at he
        · intro h
          cases h with
          | replaced _ _ _ h => simp [Obj.kind] at h
          | otherVariant _ _ h => simp [Obj.kind] at h
      case nonzero k' n =>
        by_cases hkk : k' = k
        · subst hkk
          refine ⟨fun _ => .nonzero _ _ _, fun _ => ?_⟩
          rw [roundtrip_noGaps hD hO hK (OK.typed hO hy rfl) hg]
          simp [Obj.reset]
        · constructor
          · intro he
            exfalso
            cases hf : fromReflect E (.nonzero k) (Obj.nonzero k' n).toValue.toObj with
            | none => rw [hf] at he; simp [Obj.reset] at he; exact hkk he.1.symm
            | some z =>
              rw [hf] at he
              cases fromReflect_sound hO _ _ hyv hf
              simp [Obj.reset] at he
              exact hkk he.1.symm
          · intro h
            cases h with
            | nonzero => exact absurd rfl hkk
            | replaced _ _ _ h => simp [Obj.kind] at h
            | otherVariant _ _ h => simp [Obj.kind] at h
    | struct tag fs =>
      cases y <;> simp only [Obj.kind, reduceCtorEq] at hk
      rename_i tag' gs
      obtain ⟨k1, f1⟩ := struct_value_field hD hO hy
      rw [patch_struct, if_pos k1, Obj.reset, Obj.reset]
      constructor
      · intro he
        injection he with e1 e2
        subst e1
        obtain ⟨a, b⟩ := (named
          (fun p hp => by have := sizeOf_snd_lt_of_mem hp; simp; omega) (fun q hq => hg.parts hq) f1
          (alike_struct hO hx hy)).mp e2
        exact .struct _ _ _ a b
      · intro h
        cases h with
        | struct _ _ _ a b =>
          rw [(named
            (fun p hp => by have := sizeOf_snd_lt_of_mem hp; simp; omega) (fun q hq => hg.parts hq) f1
            (alike_struct hO hx hy)).mpr ⟨a, b⟩]
        | replaced _ _ _ h => simp [Obj.kind] at h
        | otherVariant _ _ h => simp [Obj.kind] at h
    | tupleStruct tag fs =>
      cases y <;> simp only [Obj.kind, reduceCtorEq] at hk
      rename_i tag' gs
      obtain ⟨k1, f1⟩ := tupleStruct_value_field hO hy hg
      rw [patch_tupleStruct, if_pos k1, Obj.reset, Obj.reset]
      constructor
      · intro he
        injection he with e1 e2
        subst e1
        obtain ⟨a, b⟩ := (posn
          (fun p hp => by have := List.sizeOf_lt_of_mem hp; simp; omega) (fun q hq => hg.parts hq) f1
          (alike_tupleStruct hO hx hy)).mp e2
        exact .tupleStruct _ _ _ a b
      · intro h
        cases h with
        | tupleStruct _ _ _ a b =>
          rw [(posn
            (fun p hp => by have := List.sizeOf_lt_of_mem hp; simp; omega) (fun q hq => hg.parts hq) f1
            (alike_tupleStruct hO hx hy)).mpr ⟨a, b⟩]
        | replaced _ _ _ h => simp [Obj.kind] at h
        | otherVariant _ _ h => simp [Obj.kind] at h
    | tuple tag fs =>
      cases y <;> simp only [Obj.kind, reduceCtorEq] at hk
      rename_i tag' gs
      obtain ⟨k1, f1⟩ := tuple_value_field hO hy
      rw [patch_tuple, if_pos k1, Obj.reset, Obj.reset]
      constructor
      · intro he
        injection he with e1 e2
        subst e1
        obtain ⟨a, b⟩ := (posn
          (fun p hp => by have := List.sizeOf_lt_of_mem hp; simp; omega) (fun q hq => hg.parts hq) (fun i q hq _ => f1 i q hq)
          (alike_tuple hO hx hy)).mp e2
        exact .tuple _ _ _ a b
      · intro h
        cases h with
        | tuple _ _ _ a b =>
          rw [(posn
            (fun p hp => by have := List.sizeOf_lt_of_mem hp; simp; omega) (fun q hq => hg.parts hq) (fun i q hq _ => f1 i q hq)
            (alike_tuple hO hx hy)).mpr ⟨a, b⟩]
        | replaced _ _ _ h => simp [Obj.kind] at h
        | otherVariant _ _ h => simp [Obj.kind] at h
    | vec t fs =>
      cases y <;> simp only [Obj.kind, reduceCtorEq] at hk
      rename_i t' gs
      have al : ∀ (i : Nat) p q, fs[i]? = some p → gs[i]? = some q → Alike E p q := by
        intro i p q hp hq
        have h2 := hy.parts (x := q) (List.mem_of_getElem? hq)
        obtain ⟨T, hT⟩ := h2
        exact .inr ⟨hT.not_hidden, hx.parts (x := p) (List.mem_of_getElem? hp), ⟨T, hT⟩⟩
      have key := posn (fy := gs) (src := (Obj.vec t' gs).toValue.toObj)
          (fun p hp => by have := List.sizeOf_lt_of_mem hp; simp; omega) (fun q hq => hg.parts (List.mem_filter.mp hq).1)
          (fun i q hq hh => by rw [Obj.toValue, Value.toObj]; simp [Obj.fieldAt, hq]) al
      rw [patch_vec, if_pos (by rw [Obj.toValue, Value.toObj]; rfl), Obj.reset, Obj.reset]
      constructor
      · intro he
        injection he with e1 e2
        subst e1
        obtain ⟨a, b⟩ := key.mp e2
        exact .vec _ _ _ a b
      · intro h
        cases h with
        | vec _ _ _ a b => rw [key.mpr ⟨a, b⟩]
        | replaced _ _ _ h => simp [Obj.kind] at h
        | otherVariant _ _ h => simp [Obj.kind] at h
    | array t fs =>
      cases y <;> simp only [Obj.kind, reduceCtorEq] at hk
      rename_i t' gs
      rw [Obj.toValue, Value.toObj, patch_array, if_neg (by simp [Obj.kind]), Obj.reset, Obj.reset]
      constructor
      · intro he
        injection he with e1 e2
        subst e1
        exact .array _ _ _ e2
      · intro h
        cases h with
        | array _ _ _ a => rw [a]
        | replaced _ _ _ h => simp [Obj.kind] at h
        | otherVariant _ _ h => simp [Obj.kind] at h
    | map kt vt fs =>
      cases y <;> simp only [Obj.kind, reduceCtorEq] at hk
      rename_i kt' vt' gs
      cases OK.typed hO hx rfl with
      | map _ _ _ hs1 hk1 hv1 =>
      cases OK.typed hO hy rfl with
      | map _ _ _ hs2 hk2 hv2 =>
      have hperm := bmCollect_perm (map_value_keys hO hK hs2 hk2)
      rw [Obj.toValue, Value.toObj, patch_map, patchEntries_eq hO _ _ _ hs1 hk1, Obj.reset, Obj.reset,
        List.map_map]
      rotate_left
      · intro p hp
        obtain ⟨r, hr', rfl⟩ := List.mem_map.mp hp
        obtain ⟨q, hq, rfl⟩ := List.mem_map.mp (hperm.mem_iff.mp hr')
        exact (hk2 q hq).toValue_wf.ok
      simp only [Function.comp_def]
      have key : kt = kt' → ∀ (i : Nat) p q, fs[i]? = some p → gs[i]? = some q →
          p.1.reset = q.1.reset → patchSeq E p.2 (hits E kt p.1
            ((bmCollect Value.cmp (gs.map fun p => (p.1.toValue, p.2.toValue))).map
              fun p => (p.1.toObj, p.2.toObj))) = patch E p.2 q.2.toValue.toObj := by
        rintro rfl i p q hp hq he
        rw [value_hits_same_keys hD hO hK hs2 hk2 (fun r hr => hg.parts (by
            simp only [Obj.parts, List.mem_append]; exact .inl (List.mem_map_of_mem hr))) (List.mem_of_getElem? hq)
          (hk1 p (List.mem_of_getElem? hp)) he]
        rfl
      have ihv : ∀ (i : Nat) p q, fs[i]? = some p → gs[i]? = some q →
          ((patch E p.2 q.2.toValue.toObj).reset = q.2.reset ↔ ValueFills p.2 q.2) := by
        intro i p q hp hq
        have hpm := List.mem_of_getElem? hp
        exact ih' p.2 (by have := sizeOf_snd_lt_of_mem hpm; simp; omega) q.2 ⟨_, hv1 p hpm⟩
          ⟨_, hv2 q (List.mem_of_getElem? hq)⟩ (hg.parts (by
            simp only [Obj.parts, List.mem_append]
            exact .inr (List.mem_map_of_mem (List.mem_of_getElem? hq))))
      constructor
      · intro he
        injection he with e1 e2 e3
        subst e1 e2
        have hlen : fs.length = gs.length := by simpa using congrArg List.length e3
        have hent := fun (i : Nat) p q (hp : fs[i]? = some p) (hq : gs[i]? = some q) => by
          have h1 := congrArg (·[i]?) e3
          simp only [List.getElem?_map, hp, hq, Option.map_some, Option.some.injEq,
            Prod.mk.injEq] at h1
          exact h1
        refine .map _ _ _ _ hlen (fun i p q hp hq => (hent i p q hp hq).1) ?_
        intro i p q hp hq
        obtain ⟨h1, h2⟩ := hent i p q hp hq
        rw [key rfl i p q hp hq h1] at h2
        exact (ihv i p q hp hq).mp h2
      · intro h
        cases h with
        | map _ _ _ _ hlen h1 h2 =>
          congr 1
          apply ext_idx hlen
          intro i p q hp hq
          have hk' := h1 i p q hp hq
          rw [key rfl i p q hp hq hk', hk', (ihv i p q hp hq).mpr (h2 i p q hp hq)]
        | replaced _ _ _ h => simp [Obj.kind] at h
        | otherVariant _ _ h => simp [Obj.kind] at h

theorem patch_value_fills_iff {E : Env} (hD : DeclsOK E) (hO : OrdLaws E) (hK : KeysShown E)
    {x y : Obj} (hx : x.OK E) (hy : y.OK E) (hg : y.NoGaps) :
    (patch E x y.toValue.toObj).reset = y.reset ↔ ValueFills x y := by
  by_cases hk : y.kind = x.kind
  · exact patch_value_fills_iff_aux hD hO hK x y hx hy hg hk
  · constructor
    · intro he
      exfalso
      obtain ⟨T, hT⟩ := hy
      have h3 := congrArg Obj.kind he
      rw [reset_kind, reset_kind, patch_kind hO hx hT.toValue_wf.ok] at h3
      exact hk h3.symm
    · intro h; exact absurd h.kind hk

end Mirror
