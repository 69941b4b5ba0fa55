import Verif.Lemmas.PatchSelf
import Verif.Spec.PatchSelf

set_option linter.unusedSimpArgs false

/-!
# What patching a value with itself, or with its own `to_value`, does
-/

namespace Mirror

theorem patchNamed_map {E : Env} {src : Obj} {L : List (String × Obj)} {g : Obj → Obj}
    (hh : ∀ p ∈ L, p.2.isHidden = true → g p.2 = p.2)
    (h : ∀ p ∈ L, p.2.isHidden = false → ∃ w, src.field p.1 = some w ∧ patch E p.2 w = g p.2) :
    patchNamed E src L = L.map fun p => (p.1, g p.2) := by
  apply List.map_congr_left
  intro p hp
  cases hi : p.2.isHidden with
  | true => rw [patchO_of_hidden E hi, hh p hp hi]
  | false =>
    obtain ⟨w, hw, he⟩ := h p hp hi
    simp [hw, patchO, he]

theorem patchPos_map {E : Env} {src : Obj} {L : List Obj} {g : Obj → Obj}
    (hh : ∀ p ∈ L, p.isHidden = true → g p = p)
    (h : ∀ (i : Nat) y, L[i]? = some y → y.isHidden = false →
      ∃ w, src.fieldAt i = some w ∧ patch E y w = g y) : patchPos E src L = L.map g := by
  apply List.ext_getElem?
  intro i
  simp only [patchPos, List.getElem?_mapIdx, List.getElem?_map]
  cases hy : L[i]? with
  | none => rfl
  | some y =>
    cases hi : y.isHidden with
    | true => simp [patchO_of_hidden E hi, hh y (List.mem_of_getElem? hy) hi]
    | false =>
      obtain ⟨w, hw, he⟩ := h i y hy hi
      simp [hw, patchO, he]

theorem patchNamed_self_iff {E : Env} {src : Obj} {L : List (String × Obj)}
    (h : ∀ p ∈ L, p.2.isHidden = false → src.field p.1 = some p.2) :
    patchNamed E src L = L ↔ ∀ p ∈ L, patch E p.2 p.2 = p.2 := by
  have key : ∀ p ∈ L, patchO E p.2 (src.field p.1) = patch E p.2 p.2 := by
    intro p hp
    cases hi : p.2.isHidden with
    | true =>
      rw [patchO_of_hidden E hi]
      cases hp2 : p.2 <;> rw [hp2] at hi <;> simp [Obj.isHidden] at hi
      rw [patch_hidden]
    | false => rw [h p hp hi, patchO]
  constructor
  · intro he p hp
    have := map_reset_self he p hp
    have h2 := congrArg Prod.snd this
    simp only at h2
    rw [key p hp] at h2
    exact h2
  · intro he
    exact map_id_of_mem fun p hp => by rw [key p hp, he p hp]

theorem patchPos_self_iff {E : Env} {src : Obj} {L : List Obj}
    (h : ∀ (i : Nat) y, L[i]? = some y → y.isHidden = false → src.fieldAt i = some y) :
    patchPos E src L = L ↔ ∀ p ∈ L, patch E p p = p := by
  have key : ∀ (i : Nat) y, L[i]? = some y → patchO E y (src.fieldAt i) = patch E y y := by
    intro i y hy
    cases hi : y.isHidden with
    | true =>
      rw [patchO_of_hidden E hi]
      cases y <;> simp [Obj.isHidden] at hi
      rw [patch_hidden]
    | false => rw [h i y hy hi, patchO]
  constructor
  · intro he p hp
    obtain ⟨i, hi⟩ := List.getElem?_of_mem hp
    have := congrArg (·[i]?) he
    simp only [patchPos, List.getElem?_mapIdx, hi, Option.map_some, Option.some.injEq] at this
    rw [key i p hi] at this
    exact this
  · intro he
    apply List.ext_getElem?
    intro i
    simp only [patchPos, List.getElem?_mapIdx]
    cases hy : L[i]? with
    | none => rfl
    | some y => simp [key i y hy, he y (List.mem_of_getElem? hy)]

theorem filterMap_unique {α β} {f : α → Option β} {l : List α} {a : α} {b : β} (hn : l.Nodup)
    (ha : a ∈ l) (hf : f a = some b) (hu : ∀ c ∈ l, (f c).isSome = true → c = a) :
    l.filterMap f = [b] := by
  induction l with
  | nil => simp at ha
  | cons c l ih =>
    rw [List.nodup_cons] at hn
    rcases List.mem_cons.mp ha with rfl | ha'
    · have : l.filterMap f = [] := by
        rw [List.filterMap_eq_nil_iff]
        intro d hd
        cases hfd : f d with
        | none => rfl
        | some _ =>
          have := hu d (by simp [hd]) (by simp [hfd])
          subst this; exact absurd hd hn.1
      simp [hf, this]
    · have hc : f c = none := by
        cases hfc : f c with
        | none => rfl
        | some _ =>
          have := hu c (by simp) (by simp [hfc])
          subst this; exact absurd ha' hn.1
      rw [List.filterMap_cons, hc]
      exact ih hn.2 ha' fun d hd => hu d (by simp [hd])

theorem sorted_nodup {E : Env} (hO : OrdLaws E) {kt : Ty} {kvs : List (Obj × Obj)}
    (hs : BMSorted (E.kcmp kt) kvs) (hk : ∀ p ∈ kvs, HasTy E kt p.1) : kvs.Nodup := by
  refine List.Pairwise.imp_of_mem ?_ hs
  intro a b ha hb hab e
  subst e
  rw [(hO.cmpOn kt).refl _ (hk a ha)] at hab
  cases hab

theorem enumsReset_of_reset {x : Obj} (h : x.reset = x) : x.enumsReset = x := by
  induction x using Obj.ind with
  | h x ih =>
    have named : ∀ {fs : List (String × Obj)}, (∀ p ∈ fs, sizeOf p.2 < sizeOf x) →
        fs.map (fun p => (p.1, p.2.reset)) = fs → fs.map (fun p => (p.1, p.2.enumsReset)) = fs := by
      intro fs hs he
      apply map_id_of_mem
      intro p hp
      have := congrArg Prod.snd (map_reset_self he p hp)
      rw [ih p.2 (hs p hp) this]
    have posn : ∀ {fs : List Obj}, (∀ p ∈ fs, sizeOf p < sizeOf x) →
        fs.map (fun p => p.reset) = fs → fs.map (fun p => p.enumsReset) = fs := by
      intro fs hs he
      apply map_id_of_mem
      intro p hp
      exact ih p (hs p hp) (map_reset_self he p hp)
    cases x with
    | hidden d => rw [Obj.enumsReset]
    | scalar s => rw [Obj.enumsReset]
    | nonzero k n => rw [Obj.enumsReset]
    | enumU tag v => rw [Obj.enumsReset]
    | array t xs => rw [Obj.enumsReset]
    | enumS tag v fs => rw [Obj.enumsReset, h]
    | enumT tag v fs => rw [Obj.enumsReset, h]
    | struct tag fs =>
      rw [Obj.reset] at h; injection h with _ h
      rw [Obj.enumsReset, named (fun p hp => by have := sizeOf_snd_lt_of_mem hp; simp; omega) h]
    | tupleStruct tag fs =>
      rw [Obj.reset] at h; injection h with _ h
      rw [Obj.enumsReset, posn (fun p hp => by have := List.sizeOf_lt_of_mem hp; simp; omega) h]
    | tuple tag fs =>
      rw [Obj.reset] at h; injection h with _ h
      rw [Obj.enumsReset, posn (fun p hp => by have := List.sizeOf_lt_of_mem hp; simp; omega) h]
    | vec t fs =>
      rw [Obj.reset] at h; injection h with _ h
      rw [Obj.enumsReset, posn (fun p hp => by have := List.sizeOf_lt_of_mem hp; simp; omega) h]
    | map kt vt kvs =>
      rw [Obj.reset] at h; injection h with _ _ h
      rw [Obj.enumsReset]
      congr 1
      apply map_id_of_mem
      intro p hp
      have := congrArg Prod.snd (map_reset_self h p hp)
      rw [ih p.2 (by have := sizeOf_snd_lt_of_mem hp; simp; omega) this]

theorem enumsReset_hidden {x : Obj} (h : x.isHidden = true) : x.enumsReset = x := by
  cases x <;> simp [Obj.isHidden] at h
  rw [Obj.enumsReset]

/-- Patching a value with its own `to_value` resets the enums in it, and does nothing else. -/
theorem patch_toValue_eq {E : Env} (hD : DeclsOK E) (hO : OrdLaws E) (hK : KeysShown E)
    {x : Obj} (hx : x.OK E) (hg : x.NoGaps) : patch E x x.toValue.toObj = x.enumsReset := by
  induction x using Obj.ind with
  | h x ih =>
    have hnd := OK.named_nodup hD hO hx
    have hl := hg.last hO hx
    have dynCase : ∀ {v : Value}, v.WF → x = v.toObj → patch E x x.toValue.toObj = x.enumsReset :=
      fun h e => by
        rw [(dyn_patch_self hD hO hK h e).2, enumsReset_of_reset (by rw [e, toObj_reset])]
    have named : ∀ {fs : List (String × Obj)} {src : Obj},
        (∀ p ∈ visFields fs, p.2 ∈ x.parts) → (∀ p ∈ fs, sizeOf p.2 < sizeOf x) →
        (fs.map (·.1)).Nodup →
        (∀ n, src.field n = (lookup n (visFields fs)).map fun w => w.toValue.toObj) →
        patchNamed E src fs = fs.map fun p => (p.1, p.2.enumsReset) := by
      intro fs src hp hsz hn hf
      apply patchNamed_map (g := Obj.enumsReset) (fun p _ => enumsReset_hidden)
      intro p hpm hh
      have hm : p ∈ visFields fs := List.mem_filter.mpr ⟨hpm, by simp [hh]⟩
      have hnv : ((visFields fs).map (·.1)).Nodup := hn.sublist (List.filter_sublist.map _)
      refine ⟨_, by rw [hf, lookup_of_mem_nodup hnv (n := p.1) (x := p.2) hm]; rfl, ?_⟩
      exact ih p.2 (hsz p hpm) (hx.parts (hp p hm)) (hg.parts (hp p hm))
    have posn : ∀ {fs : List Obj} {src : Obj},
        (∀ p ∈ visPos fs, p ∈ x.parts) → (∀ p ∈ fs, sizeOf p < sizeOf x) → HiddenLast fs →
        (∀ i, src.fieldAt i = (visPos fs)[i]?.map fun w => w.toValue.toObj) →
        patchPos E src fs = fs.map fun p => p.enumsReset := by
      intro fs src hp hsz hlast hf
      apply patchPos_map (g := Obj.enumsReset) (fun p _ => enumsReset_hidden)
      intro i p hpi hh
      have hpm := List.mem_of_getElem? hpi
      have hm : p ∈ visPos fs := List.mem_filter.mpr ⟨hpm, by simp [hh]⟩
      refine ⟨_, by rw [hf, visAt_eq_visPos hlast (i := i) (x := p) (by simp [visAt, hpi, hh])]; rfl, ?_⟩
      exact ih p (hsz p hpm) (hx.parts (hp p hm)) (hg.parts (hp p hm))
    have derived : ∀ {n : String}, x.kind = .enum → x.typeOf = some (.named n) →
        x.toValue.toObj.kind = .enum → x.toValue.toObj.isTy (.named n) = false →
        patch E x x.toValue.toObj = x.reset := by
      intro n hk ht hk' ht'
      rw [patch_enum_derived E hk ht, ht', Bool.false_and, if_neg (by simp), if_pos hk',
        roundtrip_noGaps hD hO hK (OK.typed hO hx ht) hg]
    cases x with
    | hidden d => rw [patch_hidden, Obj.enumsReset]
    | scalar s => rw [Obj.toValue, Value.toObj, patch_scalar, Obj.enumsReset]; simp
    | nonzero k n =>
      rw [patch_nonzero, roundtrip_noGaps hD hO hK (OK.typed hO hx rfl) hg, Obj.enumsReset]; simp [Obj.reset]
    | struct tag fs =>
      cases tag with
      | derived n =>
        rw [toValue_struct, Value.toObj, patch_struct, if_pos (by rfl),
          named (fun p hp => List.mem_map_of_mem hp)
            (fun p hp => by have := sizeOf_snd_lt_of_mem hp; simp; omega) (hnd.1 _ _ rfl),
          Obj.enumsReset]
        intro m
        simp only [Obj.field, toObj_visFields]
        exact lookup_toValue (hnd.1 _ _ rfl) m
      | dyn ns =>
        cases OK.typed hO hx rfl with
        | structValue ns' fs' _ hw ho => exact dynCase hw ho
    | tupleStruct tag fs =>
      cases tag with
      | derived n =>
        rw [toValue_tupleStruct, Value.toObj, patch_tupleStruct, if_pos (by rfl),
          posn (fun p hp => hp)
            (fun p hp => by have := List.sizeOf_lt_of_mem hp; simp; omega) (hl.1 _ _ rfl),
          Obj.enumsReset]
        intro i
        simp only [Obj.fieldAt, toObj_visAt]
        simp [Function.comp_def]
      | dyn =>
        cases OK.typed hO hx rfl with
        | tupleStructValue fs' _ hw ho => exact dynCase hw ho
    | tuple tag fs =>
      cases tag with
      | typed ts =>
        have hall : visPos fs = fs := by
          rw [visPos, List.filter_eq_self]
          intro x hx'
          cases OK.typed hO hx rfl with
          | tuple _ _ hl h =>
            obtain ⟨i, hi⟩ := List.getElem?_of_mem hx'
            obtain ⟨t, ht⟩ := align_pos hl hi
            simp [(h i t x ht hi).not_hidden]
        rw [Obj.toValue, Value.toObj, patch_tuple, if_pos (by rfl),
          posn (fun p hp => hp)
            (fun p hp => by have := List.sizeOf_lt_of_mem hp; simp; omega) (hl.2.1 _ _ rfl),
          Obj.enumsReset]
        intro i
        simp only [Obj.fieldAt, toObj_visAt, hall]
        simp [Function.comp_def]
      | dyn =>
        cases OK.typed hO hx rfl with
        | tupleValue fs' _ hw ho => exact dynCase hw ho
    | enumS tag vn fs =>
      cases tag with
      | derived n =>
        rw [Obj.enumsReset]
        exact derived rfl rfl (by rw [toValue_enumS, Value.toObj]; rfl)
          (by rw [toValue_enumS, Value.toObj]; rfl)
      | dyn ns =>
        cases OK.typed hO hx rfl with
        | enumValueS v ns' fs' _ hw ho => exact dynCase hw ho
        | enumValueT v fs' _ hw ho => exact dynCase hw ho
        | enumValueU v _ ho => exact dynCase (.enumU v) ho
    | enumT tag vn fs =>
      cases tag with
      | derived n =>
        rw [Obj.enumsReset]
        exact derived rfl rfl (by rw [toValue_enumT, Value.toObj]; rfl)
          (by rw [toValue_enumT, Value.toObj]; rfl)
      | dyn =>
        cases OK.typed hO hx rfl with
        | enumValueS v ns' fs' _ hw ho => exact dynCase hw ho
        | enumValueT v fs' _ hw ho => exact dynCase hw ho
        | enumValueU v _ ho => exact dynCase (.enumU v) ho
    | enumU tag vn =>
      cases tag with
      | derived n =>
        rw [Obj.enumsReset, derived rfl rfl (by rw [Obj.toValue, Value.toObj]; rfl)
          (by rw [Obj.toValue, Value.toObj]; rfl), Obj.reset]
      | dyn => exact dynCase (.enumU vn) (by rw [Value.toObj])
    | array t xs => rw [Obj.toValue, Value.toObj, patch_array, Obj.enumsReset]; simp [Obj.kind]
    | vec t xs =>
      rw [Obj.toValue, Value.toObj, patch_vec, if_pos (by rfl), Obj.enumsReset,
        patchPos_map (g := Obj.enumsReset) (fun p _ => enumsReset_hidden)]
      intro i y hy _
      have hm := List.mem_of_getElem? hy
      refine ⟨y.toValue.toObj, by simp [Obj.fieldAt, hy], ?_⟩
      exact ih y (by have := List.sizeOf_lt_of_mem hm; simp; omega) (hx.parts hm) (hg.parts hm)
    | map kt vt kvs =>
      cases OK.typed hO hx rfl with
      | map _ _ _ hs hk hv =>
        have hgk : ∀ p ∈ kvs, p.1.NoGaps := fun p hp => hg.parts (by
          simp only [Obj.parts, List.mem_append]; exact .inl (List.mem_map_of_mem hp))
        have hgv : ∀ p ∈ kvs, p.2.NoGaps := fun p hp => hg.parts (by
          simp only [Obj.parts, List.mem_append]; exact .inr (List.mem_map_of_mem hp))
        have hvk := map_value_keys hO hK hs hk
        have hperm := bmCollect_perm hvk
        rw [Obj.toValue, Value.toObj, patch_map, patchEntries_eq hO _ _ _ hs hk, Obj.enumsReset]
        · congr 1
          apply List.map_congr_left
          intro p hp
          have hh : hits E kt p.1 ((bmCollect Value.cmp
              (kvs.map fun p => (p.1.toValue, p.2.toValue))).map
              fun p => (p.1.toObj, p.2.toObj)) = [p.2.toValue.toObj] := by
            rw [← List.perm_singleton]
            refine ((hperm.map fun p => (p.1.toObj, p.2.toObj)).filterMap _).trans ?_
            rw [List.perm_singleton, List.map_map, List.filterMap_map]
            have hself : ∀ q ∈ kvs, E.kcmp kt q.1 q.1.reset = .eq := fun q hq =>
              hK kt _ _ (hk q hq) ((hk q hq).reset hO hK) (by rw [toValue_reset, Value.cmp_self])
            apply filterMap_unique (sorted_nodup hO hs hk) hp
            · simp only [Function.comp_apply, roundtrip_noGaps hD hO hK (hk p hp) (hgk p hp), Option.bind_some]
              rw [if_pos ((hO.cmpOn kt).eq_symm (hk p hp) ((hk p hp).reset hO hK) (hself p hp))]
            · intro q hq hsome
              simp only [Function.comp_apply, roundtrip_noGaps hD hO hK (hk q hq) (hgk q hq), Option.bind_some] at hsome
              split at hsome
              · next hc =>
                rw [← (hO.cmpOn kt).eq_trans _ _ _ (hk q hq) ((hk q hq).reset hO hK) (hk p hp)
                  (hself q hq)] at hc
                exact sorted_key_unique (hO.cmpOn kt) hk hs hq hp hc
              · cases hsome
          rw [hh, patchSeq_cons, patchSeq_nil,
            ih p.2 (by have := sizeOf_snd_lt_of_mem hp; simp; omega) ⟨_, hv p hp⟩ (hgv p hp)]
        · intro p hp
          obtain ⟨r, hr', rfl⟩ := List.mem_map.mp hp
          obtain ⟨q, hq, rfl⟩ := List.mem_map.mp (hperm.mem_iff.mp hr')
          exact (hk q hq).toValue_wf.ok

/-- Every `opt_out(Clone)` enum that patching `x` with itself reaches converts, if at all, to
itself. -/
def SelfKept (E : Env) (x : Obj) : Prop :=
  ∀ z n y, SelfPatches E x z → z.optOutEnum E n → fromReflect E (.named n) z = some y → y = z

theorem notEnum_optOut {E : Env} {x : Obj} (h : x.kind ≠ .enum) (n : String) :
    ¬ x.optOutEnum E n := fun ho => h ho.1

theorem SelfKept.struct_iff {E : Env} {tag : STag} {fs : List (String × Obj)} :
    SelfKept E (.struct tag fs) ↔ ∀ p ∈ fs, SelfKept E p.2 := by
  constructor
  · intro h p hp z n y hz
    exact h z n y (.struct _ _ p _ hp hz)
  · intro h z n y hz ho
    cases hz with
    | here => exact absurd ho (notEnum_optOut (by simp [Obj.kind]) n)
    | struct _ _ p _ hp hz => exact h p hp z n y hz ho

theorem SelfKept.tupleStruct_iff {E : Env} {tag : TSTag} {fs : List Obj} :
    SelfKept E (.tupleStruct tag fs) ↔ ∀ p ∈ fs, SelfKept E p := by
  constructor
  · intro h p hp z n y hz
    exact h z n y (.tupleStruct _ _ p _ hp hz)
  · intro h z n y hz ho
    cases hz with
    | here => exact absurd ho (notEnum_optOut (by simp [Obj.kind]) n)
    | tupleStruct _ _ p _ hp hz => exact h p hp z n y hz ho

theorem SelfKept.tuple_iff {E : Env} {tag : TTag} {fs : List Obj} :
    SelfKept E (.tuple tag fs) ↔ ∀ p ∈ fs, SelfKept E p := by
  constructor
  · intro h p hp z n y hz
    exact h z n y (.tuple _ _ p _ hp hz)
  · intro h z n y hz ho
    cases hz with
    | here => exact absurd ho (notEnum_optOut (by simp [Obj.kind]) n)
    | tuple _ _ p _ hp hz => exact h p hp z n y hz ho

theorem SelfKept.vec_iff {E : Env} {t : Ty} {fs : List Obj} :
    SelfKept E (.vec t fs) ↔ ∀ p ∈ fs, SelfKept E p := by
  constructor
  · intro h p hp z n y hz
    exact h z n y (.vec _ _ p _ hp hz)
  · intro h z n y hz ho
    cases hz with
    | here => exact absurd ho (notEnum_optOut (by simp [Obj.kind]) n)
    | vec _ _ p _ hp hz => exact h p hp z n y hz ho

theorem SelfKept.array_iff {E : Env} {t : Ty} {fs : List Obj} :
    SelfKept E (.array t fs) ↔ ∀ p ∈ fs, SelfKept E p := by
  constructor
  · intro h p hp z n y hz
    exact h z n y (.array _ _ p _ hp hz)
  · intro h z n y hz ho
    cases hz with
    | here => exact absurd ho (notEnum_optOut (by simp [Obj.kind]) n)
    | array _ _ p _ hp hz => exact h p hp z n y hz ho

theorem SelfKept.map_iff {E : Env} {kt vt : Ty} {kvs : List (Obj × Obj)} :
    SelfKept E (.map kt vt kvs) ↔
      ∀ p ∈ kvs, (fromReflect E kt p.1).isSome = true → SelfKept E p.2 := by
  constructor
  · intro h p hp hc z n y hz
    exact h z n y (.map _ _ _ p _ hp hc hz)
  · intro h z n y hz ho
    cases hz with
    | here => exact absurd ho (notEnum_optOut (by simp [Obj.kind]) n)
    | map _ _ _ p _ hp hc hz => exact h p hp hc z n y hz ho

theorem patch_leaf_kept {E : Env} {x : Obj} (hk : x.kind ≠ .enum)
    (hl : ∀ z, SelfPatches E x z → z = x) : SelfKept E x := by
  intro z n y hz ho
  rw [hl z hz] at ho
  exact absurd ho (notEnum_optOut hk n)

/-- Exactly when patching a value with itself leaves it unchanged. -/
theorem patch_self_iff {E : Env} (hD : DeclsOK E) (hO : OrdLaws E) (hK : KeysShown E) {x : Obj}
    (hx : x.isHidden = true ∨ x.OK E) : patch E x x = x ↔ SelfKept E x := by
  induction x using Obj.ind with
  | h x ih =>
    rcases hx with hx | hx
    · cases x <;> simp [Obj.isHidden] at hx
      rw [patch_hidden]
      exact ⟨fun _ => patch_leaf_kept (by simp [Obj.kind]) (fun z h => by cases h; rfl), fun _ => rfl⟩
    have hnd := OK.named_nodup hD hO hx
    have named : ∀ {fs : List (String × Obj)}, (fs.map (·.1)).Nodup →
        (∀ p ∈ visFields fs, p.2 ∈ x.parts) → (∀ p ∈ fs, sizeOf p.2 < sizeOf x) →
        (∀ n, x.field n = lookup n (visFields fs)) →
        (patchNamed E x fs = fs ↔ ∀ p ∈ fs, SelfKept E p.2) := by
      intro fs hn hp hsz hf
      rw [patchNamed_self_iff]
      · refine forall_congr' fun p => forall_congr' fun hpm => ih p.2 (hsz p hpm) ?_
        cases hh : p.2.isHidden with
        | true => exact .inl rfl
        | false => exact .inr (hx.parts (hp p (List.mem_filter.mpr ⟨hpm, by simp [hh]⟩)))
      · intro p hpm hh
        have hm : p ∈ visFields fs := List.mem_filter.mpr ⟨hpm, by simp [hh]⟩
        have hnv : ((visFields fs).map (·.1)).Nodup := hn.sublist (List.filter_sublist.map _)
        rw [hf, lookup_of_mem_nodup hnv (n := p.1) (x := p.2) hm]
    have posn : ∀ {fs : List Obj},
        (∀ p ∈ visPos fs, p ∈ x.parts) → (∀ p ∈ fs, sizeOf p < sizeOf x) →
        (∀ (i : Nat) y, fs[i]? = some y → y.isHidden = false → x.fieldAt i = some y) →
        (patchPos E x fs = fs ↔ ∀ p ∈ fs, SelfKept E p) := by
      intro fs hp hsz hf
      rw [patchPos_self_iff hf]
      refine forall_congr' fun p => forall_congr' fun hpm => ih p (hsz p hpm) ?_
      cases hh : p.isHidden with
      | true => exact .inl rfl
      | false => exact .inr (hx.parts (hp p (List.mem_filter.mpr ⟨hpm, by simp [hh]⟩)))
    have hvisAt : ∀ {fs : List Obj} (i : Nat) y, fs[i]? = some y → y.isHidden = false →
        visAt fs i = some y := by
      intro fs i y hi hh; simp [visAt, hi, hh]
    have dynCase : x.reset = x → x.kind = .enum → x.typeOf = some .enumValue →
        (∀ z, SelfPatches E x z → z = x) → (patch E x x = x ↔ SelfKept E x) := by
      intro hr _ ht hz
      refine ⟨fun _ z n y h ho => ?_, fun _ => patch_self hD hO hK hx (.inr (.enum x hr))⟩
      rw [hz z h] at ho
      have := ho.2.1
      rw [ht] at this; cases this
    have derived : ∀ {n : String}, x.kind = .enum → x.typeOf = some (.named n) →
        (∀ z, SelfPatches E x z → z = x ∨ (x.optOutEnum E n ∧ fromReflect E (.named n) x = none)) →
        (x.optOutEnum E n → fromReflect E (.named n) x = none →
          (patchFields E x x = x ↔ SelfKept E x)) → (patch E x x = x ↔ SelfKept E x) := by
      intro n hk ht hz hp
      have hty : x.isTy (.named n) = true := by simp [Obj.isTy, ht]
      have hname : ∀ m, x.optOutEnum E m → m = n := by
        intro m ho
        have := ho.2.1
        rw [ht] at this; cases this; rfl
      rw [patch_enum_derived E hk ht, hty, Bool.true_and]
      by_cases ho : x.optOutEnum E n
      · have hc : (E.decl n).any (·.cloneOptOut) = true := by
          obtain ⟨_, _, d, hd, hc⟩ := ho; simp [hd, hc]
        rw [hc, if_neg (by simp), if_pos hk]
        cases hf : fromReflect E (.named n) x with
        | none => simp only [if_true]; exact hp ho hf
        | some y =>
          refine ⟨fun he z m w hz' hom hw => ?_, fun h => h x n y (.here x) ho hf⟩
          simp only at he
          rcases hz z hz' with rfl | ⟨_, hnone⟩
          · rw [hname m hom, hf] at hw
            cases hw; exact he
          · rw [hf] at hnone; cases hnone
      · have hc : (E.decl n).any (·.cloneOptOut) = false := by
          cases hd : E.decl n with
          | none => rfl
          | some d =>
            cases hcd : d.cloneOptOut with
            | true => exact absurd ⟨hk, ht, d, hd, hcd⟩ ho
            | false => simp [hcd]
        rw [hc, if_pos (by rfl)]
        refine ⟨fun _ z m w hz' hom _ => ?_, fun _ => rfl⟩
        rcases hz z hz' with rfl | ⟨h, _⟩
        · rw [hname m hom] at hom; exact absurd hom ho
        · exact absurd h ho
    cases x with
    | hidden d => rw [patch_hidden]; exact ⟨fun _ => patch_leaf_kept (by simp [Obj.kind])
        (fun z h => by cases h; rfl), fun _ => rfl⟩
    | scalar s =>
      refine ⟨fun _ => patch_leaf_kept (by simp [Obj.kind]) (fun z h => by cases h; rfl), fun _ => ?_⟩
      rw [patch_scalar]; simp
    | nonzero k n =>
      refine ⟨fun _ => patch_leaf_kept (by simp [Obj.kind]) (fun z h => by cases h; rfl), fun _ => ?_⟩
      rw [patch_nonzero]; simp [fromReflect_nonzero, Obj.isTy, Obj.typeOf]
    | struct tag fs =>
      rw [SelfKept.struct_iff, ← named (hnd.1 _ _ rfl) (fun p hp => List.mem_map_of_mem hp)
        (fun p hp => by have := sizeOf_snd_lt_of_mem hp; simp; omega) (fun _ => rfl),
        patch_struct, if_pos (by rfl)]
      simp
    | tupleStruct tag fs =>
      rw [SelfKept.tupleStruct_iff, ← posn (fun p hp => hp)
        (fun p hp => by have := List.sizeOf_lt_of_mem hp; simp; omega) hvisAt,
        patch_tupleStruct, if_pos (by rfl)]
      simp
    | tuple tag fs =>
      rw [SelfKept.tuple_iff, ← posn (fun p hp => hp)
        (fun p hp => by have := List.sizeOf_lt_of_mem hp; simp; omega) hvisAt,
        patch_tuple, if_pos (by rfl)]
      simp
    | vec t xs =>
      rw [SelfKept.vec_iff, ← posn (fs := xs) (fun p hp => (List.mem_filter.mp hp).1)
        (fun p hp => by have := List.sizeOf_lt_of_mem hp; simp; omega) (fun i y hy _ => hy),
        patch_vec, if_pos (by rfl)]
      simp
    | array t xs =>
      rw [SelfKept.array_iff, ← posn (fs := xs) (fun p hp => (List.mem_filter.mp hp).1)
        (fun p hp => by have := List.sizeOf_lt_of_mem hp; simp; omega) (fun i y hy _ => hy),
        patch_array, if_pos (by rfl)]
      simp
    | enumU tag vn =>
      cases tag with
      | derived n =>
        refine derived rfl rfl (fun z h => by cases h; exact .inl rfl) ?_
        intro ho hf
        refine ⟨fun _ z m y hz hom hy => ?_, fun _ => rfl⟩
        cases hz
        have := hom.2.1
        cases this
        rw [hf] at hy; cases hy
      | dyn => exact dynCase (by rw [Obj.reset]) rfl rfl (fun z h => by cases h; rfl)
    | enumS tag vn fs =>
      cases tag with
      | derived n =>
        refine derived rfl rfl (fun z h => ?_) ?_
        · cases h with
          | here => exact .inl rfl
          | enumS _ _ _ p _ ho hf _ _ => exact .inr ⟨ho, hf⟩
        intro ho hf
        have : SelfKept E (.enumS (.derived n) vn fs) ↔ ∀ p ∈ fs, SelfKept E p.2 := by
          constructor
          · intro h p hp z m y hz
            exact h z m y (.enumS _ _ _ p _ ho hf hp hz)
          · intro h z m y hz hom hy
            cases hz with
            | here => have := hom.2.1; cases this; rw [hf] at hy; cases hy
            | enumS _ _ _ p _ _ _ hp hz => exact h p hp z m y hz hom hy
        rw [this, ← named (hnd.2 _ _ _ rfl) (fun p hp => List.mem_map_of_mem hp)
          (fun p hp => by have := sizeOf_snd_lt_of_mem hp; simp; omega) (fun _ => rfl), patchFields]
        simp
      | dyn ns =>
        refine dynCase ?_ rfl rfl (fun z h => by cases h; rfl)
        cases OK.typed hO hx rfl with
        | enumValueS v ns' fs' _ hw ho => rw [ho, toObj_reset]
        | enumValueT v fs' _ hw ho => rw [ho, toObj_reset]
        | enumValueU v _ ho => rw [ho, toObj_reset]
    | enumT tag vn fs =>
      cases tag with
      | derived n =>
        refine derived rfl rfl (fun z h => ?_) ?_
        · cases h with
          | here => exact .inl rfl
          | enumT _ _ _ p _ ho hf _ _ => exact .inr ⟨ho, hf⟩
        intro ho hf
        have : SelfKept E (.enumT (.derived n) vn fs) ↔ ∀ p ∈ fs, SelfKept E p := by
          constructor
          · intro h p hp z m y hz
            exact h z m y (.enumT _ _ _ p _ ho hf hp hz)
          · intro h z m y hz hom hy
            cases hz with
            | here => have := hom.2.1; cases this; rw [hf] at hy; cases hy
            | enumT _ _ _ p _ _ _ hp hz => exact h p hp z m y hz hom hy
        rw [this, ← posn (fun p hp => hp)
          (fun p hp => by have := List.sizeOf_lt_of_mem hp; simp; omega) hvisAt, patchFields]
        simp
      | dyn =>
        refine dynCase ?_ rfl rfl (fun z h => by cases h; rfl)
        cases OK.typed hO hx rfl with
        | enumValueS v ns' fs' _ hw ho => rw [ho, toObj_reset]
        | enumValueT v fs' _ hw ho => rw [ho, toObj_reset]
        | enumValueU v _ ho => rw [ho, toObj_reset]
    | map kt vt kvs =>
      cases OK.typed hO hx rfl with
      | map _ _ _ hs hk hv =>
        rw [SelfKept.map_iff, patch_map, patchEntries_eq hO kvs (fun p hp => ⟨_, hk p hp⟩) _ hs hk]
        have conv : ∀ q ∈ kvs, ∀ k', fromReflect E kt q.1 = some k' →
            HasTy E kt k' ∧ E.kcmp kt q.1 k' = .eq := by
          intro q hq k' hk'
          have h1 := selfconv_sound hD hO hK (hk q hq) hk'
          have hty := fromReflect_sound hO kt q.1 ⟨_, hk q hq⟩ hk'
          exact ⟨hty, hK kt _ _ (hk q hq) hty (by
            rw [← toValue_reset q.1, ← toValue_reset k', h1, Value.cmp_self])⟩
        have only : ∀ p ∈ kvs, ∀ q ∈ kvs, (((fromReflect E kt q.1).bind fun k' =>
            if E.kcmp kt k' p.1 = .eq then some q.2 else none).isSome = true) → q = p := by
          intro p hp q hq hsome
          obtain ⟨w, hw⟩ := Option.isSome_iff_exists.mp hsome
          obtain ⟨k', hk', hw⟩ := Option.bind_eq_some_iff.mp hw
          split at hw
          · next hc =>
            rw [← (hO.cmpOn kt).eq_trans _ _ _ (hk q hq) (conv q hq k' hk').1 (hk p hp)
              (conv q hq k' hk').2] at hc
            exact sorted_key_unique (hO.cmpOn kt) hk hs hq hp hc
          · cases hw
        have hh : ∀ p ∈ kvs, patchSeq E p.2 (hits E kt p.1 kvs) =
            if (fromReflect E kt p.1).isSome = true then patch E p.2 p.2 else p.2 := by
          intro p hp
          cases hf : fromReflect E kt p.1 with
          | none =>
            have : hits E kt p.1 kvs = [] := by
              rw [hits, List.filterMap_eq_nil_iff]
              intro q hq
              cases hfq : (fromReflect E kt q.1).bind fun k' =>
                  if E.kcmp kt k' p.1 = .eq then some q.2 else none with
              | none => rfl
              | some w =>
                have := only p hp q hq (by rw [hfq]; rfl)
                subst this
                rw [hf] at hfq; cases hfq
            rw [this]; rfl
          | some k' =>
            have : hits E kt p.1 kvs = [p.2] := by
              apply filterMap_unique (sorted_nodup hO hs hk) hp _ (only p hp)
              rw [hf, Option.bind_some, if_pos ((hO.cmpOn kt).eq_symm (hk p hp) (conv p hp k' hf).1
                (conv p hp k' hf).2)]
            rw [this]; rfl
        have : ∀ p ∈ kvs, (patch E p.2 p.2 = p.2 ↔ SelfKept E p.2) := fun p hp =>
          ih p.2 (by have := sizeOf_snd_lt_of_mem hp; simp; omega) (.inr ⟨_, hv p hp⟩)
        rw [List.map_congr_left (fun p hp => by rw [hh p hp])]
        constructor
        · intro he p hp hc
          injection he with _ _ he
          have := congrArg Prod.snd (map_reset_self he p hp)
          simp only [hc, if_true] at this
          exact (‹∀ p ∈ kvs, (patch E p.2 p.2 = p.2 ↔ SelfKept E p.2)› p hp).mp this
        · intro he
          congr 1
          apply map_id_of_mem
          intro p hp
          split
          · next hc => rw [(this p hp).mpr (he p hp hc)]
          · rfl

end Mirror
