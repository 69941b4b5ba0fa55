import Verif.Lemmas.PatchHistory
import Verif.Lemmas.PatchSpec
import Verif.Lemmas.Address

set_option linter.unusedSimpArgs false

/-!
# Patches that do not meet commute; covered patches leave no trace
-/

namespace Mirror

theorem patch_ok {E : Env} (hO : OrdLaws E) {x v : Obj} (hx : x.OK E) (hv : v.OK E) : (patch E x v).OK E := by
  obtain ⟨T, hT⟩ := hx
  exact ⟨T, patch_hasTy hO v hv hT⟩

/-- Two patches have the same effect in either order, on every proper value and skipped field. -/
def Commute' (E : Env) (v w : Obj) : Prop :=
  ∀ x : Obj, (x.isHidden = true ∨ x.OK E) → patch E (patch E x v) w = patch E (patch E x w) v

theorem patch_okh {E : Env} (hO : OrdLaws E) {x v : Obj} (hx : x.isHidden = true ∨ x.OK E) (hv : v.OK E) :
    (patch E x v).isHidden = true ∨ (patch E x v).OK E := by
  rcases hx with hx | hx
  · left
    cases x <;> simp [Obj.isHidden] at hx
    rw [patch_hidden]; rfl
  · exact .inr (patch_ok hO hx hv)

theorem patchSeq_okh {E : Env} (hO : OrdLaws E) {vs : List Obj} (hv : ∀ v ∈ vs, v.OK E) : ∀ {x : Obj},
    (x.isHidden = true ∨ x.OK E) → (patchSeq E x vs).isHidden = true ∨ (patchSeq E x vs).OK E := by
  induction vs with
  | nil => exact fun h => h
  | cons v vs ih =>
    intro x hx
    rw [patchSeq_cons]
    exact ih (fun v h => hv v (by simp [h])) (patch_okh hO hx (hv v (by simp)))

theorem commute_list {E : Env} (hO : OrdLaws E) {v : Obj} {ws : List Obj} (hv : v.OK E) (hw : ∀ w ∈ ws, w.OK E)
    (h : ∀ w ∈ ws, Commute' E v w) : ∀ {x : Obj}, (x.isHidden = true ∨ x.OK E) →
    patchSeq E (patch E x v) ws = patch E (patchSeq E x ws) v := by
  induction ws with
  | nil => intro x _; rfl
  | cons w ws ih =>
    intro x hx
    rw [patchSeq_cons, patchSeq_cons, h w (by simp) x hx]
    exact ih (fun w h => hw w (by simp [h])) (fun w hw => h w (by simp [hw])) (patch_okh hO hx (hw w (by simp)))

theorem commute_lists {E : Env} (hO : OrdLaws E) {vs ws : List Obj} (hv : ∀ v ∈ vs, v.OK E)
    (hw : ∀ w ∈ ws, w.OK E) (h : ∀ v ∈ vs, ∀ w ∈ ws, Commute' E v w) : ∀ {x : Obj},
    (x.isHidden = true ∨ x.OK E) → patchSeq E (patchSeq E x vs) ws = patchSeq E (patchSeq E x ws) vs := by
  induction vs with
  | nil => intro x _; rfl
  | cons v vs ih =>
    intro x hx
    rw [patchSeq_cons, patchSeq_cons, ih (fun v h => hv v (by simp [h])) (fun v hv => h v (by simp [hv]))
      (patch_okh hO hx (hv v (by simp))), commute_list hO (hv v (by simp)) hw (h v (by simp)) hx]

theorem patchO_commute {E : Env} {a b : Option Obj} (h : ∀ v w, a = some v → b = some w → Commute' E v w) {x : Obj}
    (hx : x.isHidden = true ∨ x.OK E) : patchO E (patchO E x a) b = patchO E (patchO E x b) a := by
  cases a with
  | none => rfl
  | some v => cases b with
    | none => rfl
    | some w => exact h v w rfl rfl x hx

theorem commute_named {E : Env} {v w : Obj} (h : ∀ n a b, v.field n = some a → w.field n = some b → Commute' E a b)
    {fs : List (String × Obj)} (hfs : ∀ p ∈ fs, p.2.isHidden = true ∨ p.2.OK E) :
    patchNamed E w (patchNamed E v fs) = patchNamed E v (patchNamed E w fs) := by
  simp only [patchNamed, List.map_map]
  apply List.map_congr_left
  intro p hp
  simp only [Function.comp]
  rw [patchO_commute (fun a b => h p.1 a b) (hfs p hp)]

theorem commute_pos {E : Env} {v w : Obj} (h : ∀ i a b, v.fieldAt i = some a → w.fieldAt i = some b → Commute' E a b)
    {fs : List Obj} (hfs : ∀ p ∈ fs, p.isHidden = true ∨ p.OK E) :
    patchPos E w (patchPos E v fs) = patchPos E v (patchPos E w fs) := by
  simp only [patchPos, List.mapIdx_mapIdx]
  apply List.ext_getElem?
  intro i
  simp only [List.getElem?_mapIdx]
  cases hp : fs[i]? with
  | none => rfl
  | some p =>
    simp only [Option.map_some, Function.comp]
    rw [patchO_commute (fun a b => h i a b) (hfs p (List.mem_of_getElem? hp))]

/-- Patches that do not meet commute. -/
theorem apart_commute {E : Env} (hD : DeclsOK E) (hO : OrdLaws E) {v w : Obj} (h : DoNotMeet E v w) :
    v.OK E → w.OK E → Commute' E v w := by
  induction h with
  | kinds v w hk =>
    intro hv hw x hx
    rcases hx with hx | hx
    · cases x <;> simp [Obj.isHidden] at hx
      rw [patch_hidden, patch_hidden, patch_hidden]
    by_cases h1 : v.kind = x.kind
    · have h2 : w.kind ≠ x.kind := fun h => hk (h1.trans h.symm)
      rw [patch_other_kind hO hx hw h2, patch_other_kind hO (patch_ok hO hx hv) hw (by rwa [patch_kind hO hx hv])]
    · rw [patch_other_kind hO hx hv h1, patch_other_kind hO (patch_ok hO hx hw) hv (by rwa [patch_kind hO hx hw])]
  | structs v w h1 h2 _ ih =>
    intro hv hw x hx
    rcases hx with hx | hx
    · cases x <;> simp [Obj.isHidden] at hx
      rw [patch_hidden, patch_hidden, patch_hidden]
    by_cases hk : x.kind = .struct
    · have hkids := kids_ok hx
      cases x <;> simp [Obj.kind] at hk
      rename_i tag fs
      simp only [patch_struct, if_pos h1, if_pos h2]
      congr 1
      exact commute_named (fun n a b ha hb => ih n a b ha hb (OK_field hv ha) (OK_field hw hb))
        fun p hp => hkids _ (List.mem_map_of_mem hp)
    · rw [patch_other_kind hO hx hv (by rw [h1]; exact fun h => hk h.symm),
        patch_other_kind hO hx hw (by rw [h2]; exact fun h => hk h.symm),
        patch_other_kind hO hx hv (by rw [h1]; exact fun h => hk h.symm)]
  | positions v w h1 h2 _ ih =>
    intro hv hw x hx
    rcases hx with hx | hx
    · cases x <;> simp [Obj.isHidden] at hx
      rw [patch_hidden, patch_hidden, patch_hidden]
    by_cases hk : x.kind = v.kind
    · have hkids := kids_ok hx
      have ih' : ∀ i a b, v.fieldAt i = some a → w.fieldAt i = some b → Commute' E a b :=
        fun i a b ha hb => ih i a b ha hb (OK_fieldAt hv ha) (OK_fieldAt hw hb)
      have h3 : w.kind = x.kind := by rw [hk, h1]
      rw [← hk] at h2
      cases x <;> simp [Obj.kind] at h2
      case tupleStruct tag fs =>
        have e1 : v.kind = .tupleStruct := hk.symm
        have e2 : w.kind = .tupleStruct := h3
        simp only [patch_tupleStruct, e1, e2, if_true]
        congr 1
        exact commute_pos ih' hkids
      case tuple tag fs =>
        have e1 : v.kind = .tuple := hk.symm
        have e2 : w.kind = .tuple := h3
        simp only [patch_tuple, e1, e2, if_true]
        congr 1
        exact commute_pos ih' hkids
      case vec tag fs =>
        have e1 : v.kind = .list := hk.symm
        have e2 : w.kind = .list := h3
        simp only [patch_vec, e1, e2, if_true]
        congr 1
        exact commute_pos ih' hkids
      case array tag fs =>
        have e1 : v.kind = .array := hk.symm
        have e2 : w.kind = .array := h3
        simp only [patch_array, e1, e2, if_true]
        congr 1
        exact commute_pos ih' hkids
    · rw [patch_other_kind hO hx hv (fun h => hk h.symm),
        patch_other_kind hO hx hw (fun h => hk (h.symm.trans h1.symm)),
        patch_other_kind hO hx hv (fun h => hk h.symm)]
  | maps t u t' u' m m' _ ih =>
    intro hv hw x hx
    rcases hx with hx | hx
    · cases x <;> simp [Obj.isHidden] at hx
      rw [patch_hidden, patch_hidden, patch_hidden]
    by_cases hk : x.kind = .map
    · cases x <;> simp [Obj.kind] at hk
      rename_i kt vt kvs
      have hokv : ∀ p ∈ [Obj.map t u m], p.OK E := by simpa using hv
      have hokw : ∀ p ∈ [Obj.map t' u' m'], p.OK E := by simpa using hw
      cases OK.typed hO hx rfl with
      | map _ _ _ hs hkt hvt =>
        have key : ∀ (v : Obj), v.OK E → ∀ kvs : List (Obj × Obj), BMSorted (E.kcmp kt) kvs →
            (∀ p ∈ kvs, HasTy E kt p.1) → patch E (.map kt vt kvs) v =
            .map kt vt (kvs.map fun p => (p.1, patchSeq E p.2 (subM E kt p.1 [v]))) := by
          intro v hv kvs hs hk
          exact patchMap_seq hO [v] (by simpa using hv) kvs hs hk
        have sub : ∀ t u k (m : List (Obj × Obj)), subM E kt k [.map t u m] = hits E kt k m := by
          intro t u k m; simp [subM]
        rw [key _ hv kvs hs hkt, key _ hw kvs hs hkt, key _ hw, key _ hv]
        · simp only [List.map_map]
          congr 1
          apply List.map_congr_left
          intro p hp
          simp only [Function.comp, sub]
          rw [commute_lists hO ?_ ?_ ?_ (.inr ⟨_, hvt p hp⟩)]
          · intro a ha
            obtain ⟨q, hq, rfl⟩ := hits_mem ha
            exact (map_entry_ok hv hq).2
          · intro a ha
            obtain ⟨q, hq, rfl⟩ := hits_mem ha
            exact (map_entry_ok hw hq).2
          · intro a ha b hb
            obtain ⟨q, hq, ha⟩ := List.mem_filterMap.mp ha
            obtain ⟨r, hr, hb⟩ := List.mem_filterMap.mp hb
            obtain ⟨k1, hk1, ha⟩ := Option.bind_eq_some_iff.mp ha
            obtain ⟨k2, hk2, hb⟩ := Option.bind_eq_some_iff.mp hb
            split at ha
            · next e1 =>
              split at hb
              · next e2 =>
                cases ha; cases hb
                refine ih q hq r hr ⟨kt, k1, k2, (convertsTo_iff hD).mpr hk1, (convertsTo_iff hD).mpr hk2, ?_⟩
                  (map_entry_ok hv hq).2 (map_entry_ok hw hr).2
                have t1 := fromReflect_sound hO kt q.1 (map_entry_ok hv hq).1 hk1
                have t2 := fromReflect_sound hO kt r.1 (map_entry_ok hw hr).1 hk2
                have e3 : E.kcmp kt p.1 k1 = .eq := by rw [hO.swap kt _ _ t1 (hkt p hp), e1]; rfl
                have e4 : E.kcmp kt p.1 k2 = .eq := by rw [hO.swap kt _ _ t2 (hkt p hp), e2]; rfl
                rw [← e4]
                exact (hO.eq_trans kt _ _ _ (hkt p hp) t1 t2 e3).symm
              · cases hb
            · cases ha
        · exact sorted_of_keys_eq (by simp [Function.comp_def]) hs
        · intro p hp
          obtain ⟨q, hq, rfl⟩ := List.mem_map.mp hp
          exact hkt q hq
        · exact sorted_of_keys_eq (by simp [Function.comp_def]) hs
        · intro p hp
          obtain ⟨q, hq, rfl⟩ := List.mem_map.mp hp
          exact hkt q hq
    · rw [patch_other_kind hO hx hv (fun h => hk h.symm), patch_other_kind hO hx hw (fun h => hk h.symm),
        patch_other_kind hO hx hv (fun h => hk h.symm)]

/-! ## Covered patches -/

/-- A proper value of a type without dynamic components. -/
def Obj.Stat (E : Env) (x : Obj) : Prop := ∃ T, Static E T ∧ HasTy E T x

theorem Obj.Stat.ok {E : Env} {x : Obj} (h : x.Stat E) : x.OK E := by
  obtain ⟨T, _, h⟩ := h; exact ⟨T, h⟩

theorem Obj.Stat.patch {E : Env} (hO : OrdLaws E) {x v : Obj} (h : x.Stat E) (hv : v.OK E) : (patch E x v).Stat E := by
  obtain ⟨T, hT, h⟩ := h; exact ⟨T, hT, patch_hasTy hO v hv h⟩

theorem Obj.Stat.kids {E : Env} {x : Obj} (h : x.Stat E) : ∀ y ∈ x.kids, y.isHidden = true ∨ y.Stat E := by
  obtain ⟨T, hT, hx⟩ := h
  have hT := hT.unbox
  have hx := hasTy_unbox.mpr hx
  have hb := unbox_ne T
  generalize T.unbox = U at hT hx hb
  obtain ⟨n1, n2, n3, n4, n5⟩ := static_ne hT
  have named : ∀ {fds : List FieldDef} {fs : List (String × Obj)}, fs.map (·.1) = fds.map (·.name) →
      (∀ (i : Nat) fd p, fds[i]? = some fd → fs[i]? = some p → fd.skip = true → p.2.isHidden = true) →
      (∀ (i : Nat) fd p, fds[i]? = some fd → fs[i]? = some p → fd.skip = false → HasTy E fd.ty p.2) →
      (∀ (i : Nat) fd, fds[i]? = some fd → fd.skip = false → fd.ty ∈ U.comps E) →
      ∀ y ∈ fs.map (·.2), y.isHidden = true ∨ y.Stat E := by
    intro fds fs h1 h2 h3 h4 y hy
    obtain ⟨p, hp, rfl⟩ := List.mem_map.mp hy
    obtain ⟨i, hi, hp⟩ := List.getElem_of_mem hp
    have hl := congrArg List.length h1
    simp only [List.length_map] at hl
    have hp' : fs[i]? = some p := by rw [List.getElem?_eq_getElem hi, hp]
    obtain ⟨fd, hfd⟩ : ∃ fd, fds[i]? = some fd := ⟨_, List.getElem?_eq_getElem (by omega)⟩
    cases hs : fd.skip with
    | true => exact .inl (h2 i fd p hfd hp' hs)
    | false => exact .inr ⟨_, hT.comp (h4 i fd hfd hs), h3 i fd p hfd hp' hs⟩
  have posn : ∀ {fds : List FieldDef} {fs : List Obj}, fs.length = fds.length →
      (∀ (i : Nat) fd p, fds[i]? = some fd → fs[i]? = some p → fd.skip = true → p.isHidden = true) →
      (∀ (i : Nat) fd p, fds[i]? = some fd → fs[i]? = some p → fd.skip = false → HasTy E fd.ty p) →
      (∀ (i : Nat) fd, fds[i]? = some fd → fd.skip = false → fd.ty ∈ U.comps E) →
      ∀ y ∈ fs, y.isHidden = true ∨ y.Stat E := by
    intro fds fs hl h2 h3 h4 y hy
    obtain ⟨i, hi, hp⟩ := List.getElem_of_mem hy
    have hp' : fs[i]? = some y := by rw [List.getElem?_eq_getElem hi, hp]
    obtain ⟨fd, hfd⟩ : ∃ fd, fds[i]? = some fd := ⟨_, List.getElem?_eq_getElem (by omega)⟩
    cases hs : fd.skip with
    | true => exact .inl (h2 i fd y hfd hp' hs)
    | false => exact .inr ⟨_, hT.comp (h4 i fd hfd hs), h3 i fd y hfd hp' hs⟩
  cases hx with
  | scalar => simp [Obj.kids]
  | nonzero => simp [Obj.kids]
  | struct n fds c fs h1 h3 h4 h5 => exact named h3 h4 h5 fun i fd hi hs => named_comps (.inl h1) hi hs
  | tupleStruct n fds c fs h1 h3 h4 h5 => exact posn h3 h4 h5 fun i fd hi hs => named_comps (.inr h1) hi hs
  | enumS n vds c vn fds fs h1 h2 h3 h4 h5 =>
    exact named h3 h4 h5 fun i fd hi hs => variant_comps h1 (.inl h2) hi hs
  | enumT n vds c vn fds fs h1 h2 h3 h4 h5 =>
    exact posn h3 h4 h5 fun i fd hi hs => variant_comps h1 (.inr h2) hi hs
  | enumU => simp [Obj.kids]
  | tuple ts fs hl h5 =>
    intro y hy
    simp only [Obj.kids] at hy
    obtain ⟨i, hi, hp⟩ := List.getElem_of_mem hy
    have hp' : fs[i]? = some y := by rw [List.getElem?_eq_getElem hi, hp]
    obtain ⟨t, ht⟩ : ∃ fd, ts[i]? = some fd := ⟨_, List.getElem?_eq_getElem (by omega)⟩
    exact .inr ⟨t, hT.comp (by simp only [Ty.comps]; exact List.mem_of_getElem? ht), h5 i t y ht hp'⟩
  | vec t xs h => exact fun y hy => .inr ⟨t, hT.comp (by simp [Ty.comps]), h y hy⟩
  | array t xs h => exact fun y hy => .inr ⟨t, hT.comp (by simp [Ty.comps]), h y hy⟩
  | map kt vt kvs _ _ h =>
    intro y hy
    obtain ⟨p, hp, rfl⟩ := List.mem_map.mp hy
    exact .inr ⟨vt, hT.comp (by simp [Ty.comps]), h p hp⟩
  | box t o h => exact absurd rfl (hb t)
  | value => exact absurd rfl n1
  | structValue => exact absurd rfl n2
  | tupleStructValue => exact absurd rfl n3
  | tupleValue => exact absurd rfl n4
  | enumValueS => exact absurd rfl n5
  | enumValueT => exact absurd rfl n5
  | enumValueU => exact absurd rfl n5

/-- `w` wipes out what `v` did. -/
def Wipes (E : Env) (v w : Obj) : Prop :=
  ∀ x : Obj, (x.isHidden = true ∨ x.Stat E) → patch E (patch E x v) w = patch E x w

theorem patch_stat {E : Env} (hO : OrdLaws E) {x v : Obj} (hx : x.isHidden = true ∨ x.Stat E) (hv : v.OK E) :
    (patch E x v).isHidden = true ∨ (patch E x v).Stat E := by
  rcases hx with hx | hx
  · left
    cases x <;> simp [Obj.isHidden] at hx
    rw [patch_hidden]; rfl
  · exact .inr (hx.patch hO hv)

/-- ... even if other patches came between. -/
theorem wipes_later {E : Env} (hD : DeclsOK E) (hO : OrdLaws E) {v w : Obj} (hv : v.OK E) (hw : w.OK E)
    (h : Wipes E v w) {us : List Obj} (hu : ∀ u ∈ us, u.OK E) {x : Obj} (hx : x.isHidden = true ∨ x.Stat E)
    (bs : List Obj) : patchSeq E (patch E x v) (us ++ w :: bs) = patchSeq E x (us ++ w :: bs) := by
  have : Forgets E us [w] (patch E x v) x := by
    have hok : ∀ p ∈ us ++ [w], p.OK E := by
      intro p hp
      rcases List.mem_append.mp hp with hp | hp
      · exact hu p hp
      · simp at hp; rw [hp]; exact hw
    rcases hx with hx | ⟨T, hT, hx⟩
    · cases x <;> simp [Obj.isHidden] at hx
      rw [patch_hidden]; exact fun _ => rfl
    · exact patchSeq_forgets hD hO _ us [w] (Nat.le_refl _) hok T hT _ _ (.inr ⟨patch_hasTy hO v hv hx, hx⟩)
  have := this (h x hx)
  have e : us ++ w :: bs = (us ++ [w]) ++ bs := by simp
  rw [e, patchSeq_append, this, ← patchSeq_append]

theorem wipes_lists {E : Env} (hD : DeclsOK E) (hO : OrdLaws E) {ws : List Obj} (hw : ∀ w ∈ ws, w.OK E) :
    ∀ {vs : List Obj}, (∀ v ∈ vs, v.OK E) → (∀ v ∈ vs, ∃ w ∈ ws, Wipes E v w) → ∀ {x : Obj},
    (x.isHidden = true ∨ x.Stat E) → patchSeq E (patchSeq E x vs) ws = patchSeq E x ws := by
  intro vs
  induction vs with
  | nil => intro _ _ x _; rfl
  | cons v vs ih =>
    intro hv h x hx
    rw [patchSeq_cons, ih (fun v h => hv v (by simp [h])) (fun v hv => h v (by simp [hv]))
      (patch_stat hO hx (hv v (by simp)))]
    obtain ⟨w, hws, hvw⟩ := h v (by simp)
    obtain ⟨as, bs, rfl⟩ := List.append_of_mem hws
    exact wipes_later hD hO (hv v (by simp)) (hw w hws) hvw (fun u hu => hw u (by simp [hu])) hx bs

theorem patchO_wipes {E : Env} {a b : Option Obj} (hab : ∀ v, a = some v → b ≠ none)
    (h : ∀ v w, a = some v → b = some w → Wipes E v w) {x : Obj}
    (hx : x.isHidden = true ∨ x.Stat E) : patchO E (patchO E x a) b = patchO E x b := by
  cases a with
  | none => rfl
  | some v => cases b with
    | none => exact absurd rfl (hab v rfl)
    | some w => exact h v w rfl rfl x hx

theorem wipes_named {E : Env} {v w : Obj} (hab : ∀ n a, v.field n = some a → w.field n ≠ none)
    (h : ∀ n a b, v.field n = some a → w.field n = some b → Wipes E a b)
    {fs : List (String × Obj)} (hfs : ∀ p ∈ fs, p.2.isHidden = true ∨ p.2.Stat E) :
    patchNamed E w (patchNamed E v fs) = patchNamed E w fs := by
  simp only [patchNamed, List.map_map]
  apply List.map_congr_left
  intro p hp
  simp only [Function.comp]
  rw [patchO_wipes (fun a => hab p.1 a) (fun a b => h p.1 a b) (hfs p hp)]

theorem wipes_pos {E : Env} {v w : Obj} (hab : ∀ n a, v.fieldAt n = some a → w.fieldAt n ≠ none)
    (h : ∀ i a b, v.fieldAt i = some a → w.fieldAt i = some b → Wipes E a b)
    {fs : List Obj} (hfs : ∀ p ∈ fs, p.isHidden = true ∨ p.Stat E) :
    patchPos E w (patchPos E v fs) = patchPos E w fs := by
  simp only [patchPos, List.mapIdx_mapIdx]
  apply List.ext_getElem?
  intro i
  simp only [List.getElem?_mapIdx]
  cases hp : fs[i]? with
  | none => rfl
  | some p =>
    simp only [Option.map_some, Function.comp]
    rw [patchO_wipes (fun a => hab i a) (fun a b => h i a b) (hfs p (List.mem_of_getElem? hp))]

theorem wipes_of_shown {E : Env} {v w : Obj}
    (h : ∀ x : Obj, x.Stat E → patch E (patch E x v) w = patch E x w) : Wipes E v w := by
  intro x hx
  rcases hx with hx | hx
  · cases x <;> simp [Obj.isHidden] at hx
    rw [patch_hidden]
  · exact h x hx

/-- A covered patch leaves no trace. -/
theorem covers_wipes {E : Env} (hD : DeclsOK E) (hO : OrdLaws E) (hK : KeysShown E) {w v : Obj} (h : Covers w v) :
    w.OK E → v.OK E → Wipes E v w := by
  induction h with
  | same v hg =>
    intro _ hv
    exact wipes_of_shown fun x hx => patch_idem hD hO hK hx.ok hv hg
  | scalar s s' hk h0 =>
    intro hw hv
    refine wipes_of_shown fun x hx => ?_
    by_cases hx' : x.kind = .scalar
    · cases x <;> simp [Obj.kind] at hx'
      case scalar r =>
        rw [patch_scalar, patch_scalar E r]
        split
        · next h =>
          obtain ⟨_, h1, h2⟩ := isTy_scalar_inv h
          cases h1
          rw [patch_scalar, h2]
          simp [Obj.isTy, Obj.typeOf, hk, h2]
        · rw [patch_scalar]
      case nonzero k n =>
        rw [patch_nonzero, patch_nonzero]
        cases hf : fromReflect E (.nonzero k) (.scalar s') with
        | none => simp only [Option.getD_none]; rw [patch_nonzero]
        | some y =>
          simp only [Option.getD_some]
          have hy := fromReflect_sound hO _ _ hv hf
          cases hy with
          | nonzero _ m hm =>
            rw [patch_nonzero]
            have : ∃ z, fromReflect E (.nonzero k) (.scalar s) = some z := by
              cases s' with
              | int k' n' =>
                cases s <;> simp [Scalar.kind] at hk
                rename_i k2 n2
                subst hk
                simp only [fromReflect, Obj.isTy, Obj.typeOf, beq_iff_eq, Option.some.injEq, reduceCtorEq, if_false] at hf ⊢
                split at hf
                · next h =>
                  refine ⟨_, if_pos ⟨h.1, fun h3 => h0 _ (by rw [h3])⟩⟩
                · cases hf
              | _ => simp [fromReflect, Obj.isTy, Obj.typeOf] at hf
            obtain ⟨z, hz⟩ := this
            rw [hz]; rfl
    · rw [patch_other_kind hO hx.ok hv (fun h => hx' h.symm)]
  | structs w v h1 h2 hab _ ih =>
    intro hw hv
    refine wipes_of_shown fun x hx => ?_
    by_cases hk : x.kind = .struct
    · have hkids := hx.kids
      cases x <;> simp [Obj.kind] at hk
      rename_i tag fs
      simp only [patch_struct, if_pos h1, if_pos h2]
      congr 1
      exact wipes_named hab (fun n a b ha hb => ih n a b ha hb (OK_field hw hb) (OK_field hv ha))
        fun p hp => hkids _ (List.mem_map_of_mem hp)
    · rw [patch_other_kind hO hx.ok hv (by rw [h2]; exact fun h => hk h.symm)]
  | positions w v h1 h2 hab _ ih =>
    intro hw hv
    refine wipes_of_shown fun x hx => ?_
    by_cases hk : x.kind = v.kind
    · have hkids := hx.kids
      have ih' : ∀ i a b, v.fieldAt i = some a → w.fieldAt i = some b → Wipes E a b :=
        fun i a b ha hb => ih i a b ha hb (OK_fieldAt hw hb) (OK_fieldAt hv ha)
      have h3 : w.kind = x.kind := by rw [hk, h1]
      rw [← hk] at h2
      cases x <;> simp [Obj.kind] at h2
      case tupleStruct tag fs =>
        have e1 : v.kind = .tupleStruct := hk.symm
        have e2 : w.kind = .tupleStruct := h3
        simp only [patch_tupleStruct, e1, e2, if_true]
        congr 1
        exact wipes_pos hab ih' hkids
      case tuple tag fs =>
        have e1 : v.kind = .tuple := hk.symm
        have e2 : w.kind = .tuple := h3
        simp only [patch_tuple, e1, e2, if_true]
        congr 1
        exact wipes_pos hab ih' hkids
      case vec tag fs =>
        have e1 : v.kind = .list := hk.symm
        have e2 : w.kind = .list := h3
        simp only [patch_vec, e1, e2, if_true]
        congr 1
        exact wipes_pos hab ih' hkids
      case array tag fs =>
        have e1 : v.kind = .array := hk.symm
        have e2 : w.kind = .array := h3
        simp only [patch_array, e1, e2, if_true]
        congr 1
        exact wipes_pos hab ih' hkids
    · rw [patch_other_kind hO hx.ok hv (fun h => hk h.symm)]
  | maps t u t' u' m m' entry hen _ ih =>
    intro hw hv
    refine wipes_of_shown fun x hx => ?_
    by_cases hk : x.kind = .map
    · have hkids := hx.kids
      cases x <;> simp [Obj.kind] at hk
      rename_i kt vt kvs
      cases OK.typed hO hx.ok rfl with
      | map _ _ _ hs hkt hvt =>
        have key : ∀ (v : Obj), v.OK E → ∀ kvs : List (Obj × Obj), BMSorted (E.kcmp kt) kvs →
            (∀ p ∈ kvs, HasTy E kt p.1) → patch E (.map kt vt kvs) v =
            .map kt vt (kvs.map fun p => (p.1, patchSeq E p.2 (subM E kt p.1 [v]))) := by
          intro v hv kvs hs hk
          exact patchMap_seq hO [v] (by simpa using hv) kvs hs hk
        have sub : ∀ t u k (m : List (Obj × Obj)), subM E kt k [.map t u m] = hits E kt k m := by
          intro t u k m; simp [subM]
        rw [key _ hv kvs hs hkt, key _ hw kvs hs hkt, key _ hw]
        · simp only [List.map_map]
          congr 1
          apply List.map_congr_left
          intro p hp
          simp only [Function.comp, sub]
          rw [wipes_lists hD hO ?_ ?_ ?_ (hkids _ (List.mem_map_of_mem hp))]
          · intro a ha
            obtain ⟨q, hq, rfl⟩ := hits_mem ha
            exact (map_entry_ok hw hq).2
          · intro a ha
            obtain ⟨q, hq, rfl⟩ := hits_mem ha
            exact (map_entry_ok hv hq).2
          · intro a ha
            obtain ⟨q, hq, ha⟩ := List.mem_filterMap.mp ha
            obtain ⟨k1, hk1, ha⟩ := Option.bind_eq_some_iff.mp ha
            split at ha
            · next e1 =>
              cases ha
              obtain ⟨h1, h2⟩ := hen q hq
              refine ⟨(entry q).2, ?_, ih q hq (map_entry_ok hw h1).2 (map_entry_ok hv hq).2⟩
              refine List.mem_filterMap.mpr ⟨entry q, h1, ?_⟩
              rw [h2, hk1]; simp [e1]
            · cases ha
        · exact sorted_of_keys_eq (by simp [Function.comp_def]) hs
        · intro p hp
          obtain ⟨q, hq, rfl⟩ := List.mem_map.mp hp
          exact hkt q hq
    · rw [patch_other_kind hO hx.ok hv (fun h => hk h.symm)]

end Mirror
