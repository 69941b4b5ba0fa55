import Verif.Lemmas.Suits
import Verif.Lemmas.Convert
import Verif.Lemmas.StandIn
import Verif.Lemmas.BuildFull

/-! # Lemmas for C97 -/

set_option linter.unusedSimpArgs false

namespace Mirror

/-! ## Collecting a map of converted entries -/

theorem pairwise_ne_of_sorted {κ α : Type} {P : κ → Prop} {cmp : κ → κ → Ordering} (hc : CmpOn P cmp)
    {m : List (κ × α)} (hP : ∀ p ∈ m, P p.1) (hs : BMSorted cmp m) :
    m.Pairwise fun p q => cmp q.1 p.1 ≠ .eq := by
  have : m.Pairwise fun p q => P p.1 ∧ P q.1 := by
    rw [List.pairwise_iff_getElem]
    intro i j hi hj _
    exact ⟨hP _ (List.getElem_mem hi), hP _ (List.getElem_mem hj)⟩
  refine (hs.and this).imp ?_
  rintro p q ⟨h, hp, hq⟩
  rw [hc.swap _ _ hp hq, h]; simp

/-- Building a map under one order and then under another that has the same equality is building it under
the other at once. -/
theorem bmOfList_bmOfList {κ α κ' β : Type} {P : κ → Prop} {K : κ → κ → Ordering} {V : κ' → κ' → Ordering}
    (hK : CmpOn P K) (hV : CmpOn (fun _ => True) V) (f : κ → κ') (h : α → β)
    (he : ∀ a b, P a → P b → (K a b = .eq ↔ V (f a) (f b) = .eq)) {l : List (κ × α)} (hl : ∀ p ∈ l, P p.1) :
    bmOfList V ((bmOfList K l).map fun p => (f p.1, h p.2)) = bmOfList V (l.map fun p => (f p.1, h p.2)) := by
  have key : ∀ (l : List (κ × α)), (∀ p ∈ l, P p.1) → ∀ m : List (κ × α), (∀ p ∈ m, P p.1) → BMSorted K m →
      bmOfList V ((l.foldl (fun m p => bmInsert K p.1 p.2 m) m).map fun p => (f p.1, h p.2)) =
      (l.map fun p => (f p.1, h p.2)).foldl (fun m p => bmInsert V p.1 p.2 m)
        (bmOfList V (m.map fun p => (f p.1, h p.2))) := by
    intro l
    induction l with
    | nil => intro _ m _ _; rfl
    | cons q l ih =>
      intro hl m hm hs
      obtain ⟨k, v⟩ := q
      have hk : P k := hl (k, v) (by simp)
      rw [List.foldl_cons, ih (fun p hp => hl p (by simp [hp])) _ (bmInsert_keys hk hm)
        (bmInsert_sorted hK hk hm hs), List.map_cons, List.foldl_cons]
      congr 1
      -- one insertion
      have hnd : (m.map fun p => (f p.1, h p.2)).Pairwise fun p q => V q.1 p.1 ≠ .eq := by
        rw [List.pairwise_map]
        have h2 : m.Pairwise fun p q => P p.1 ∧ P q.1 := by
          rw [List.pairwise_iff_getElem]
          intro i j hi hj _
          exact ⟨hm _ (List.getElem_mem hi), hm _ (List.getElem_mem hj)⟩
        refine ((pairwise_ne_of_sorted hK hm hs).and h2).imp ?_
        rintro p q ⟨h1, hp, hq⟩ h3
        exact h1 ((he _ _ hq hp).mpr h3)
      have hperm := bmOfList_perm (cmp := V) hnd
      have hsV : BMSorted V (bmOfList V (m.map fun p => (f p.1, h p.2))) :=
        bmOfList_sorted hV (fun _ _ => trivial)
      by_cases hx : ∃ p ∈ m, K k p.1 = .eq
      · rw [bmInsert_replace hK hk hm hs hx]
        have hxV : ∃ p ∈ bmOfList V (m.map fun p => (f p.1, h p.2)), V (f k) p.1 = .eq := by
          obtain ⟨p, hp, hpe⟩ := hx
          exact ⟨(f p.1, h p.2), hperm.mem_iff.mpr (List.mem_map_of_mem hp), (he _ _ hk (hm p hp)).mp hpe⟩
        have hins := bmInsert_replace hV (k := f k) (v := h v) trivial (fun _ _ => trivial) hsV hxV
        have hsort := bmInsert_sorted hV (k := f k) (v := h v) (l := bmOfList V (m.map fun p => (f p.1, h p.2)))
          trivial (fun _ _ => trivial) hsV
        refine bmOfList_eq_of_perm hV (fun _ _ => trivial) hsort ?_
        rw [hins]
        refine List.Perm.trans ?_ (hperm.symm.map _)
        rw [replaceAt, List.map_map, List.map_map]
        refine List.Perm.of_eq (List.map_congr_left fun p hp => ?_)
        simp only [Function.comp_def]
        by_cases hpe : K k p.1 = .eq
        · simp [hpe, (he _ _ hk (hm p hp)).mp hpe]
        · have hv : ¬ V (f k) (f p.1) = .eq := fun hv => hpe ((he _ _ hk (hm p hp)).mpr hv)
          simp [hpe, hv]
      · have hne : ∀ p ∈ m, K k p.1 ≠ .eq := fun p hp hpe => hx ⟨p, hp, hpe⟩
        have hneV : ∀ p ∈ bmOfList V (m.map fun p => (f p.1, h p.2)), V (f k) p.1 ≠ .eq := by
          intro p hp hpe
          obtain ⟨q, hq, rfl⟩ := List.mem_map.mp (hperm.mem_iff.mp hp)
          exact hne q hq ((he _ _ hk (hm q hq)).mpr hpe)
        have hsort := bmInsert_sorted hV (k := f k) (v := h v) (l := bmOfList V (m.map fun p => (f p.1, h p.2)))
          trivial (fun _ _ => trivial) hsV
        refine bmOfList_eq_of_perm hV (fun _ _ => trivial) hsort ?_
        refine ((bmInsert_perm (v := v) hne).map _).trans ?_
        refine List.Perm.trans ?_ (bmInsert_perm (v := h v) hneV).symm
        exact hperm.symm.cons _
  have := key l hl [] (by simp) .nil
  simpa [bmOfList] using this

theorem toValue_map {E : Env} (hO : OrdLaws E) {kt vt : Ty} {l : List (Obj × Obj)}
    (hl : ∀ p ∈ l, HasTy E kt p.1)
    (he : ∀ a b, HasTy E kt a → HasTy E kt b → (E.kcmp kt a b = .eq ↔ Value.cmp a.toValue b.toValue = .eq)) :
    (Obj.map kt vt (bmOfList (E.kcmp kt) l)).toValue =
      .map (bmOfList Value.cmp (l.map fun p => (p.1.toValue, p.2.toValue))) := by
  have hK := hO.cmpOn kt
  rw [Obj.toValue, bmCollect_eq_ofList, bmOfList_bmOfList hK valueCmpOn (fun x => x.toValue) (fun x => x.toValue) he hl]
  rw [List.pairwise_map]
  have hm := bmOfList_keys hK hl
  have h2 : (bmOfList (E.kcmp kt) l).Pairwise fun p q => HasTy E kt p.1 ∧ HasTy E kt q.1 := by
    rw [List.pairwise_iff_getElem]
    intro i j hi hj _
    exact ⟨hm _ (List.getElem_mem hi), hm _ (List.getElem_mem hj)⟩
  refine ((pairwise_ne_of_sorted hK hm (bmOfList_sorted hK hl)).and h2).imp ?_
  rintro p q ⟨h1, hp, hq⟩ h3
  exact h1 ((he _ _ hq hp).mpr h3)

/-! ## Lists of fields -/

theorem forall₂_getElem? {α β : Type} {R : α → β → Prop} {l : List α} {m : List β} (h : List.Forall₂ R l m) :
    ∀ {i : Nat} {a : α}, l[i]? = some a → ∃ b, m[i]? = some b ∧ R a b := by
  induction h with
  | nil => intro i a h; simp at h
  | cons h _ ih =>
    intro i a hi
    cases i with
    | zero => simp at hi; subst hi; exact ⟨_, rfl, h⟩
    | succ i => simpa using ih (i := i) (by simpa using hi)

theorem forall₂_shown {β : Type} {hid : β → Bool} {Q : FieldDef → β → Prop} {fds : List FieldDef} {fs : List β}
    (h : List.Forall₂ (fun fd p => (fd.skip = true → hid p = true) ∧ (fd.skip = false → hid p = false ∧ Q fd p))
      fds fs) : List.Forall₂ Q (fds.filter fun fd => !fd.skip) (fs.filter fun p => !hid p) := by
  induction h with
  | nil => exact .nil
  | @cons fd p _ _ h _ ih =>
    cases hs : fd.skip with
    | true => simpa [List.filter_cons, hs, h.1 hs] using ih
    | false =>
      have := h.2 hs
      simp only [List.filter_cons, hs, this.1, Bool.not_false, if_true]
      exact .cons this.2 ih

/-- A `Value` converts to its own type as it is. -/
theorem fromReflect_own {E : Env} (hO : OrdLaws E) {w : Value} {t : Ty} (hw : w.WF) (ht : w.toObj.typeOf = some t) :
    fromReflect E t w.toObj = some w.toObj := by
  cases w with
  | scalar s =>
    simp [Value.toObj, Obj.typeOf] at ht
    subst ht
    rw [Value.toObj, fromReflect_scalar]; simp [Obj.isTy, Obj.typeOf]
  | struct ns fs =>
    have : t = .structValue := by simpa [Value.toObj, Obj.typeOf, eq_comm] using ht
    subst this
    exact fromReflect_structValue hw
  | tupleStruct fs =>
    have : t = .tupleStructValue := by simpa [Value.toObj, Obj.typeOf, eq_comm] using ht
    subst this
    exact fromReflect_tupleStructValue hw
  | tuple fs =>
    have : t = .tupleValue := by simpa [Value.toObj, Obj.typeOf, eq_comm] using ht
    subst this
    exact fromReflect_tupleValue hw
  | enumS vn ns fs =>
    have : t = .enumValue := by simpa [Value.toObj, Obj.typeOf, eq_comm] using ht
    subst this
    exact fromReflect_enumValueS hw
  | enumT vn fs =>
    have : t = .enumValue := by simpa [Value.toObj, Obj.typeOf, eq_comm] using ht
    subst this
    exact fromReflect_enumValueT hw
  | enumU vn =>
    have : t = .enumValue := by simpa [Value.toObj, Obj.typeOf, eq_comm] using ht
    subst this
    exact fromReflect_enumValueU
  | list xs =>
    have : t = .vec .value := by simpa [Value.toObj, Obj.typeOf, eq_comm] using ht
    subst this
    cases hw with
    | list _ h =>
      rw [Value.toObj]
      simp only [fromReflect_vec, List.map_map, Function.comp_def]
      have : (xs.map fun x => fromReflect E .value x.toObj) = (xs.map fun x => x.toObj).map some := by
        rw [List.map_map]
        refine List.map_congr_left fun x hx => ?_
        rw [fromReflect_value, Value.toObj_toValue (h x hx)]; rfl
      rw [optAll_eq_some.mpr this]; rfl
  | map kvs =>
    have : t = .map .value .value := by simpa [Value.toObj, Obj.typeOf, eq_comm] using ht
    subst this
    cases hw with
    | map _ hs h1 h2 =>
      rw [Value.toObj]
      simp only [fromReflect_map, List.map_map, Function.comp_def]
      have : (kvs.map fun p => (fromReflect E .value p.1.toObj).bind fun k =>
          (fromReflect E .value p.2.toObj).map fun v => (k, v)) = (kvs.map fun p => (p.1.toObj, p.2.toObj)).map some := by
        rw [List.map_map]
        refine List.map_congr_left fun p hp => ?_
        rw [fromReflect_value, fromReflect_value, Value.toObj_toValue (h1 p hp), Value.toObj_toValue (h2 p hp)]; rfl
      rw [optAll_eq_some.mpr this]
      simp only [Option.map_some, Option.some.injEq, Obj.map.injEq, true_and]
      refine bmOfList_self (hO.cmpOn .value) ?_ ?_
      · intro p hp
        obtain ⟨q, hq, rfl⟩ := List.mem_map.mp hp
        exact .value _ _ (h1 q hq) rfl
      · rw [BMSorted, List.pairwise_map]
        have h3 : kvs.Pairwise fun p q => p.1.WF ∧ q.1.WF := by
          rw [List.pairwise_iff_getElem]
          intro i j hi hj _
          exact ⟨h1 _ (List.getElem_mem hi), h1 _ (List.getElem_mem hj)⟩
        refine (List.Pairwise.and hs h3).imp ?_
        rintro p q ⟨h, hp, hq⟩
        rw [hO.value _ _ hp hq]; exact h

/-! ## One level -/

/-- What is left of a Value that the type reads. -/
def Kept (E : Env) (j : Ty) (w w' : Value) : Prop := ∃ z, fromReflect E j w.toObj = some z ∧ w' = z.toValue

theorem kept_unbox {E : Env} {t : Ty} {w w' : Value} : Kept E t.unbox w w' ↔ Kept E t w w' := by
  simp only [Kept, fromReflect_unbox]

theorem fieldFrom_reflect {E : Env} (hO : OrdLaws E) {c : Bool} {t : Ty} {w : Value} {y : Obj} (hw : w.WF)
    (h : FieldFrom c (fun t o y => fromReflect E t o = some y) t w.toObj y) : fromReflect E t w.toObj = some y := by
  rcases h with ⟨_, ht, rfl⟩ | ⟨_, h⟩
  · exact fromReflect_own hO hw ht
  · exact h

theorem namedFrom_retains {E : Env} (hO : OrdLaws E) {c : Bool} {fds : List FieldDef} {v : Value}
    {fs : List (String × Obj)} {names fields} (hw : v.WF) (hn : (fds.map (·.name)).Nodup)
    (he : namedTypes names fields =
      ((fds.filter fun fd => !fd.skip).map fun fd => (fd.name, some fd.ty.unbox)))
    (h : NamedFrom c (fun t o y => fromReflect E t o = some y) v.toObj fds fs) :
    (visFields fs).map (·.1) = names ∧
      RetainsNamed (Kept E) v names fields (bmOfList strCmp ((visFields fs).map fun p => (p.1, p.2.toValue))) := by
  have hl : fs.length = fds.length := by simpa using congrArg List.length h.names
  have F : List.Forall₂ (fun fd (p : String × Obj) => p.1 = fd.name ∧
      ∃ w, v.Named fd.name w ∧ fromReflect E fd.ty w.toObj = some p.2)
      (fds.filter fun fd => !fd.skip) (visFields fs) := by
    refine forall₂_shown (hid := fun p : String × Obj => p.2.isHidden) (forall2_of_index hl ?_)
    intro i fd p hfd hp
    refine ⟨fun hs => by rw [h.skipped i fd p hfd hp hs]; rfl, fun hs => ?_⟩
    obtain ⟨x, hx, hf⟩ := h.shown i fd p hfd hp hs
    obtain ⟨w, hv, rfl⟩ := (toObj_field hw).mp hx
    have hr := fieldFrom_reflect hO (hv.part.2 hw) hf
    refine ⟨(fromReflect_sound hO _ _ (hv.part.2 hw).ok hr).not_hidden, ?_, w, hv, hr⟩
    have := congrArg (·[i]?) h.names
    simpa [hfd, hp] using this
  have hnames : names = (fds.filter fun fd => !fd.skip).map (·.name) := by
    have := congrArg (List.map Prod.fst) he
    simpa [namedTypes, Function.comp_def] using this
  have hkeys : (visFields fs).map (·.1) = names := by
    rw [hnames]
    clear he hnames
    revert F
    generalize (fds.filter fun fd => !fd.skip) = l, visFields fs = m
    intro F
    induction F with
    | nil => rfl
    | cons h _ ih => simp [h.1, ih]
  have hnd : names.Nodup := by
    rw [hnames]; exact hn.sublist (List.filter_sublist.map _)
  have hperm : (bmOfList strCmp ((visFields fs).map fun p => (p.1, p.2.toValue))).Perm
      ((visFields fs).map fun p => (p.1, p.2.toValue)) := by
    refine bmOfList_perm ?_
    rw [List.pairwise_map]
    rw [← hkeys, List.Nodup, List.pairwise_map] at hnd
    exact hnd.imp fun h he => h ((strCmp_eq_iff _ _).mp he).symm
  refine ⟨hkeys, bmOfList_sorted strCmpOn (by simp), fun n => ?_, fun p hp => ?_⟩
  · rw [mem_keys_bmOfList, ← hkeys, List.map_map]; rfl
  · rw [he] at hp
    obtain ⟨fd, hfd, rfl⟩ := List.mem_map.mp hp
    obtain ⟨i, hi⟩ := List.getElem?_of_mem hfd
    obtain ⟨q, hq, hq1, w, hv, hr⟩ := forall₂_getElem? F hi
    refine ⟨_, w, q.2.toValue, rfl, hv, ?_, kept_unbox.mpr ⟨_, hr, rfl⟩⟩
    rw [hperm.mem_iff]
    exact List.mem_map.mpr ⟨q, List.mem_of_getElem? hq, by simp [hq1]⟩

theorem shown_getElem? {fds : List FieldDef} (hg : ¬ SkipGap fds) {i : Nat} {fd : FieldDef} :
    (fds.filter fun fd => !fd.skip)[i]? = some fd → fds[i]? = some fd ∧ fd.skip = false := by
  have happ := visDefs_append (SkipGap.last hg)
  have hv : visDefs fds = fds.filter fun fd => !fd.skip := rfl
  intro h
  refine ⟨?_, by simpa using (List.mem_filter.mp (List.mem_of_getElem? h)).2⟩
  have hl := (List.getElem?_eq_some_iff.mp h).1
  rw [happ, List.getElem?_append_left (by rw [hv]; exact hl), hv, h]

theorem skipped_getElem? {fds : List FieldDef} (hg : ¬ SkipGap fds) {i : Nat} {fd : FieldDef}
    (hi : fds[i]? = some fd) (hl : (fds.filter fun fd => !fd.skip).length ≤ i) : fd.skip = true := by
  have happ := visDefs_append (SkipGap.last hg)
  rw [happ, List.getElem?_append_right (by exact hl)] at hi
  exact (List.mem_filter.mp (List.mem_of_getElem? hi)).2

theorem posFrom_retains {E : Env} (hO : OrdLaws E) {c : Bool} {fds : List FieldDef} {v : Value}
    {fs : List Obj} (hw : v.WF) (hg : ¬ SkipGap fds)
    (h : PosFrom c (fun t o y => fromReflect E t o = some y) v.toObj fds fs) :
    RetainsNth (Kept E) v ((fds.filter fun fd => !fd.skip).map fun fd => fd.ty.unbox)
      ((visPos fs).map fun x => x.toValue) := by
  have shown : ∀ (i : Nat) fd, (fds.filter fun fd => !fd.skip)[i]? = some fd → ∃ w x, v.Nth i w ∧
      fs[i]? = some x ∧ fromReflect E fd.ty w.toObj = some x := by
    intro i fd hi
    obtain ⟨hfd, hs⟩ := shown_getElem? hg hi
    obtain ⟨x, hx⟩ := align_pos h.length.symm hfd
    obtain ⟨o, ho, hf⟩ := h.shown i fd x hfd hx hs
    obtain ⟨w, hv, rfl⟩ := (toObj_fieldAt hw).mp ho
    exact ⟨w, x, hv, hx, fieldFrom_reflect hO (hv.part.2 hw) hf⟩
  have hle : (fds.filter fun fd => !fd.skip).length ≤ fs.length := by
    rw [h.length]; exact List.length_filter_le _ _
  have hvis : visPos fs = fs.take (fds.filter fun fd => !fd.skip).length := by
    conv_lhs => rw [visPos, ← List.take_append_drop (fds.filter fun fd => !fd.skip).length fs, List.filter_append]
    have hnil : (fs.drop (fds.filter fun fd => !fd.skip).length).filter (fun x => !x.isHidden) = [] := by
      rw [List.filter_eq_nil_iff]
      intro x hx
      obtain ⟨i, hi⟩ := List.getElem?_of_mem hx
      rw [List.getElem?_drop] at hi
      obtain ⟨fd, hfd⟩ := align_pos h.length hi
      have hs := skipped_getElem? hg hfd (by omega)
      rw [h.skipped _ fd x hfd hi hs]; simp [Obj.isHidden]
    rw [hnil, List.append_nil, List.filter_eq_self.mpr]
    · intro x hx
      obtain ⟨i, hi⟩ := List.getElem?_of_mem hx
      have hlt : i < (fds.filter fun fd => !fd.skip).length := by
        have := (List.getElem?_eq_some_iff.mp hi).1
        simp only [List.length_take] at this; omega
      rw [List.getElem?_take_of_lt hlt] at hi
      obtain ⟨w, y, hv, hy, hr⟩ := shown i _ (List.getElem?_eq_getElem hlt)
      rw [hi] at hy; cases hy
      simp [(fromReflect_sound hO _ _ (hv.part.2 hw).ok hr).not_hidden]
  refine ⟨by rw [hvis]; simp [hle], fun i j hj => ?_⟩
  rw [List.getElem?_map, Option.map_eq_some_iff] at hj
  obtain ⟨fd, hi, rfl⟩ := hj
  obtain ⟨w, x, hv, hx, hr⟩ := shown i fd hi
  refine ⟨w, x.toValue, hv, ?_, kept_unbox.mpr ⟨x, hr, rfl⟩⟩
  rw [hvis, List.getElem?_map, List.getElem?_take_of_lt (List.getElem?_eq_some_iff.mp hi).1, hx]; rfl

/-- One level: what the conversion makes of a Value is what the node says. -/
theorem retains_step {E : Env} (hD : DeclsOK E) (hO : OrdLaws E) {u : Ty} {n : TypeNode} (hd : Describes E u n)
    (hg : ¬ u.PosGap E) (hk : ∀ k w, u = .map k w → ∀ a b, HasTy E k a → HasTy E k b →
      (E.kcmp k a b = .eq ↔ Value.cmp a.toValue b.toValue = .eq))
    {v : Value} (hw : v.WF) {y : Obj} (h : fromReflect E u v.toObj = some y) :
    n.Retains (Kept E) v y.toValue := by
  have own : ∀ {t}, t = u → v.toObj.typeOf = some t → y.toValue = v := by
    rintro t rfl ht
    rw [fromReflect_own hO hw ht] at h; cases h
    exact Value.toObj_toValue hw
  have hstep := (fromReflect_step hD u v.toObj y).mp h
  cases hd with
  | scalar k =>
    rw [fromReflect_scalar] at h
    split at h
    · cases h; exact Value.toObj_toValue hw
    · cases h
  | nonzero k =>
    obtain ⟨m, h0, rfl⟩ := (opaque_takes hD (u := .nonzero k) trivial hw).mpr ⟨y, h⟩
    rw [Value.toObj] at h hstep
    cases hstep
    simp [TypeNode.Retains, Obj.toValue]
  | value =>
    rw [fromReflect_value, Value.toObj_toValue hw] at h; cases h
    exact Value.toObj_toValue hw
  | structValue =>
    obtain ⟨ns, fs, rfl⟩ := (opaque_takes hD (u := .structValue) trivial hw).mpr ⟨y, h⟩
    exact own rfl (by simp [Value.toObj, Obj.typeOf])
  | tupleStructValue =>
    obtain ⟨fs, rfl⟩ := (opaque_takes hD (u := .tupleStructValue) trivial hw).mpr ⟨y, h⟩
    exact own rfl (by simp [Value.toObj, Obj.typeOf])
  | tupleValue =>
    obtain ⟨fs, rfl⟩ := (opaque_takes hD (u := .tupleValue) trivial hw).mpr ⟨y, h⟩
    exact own rfl (by simp [Value.toObj, Obj.typeOf])
  | enumValue =>
    have := (opaque_takes hD (u := .enumValue) trivial hw).mpr ⟨y, h⟩
    refine own rfl ?_
    cases v <;> simp [Ty.OpaqueTakes, Value.variant] at this <;> simp [Value.toObj, Obj.typeOf]
  | vec t =>
    cases v <;> (rw [Value.toObj] at hstep; cases hstep)
    rename_i ws ys hF
    refine ⟨ws, ys.map fun x => x.toValue, rfl, by rw [Obj.toValue], ?_⟩
    rw [List.forall₂_map_right_iff]
    rw [List.forall₂_map_left_iff] at hF
    exact hF.imp fun a b hab => kept_unbox.mpr ⟨b, hab, rfl⟩
  | array t len =>
    generalize hlen : len = len' at hstep
    cases v <;> (rw [Value.toObj] at hstep; cases hstep)
    rename_i ws ys hF
    refine ⟨ws, ys.map fun x => x.toValue, rfl, by rw [Obj.toValue], ?_⟩
    rw [List.forall₂_map_right_iff]
    rw [List.forall₂_map_left_iff] at hF
    exact hF.imp fun a b hab => kept_unbox.mpr ⟨b, hab, rfl⟩
  | map k t =>
    cases v <;> (rw [Value.toObj] at hstep; cases hstep)
    rename_i kvs l hF
    rw [List.forall₂_map_left_iff] at hF
    refine ⟨kvs, l.map fun p => (p.1.toValue, p.2.toValue), rfl, ?_, ?_⟩
    · refine toValue_map hO (fun q hq => ?_) (hk k t rfl)
      obtain ⟨i, hi⟩ := List.getElem?_of_mem hq
      obtain ⟨p, hp, hr⟩ := forall₂_getElem? hF.flip hi
      exact fromReflect_sound hO _ _ ((mem_map_part (List.mem_of_getElem? hp)).1.2 hw).ok hr.1
    · rw [List.forall₂_map_right_iff]
      exact hF.imp fun a b hab => ⟨kept_unbox.mpr ⟨_, hab.1, rfl⟩, kept_unbox.mpr ⟨_, hab.2, rfl⟩⟩
  | tuple ts =>
    cases hstep with
    | tuple _ _ fs hkind hl hfs =>
      refine ⟨fs.map fun x => x.toValue, by rw [Obj.toValue], by simp [hl], fun i j hj => ?_⟩
      rw [List.getElem?_map, Option.map_eq_some_iff] at hj
      obtain ⟨t, ht, rfl⟩ := hj
      obtain ⟨x, hx⟩ := align_pos hl.symm ht
      obtain ⟨o, ho, hr⟩ := hfs i t x ht hx
      obtain ⟨w, hv, rfl⟩ := (toObj_fieldAt hw).mp ho
      exact ⟨w, x.toValue, hv, by rw [List.getElem?_map, hx]; rfl, kept_unbox.mpr ⟨x, hr, rfl⟩⟩
  | struct n fds c names fields hd he _ _ =>
    cases hstep with
    | struct _ fds' c' _ fs hd' hkind hf =>
      rw [hd] at hd'; cases hd'
      obtain ⟨h1, h2⟩ := namedFrom_retains hO hw (hD.struct_names _ _ _ hd) he hf
      exact ⟨_, by rw [toValue_struct, h1], h2⟩
    | tupleStruct _ _ _ _ _ hd' => rw [hd] at hd'; cases hd'
    | enumS _ _ _ _ _ _ _ hd' => rw [hd] at hd'; cases hd'
    | enumT _ _ _ _ _ _ _ hd' => rw [hd] at hd'; cases hd'
    | enumU _ _ _ _ _ hd' => rw [hd] at hd'; cases hd'
  | tupleStruct n fds c hd =>
    have hgap : ¬ SkipGap fds := fun h => hg ⟨n, c, rfl, .inl ⟨fds, hd, h⟩⟩
    cases hstep with
    | tupleStruct _ fds' c' _ fs hd' hkind hf =>
      rw [hd] at hd'; cases hd'
      exact ⟨_, toValue_tupleStruct _ _, posFrom_retains hO hw hgap hf⟩
    | struct _ _ _ _ _ hd' => rw [hd] at hd'; cases hd'
    | enumS _ _ _ _ _ _ _ hd' => rw [hd] at hd'; cases hd'
    | enumT _ _ _ _ _ _ _ hd' => rw [hd] at hd'; cases hd'
    | enumU _ _ _ _ _ hd' => rw [hd] at hd'; cases hd'
  | enum n vds c vs hd hl hvs =>
    have find : ∀ {vd}, vd ∈ vds → ∃ m ∈ vs, DescribesVariant vd m := by
      intro vd hm
      obtain ⟨i, hi⟩ := List.getElem?_of_mem hm
      have hlt : i < vs.length := by have := (List.getElem?_eq_some_iff.mp hi).1; omega
      exact ⟨_, List.getElem_mem hlt, hvs i vd _ hi (List.getElem?_eq_getElem hlt)⟩
    cases hstep with
    | struct _ _ _ _ _ hd' => rw [hd] at hd'; cases hd'
    | tupleStruct _ _ _ _ _ hd' => rw [hd] at hd'; cases hd'
    | enumS _ _ _ vn fds _ fs hd' hm hvn hf =>
      rw [hd] at hd'; cases hd'
      obtain ⟨m, hmm, hdv⟩ := find hm
      refine ⟨m, hmm, ?_⟩
      cases hdv with
      | struct _ _ names fields he _ _ =>
        obtain ⟨h1, h2⟩ := namedFrom_retains hO hw (hD.variant_fields _ _ _ _ _ hd hm) he hf
        exact ⟨by rw [← toObj_variantName, hvn]; rfl, _, by rw [toValue_enumS, h1], h2⟩
    | enumT _ _ _ vn fds _ fs hd' hm hvn hf =>
      rw [hd] at hd'; cases hd'
      obtain ⟨m, hmm, hdv⟩ := find hm
      refine ⟨m, hmm, ?_⟩
      have hgap : ¬ SkipGap fds := fun h => hg ⟨n, c, rfl, .inr ⟨vn, fds, vds, hd, hm, h⟩⟩
      cases hdv with
      | tuple _ _ =>
        exact ⟨by rw [← toObj_variantName, hvn]; rfl, _, toValue_enumT _ _ _, posFrom_retains hO hw hgap hf⟩
    | enumU _ _ _ vn _ hd' hm hvn =>
      rw [hd] at hd'; cases hd'
      obtain ⟨m, hmm, hdv⟩ := find hm
      refine ⟨m, hmm, ?_⟩
      cases hdv with
      | unit _ => exact ⟨by rw [← toObj_variantName, hvn]; rfl, by rw [Obj.toValue]⟩


/-! ## The relation of a graph -/

/-- `Retains` depends only on what `R` says of the ids of the node and the parts of the value; ids may be
renamed. -/
theorem TypeNode.Retains.rename {r : Ty → Ty} {R R' : Ty → Value → Value → Prop} {v v' : Value} {n : TypeNode}
    (hR : ∀ j ∈ n.ids, ∀ w w', sizeOf w < sizeOf v → (v.WF → w.WF) → R j w w' → R' (r j) w w')
    (h : n.Retains R v v') : (n.rename r).Retains R' v v' := by
  have named : ∀ {names} {fields : List (String × Ty)} {fs'}, (∀ j ∈ fields.map (fun p : String × Ty => p.2), ∀ w w',
      sizeOf w < sizeOf v → (v.WF → w.WF) → R j w w' → R' (r j) w w') → RetainsNamed R v names fields fs' →
      RetainsNamed R' v names (fields.map fun p => (p.1, r p.2)) fs' := by
    intro names fields fs' hR h
    refine ⟨h.sorted, h.keys, fun q hq => ?_⟩
    rw [namedTypes_rename] at hq
    obtain ⟨p, hp, rfl⟩ := List.mem_map.mp hq
    obtain ⟨j, w, w', h1, h2, h3, h4⟩ := h.kept p hp
    exact ⟨r j, w, w', by simp [h1], h2, h3, hR j (takes_ids hp h1) w w' h2.part.1 h2.part.2 h4⟩
  have nth : ∀ {fields : List Ty} {ws'}, (∀ j ∈ fields, ∀ w w', sizeOf w < sizeOf v →
      (v.WF → w.WF) → R j w w' → R' (r j) w w') → RetainsNth R v fields ws' → RetainsNth R' v (fields.map r) ws' := by
    intro fields ws' hR h
    refine ⟨by simpa using h.length, fun i j hj => ?_⟩
    rw [List.getElem?_map, Option.map_eq_some_iff] at hj
    obtain ⟨t, ht, rfl⟩ := hj
    obtain ⟨w, w', h2, h3, h4⟩ := h.kept i t ht
    exact ⟨w, w', h2, h3, hR t (List.mem_of_getElem? ht) w w' h2.part.1 h2.part.2 h4⟩
  cases n with
  | struct names fields => obtain ⟨fs', rfl, h⟩ := h; exact ⟨fs', rfl, named hR h⟩
  | tupleStruct fields => obtain ⟨fs', rfl, h⟩ := h; exact ⟨fs', rfl, nth hR h⟩
  | tuple fields => obtain ⟨fs', rfl, h⟩ := h; exact ⟨fs', rfl, nth hR h⟩
  | enum vs =>
    obtain ⟨m, hm, hv, h⟩ := h
    refine ⟨m.rename r, List.mem_map_of_mem hm, by rw [VariantNode.rename_name]; exact hv, ?_⟩
    have hids : ∀ j ∈ m.ids, j ∈ TypeNode.ids (.enum vs) := fun j hj =>
      List.mem_flatMap.mpr ⟨m, hm, hj⟩
    cases m with
    | struct _ names fields => obtain ⟨fs', rfl, h⟩ := h; exact ⟨fs', rfl, named (fun j hj => hR j (hids j hj)) h⟩
    | tuple _ fields => obtain ⟨fs', rfl, h⟩ := h; exact ⟨fs', rfl, nth (fun j hj => hR j (hids j hj)) h⟩
    | unit _ => exact h
  | list j =>
    obtain ⟨ws, ws', rfl, rfl, h⟩ := h
    refine ⟨ws, ws', rfl, rfl, forall2_of_index h.length_eq.symm fun i a b ha hb => ?_⟩
    have hm := List.mem_of_getElem? ha
    exact hR j (by simp [TypeNode.ids]) a b (mem_list_part hm).1 (mem_list_part hm).2 ((index_of_forall2 h).2 i a b ha hb)
  | array j len =>
    obtain ⟨ws, ws', rfl, rfl, h⟩ := h
    refine ⟨ws, ws', rfl, rfl, forall2_of_index h.length_eq.symm fun i a b ha hb => ?_⟩
    have hm := List.mem_of_getElem? ha
    exact hR j (by simp [TypeNode.ids]) a b (mem_list_part hm).1 (mem_list_part hm).2 ((index_of_forall2 h).2 i a b ha hb)
  | map k j =>
    obtain ⟨kvs, l, rfl, rfl, h⟩ := h
    refine ⟨kvs, l, rfl, rfl, forall2_of_index h.length_eq.symm fun i a b ha hb => ?_⟩
    have hm := List.mem_of_getElem? ha
    have hab := (index_of_forall2 h).2 i a b ha hb
    exact ⟨hR k (by simp [TypeNode.ids]) _ _ (mem_map_part hm).1.1 (mem_map_part hm).1.2 hab.1,
      hR j (by simp [TypeNode.ids]) _ _ (mem_map_part hm).2.1 (mem_map_part hm).2.2 hab.2⟩
  | scalar k => exact h
  | «opaque» => exact h

theorem TypeNode.rename_same (n : TypeNode) : n.rename (fun i => i) = n := by
  have : ∀ m : VariantNode, m.rename (fun i => i) = m := by intro m; cases m <;> simp [VariantNode.rename]
  cases n <;> simp [TypeNode.rename, this]

theorem TypeNode.Retains.mono {R R' : Ty → Value → Value → Prop} {v v' : Value} {n : TypeNode}
    (hR : ∀ j ∈ n.ids, ∀ w w', sizeOf w < sizeOf v → (v.WF → w.WF) → R j w w' → R' j w w')
    (h : n.Retains R v v') : n.Retains R' v v' := by
  have := h.rename (r := fun i => i) hR
  rwa [TypeNode.rename_same] at this

theorem Retains.intro {g : TypeGraph} {i : Ty} {v v' : Value} {n : TypeNode}
    (hn : g.node i = some n) (h : n.Retains (Retains g) v v') : Retains g i v v' := by
  intro R hR
  exact hR i v v' n hn (h.mono fun j _ w w' _ _ hw => hw R hR)

theorem Retains.cases {g : TypeGraph} {i : Ty} {v v' : Value}
    (h : Retains g i v v') : ∃ n, g.node i = some n ∧ n.Retains (Retains g) v v' :=
  h (fun i v v' => ∃ n, g.node i = some n ∧ n.Retains (Retains g) v v') fun _ _ _ n hn ht =>
    ⟨n, hn, ht.mono fun _ _ _ _ _ _ ⟨_, hm, hw⟩ => Retains.intro hm hw⟩

theorem retains_rename {r : Ty → Ty} {P : Ty → Prop} {g g' : TypeGraph} (h : Renames r P g g')
    {i : Ty} {v v' : Value} (hi : P i) (hr : Retains g i v v') : Retains g' (r i) v v' := by
  refine hr (fun i v v' => P i → Retains g' (r i) v v') (fun i v v' n hn ht hi => ?_) hi
  exact .intro (by rw [h.node i hi, hn]; rfl) (ht.rename fun j hj _ _ _ _ hw => hw (h.closed i n hi hn j hj))

/-! ## It is a function -/

theorem Value.Named.unique {v w w' : Value} {n : String} (hv : v.WF) (h : v.Named n w) (h' : v.Named n w') :
    w = w' := by
  have key : ∀ {fs : List (String × Value)}, BMSorted strCmp fs → (n, w) ∈ fs → (n, w') ∈ fs → w = w' := by
    intro fs hs h h'
    have := (lookup_iff (strSorted_nodup hs)).mpr h
    rw [(lookup_iff (strSorted_nodup hs)).mpr h'] at this
    exact (Option.some.inj this).symm
  cases hv with
  | struct _ _ _ hs _ => exact key hs h h'
  | enumS _ _ _ _ hs _ => exact key hs h h'
  | _ => exact h.elim

theorem Value.Nth.unique {v w w' : Value} {i : Nat} (hv : v.WF) (h : v.Nth i w) (h' : v.Nth i w') :
    w = w' := by
  cases v with
  | struct ns fs =>
    obtain ⟨n, hn, h⟩ := h
    obtain ⟨n', hn', h'⟩ := h'
    rw [hn] at hn'; cases hn'
    exact Value.Named.unique (n := n) hv h h'
  | enumS vn ns fs =>
    obtain ⟨n, hn, h⟩ := h
    obtain ⟨n', hn', h'⟩ := h'
    rw [hn] at hn'; cases hn'
    exact Value.Named.unique (n := n) hv h h'
  | enumT vn ws => exact Option.some.inj (Eq.trans (Eq.symm h) h')
  | tupleStruct ws => exact Option.some.inj (Eq.trans (Eq.symm h) h')
  | tuple ws => exact Option.some.inj (Eq.trans (Eq.symm h) h')
  | list ws => exact Option.some.inj (Eq.trans (Eq.symm h) h')
  | _ => exact h.elim

theorem forall₂_agree {α β : Type} {R R' : α → β → Prop} {l : List α} {m m' : List β}
    (h : List.Forall₂ R l m) (h' : List.Forall₂ R' l m') (hu : ∀ a ∈ l, ∀ b b', R a b → R' a b' → b = b') : m = m' := by
  induction h generalizing m' with
  | nil => cases h'; rfl
  | cons h _ ih =>
    cases h' with
    | cons g t =>
      rw [hu _ (by simp) _ _ h g, ih t fun a ha => hu a (by simp [ha])]

/-- The described variants have different names. -/
def TypeNode.Distinct : TypeNode → Prop
  | .enum vs => (vs.map (·.name)).Nodup
  | _ => True

theorem TypeNode.Retains.unique {R R' : Ty → Value → Value → Prop} {v a b : Value} {n : TypeNode}
    (hw : v.WF) (hd : n.Distinct)
    (hR : ∀ j ∈ n.ids, ∀ w, sizeOf w < sizeOf v → (v.WF → w.WF) → ∀ a b, R j w a → R' j w b → a = b)
    (h : n.Retains R v a) (h' : n.Retains R' v b) : a = b := by
  have named : ∀ {names} {fields : List (String × Ty)} {fs fs'}, (∀ j ∈ fields.map (fun p : String × Ty => p.2), ∀ w,
      sizeOf w < sizeOf v → (v.WF → w.WF) → ∀ a b, R j w a → R' j w b → a = b) → RetainsNamed R v names fields fs →
      RetainsNamed R' v names fields fs' → fs = fs' := by
    intro names fields fs fs' hR h h'
    have both : ∀ n ∈ names, ∃ w, (n, w) ∈ fs ∧ (n, w) ∈ fs' := by
      intro n hn
      have hp : (n, bmGet strCmp n fields) ∈ namedTypes names fields := List.mem_map_of_mem hn
      obtain ⟨j, w, x, h1, h2, h3, h4⟩ := h.kept _ hp
      obtain ⟨j', w', x', h1', h2', h3', h4'⟩ := h'.kept _ hp
      rw [h1] at h1'; cases h1'
      cases Value.Named.unique hw h2 h2'
      cases hR j (takes_ids hp h1) w h2.part.1 h2.part.2 _ _ h4 h4'
      exact ⟨x, h3, h3'⟩
    have one : ∀ {l : List (String × Value)} {n : String} {w w' : Value}, BMSorted strCmp l → (n, w) ∈ l → (n, w') ∈ l → w = w' := by
      intro l n w w' hs h h'
      have := (lookup_iff (strSorted_nodup hs)).mpr h
      rw [(lookup_iff (strSorted_nodup hs)).mpr h'] at this
      exact (Option.some.inj this).symm
    refine sorted_ext h.sorted h'.sorted fun p => ⟨fun hp => ?_, fun hp => ?_⟩
    · obtain ⟨w, h1, h2⟩ := both p.1 ((h.keys p.1).mpr (List.mem_map_of_mem hp))
      rw [show p = (p.1, w) from Prod.ext rfl (one h.sorted hp h1)]; exact h2
    · obtain ⟨w, h1, h2⟩ := both p.1 ((h'.keys p.1).mpr (List.mem_map_of_mem hp))
      rw [show p = (p.1, w) from Prod.ext rfl (one h'.sorted hp h2)]; exact h1
  have nth : ∀ {fields : List Ty} {ws ws'}, (∀ j ∈ fields, ∀ w, sizeOf w < sizeOf v →
      (v.WF → w.WF) → ∀ a b, R j w a → R' j w b → a = b) → RetainsNth R v fields ws → RetainsNth R' v fields ws' →
      ws = ws' := by
    intro fields ws ws' hR h h'
    refine List.ext_getElem? fun i => ?_
    cases hj : fields[i]? with
    | none =>
      have hle := List.getElem?_eq_none_iff.mp hj
      rw [List.getElem?_eq_none_iff.mpr (by rw [h.length]; exact hle),
        List.getElem?_eq_none_iff.mpr (by rw [h'.length]; exact hle)]
    | some j =>
      obtain ⟨w, x, h2, h3, h4⟩ := h.kept i j hj
      obtain ⟨w', x', h2', h3', h4'⟩ := h'.kept i j hj
      cases Value.Nth.unique hw h2 h2'
      rw [h3, h3', hR j (List.mem_of_getElem? hj) w h2.part.1 h2.part.2 _ _ h4 h4']
  cases n with
  | struct names fields =>
    obtain ⟨fs, rfl, h⟩ := h
    obtain ⟨fs', rfl, h'⟩ := h'
    rw [named hR h h']
  | tupleStruct fields =>
    obtain ⟨fs, rfl, h⟩ := h
    obtain ⟨fs', rfl, h'⟩ := h'
    rw [nth hR h h']
  | tuple fields =>
    obtain ⟨fs, rfl, h⟩ := h
    obtain ⟨fs', rfl, h'⟩ := h'
    rw [nth hR h h']
  | enum vs =>
    obtain ⟨m, hm, hv, h⟩ := h
    obtain ⟨m', hm', hv', h'⟩ := h'
    have : m = m' := by
      rw [hv] at hv'
      exact List.inj_on_of_nodup_map hd hm hm' (Option.some.inj hv')
    subst this
    have hids : ∀ j ∈ m.ids, j ∈ TypeNode.ids (.enum vs) := fun j hj =>
      List.mem_flatMap.mpr ⟨m, hm, hj⟩
    cases m with
    | struct _ names fields =>
      obtain ⟨fs, rfl, h⟩ := h
      obtain ⟨fs', rfl, h'⟩ := h'
      rw [named (fun j hj => hR j (hids j hj)) h h']
    | tuple _ fields =>
      obtain ⟨fs, rfl, h⟩ := h
      obtain ⟨fs', rfl, h'⟩ := h'
      rw [nth (fun j hj => hR j (hids j hj)) h h']
    | unit _ => exact h.trans h'.symm
  | list j =>
    obtain ⟨ws, xs, rfl, rfl, h⟩ := h
    obtain ⟨ws', xs', he, rfl, h'⟩ := h'
    cases he
    rw [forall₂_agree h h' fun a ha => hR j (by simp [TypeNode.ids]) a (mem_list_part ha).1 (mem_list_part ha).2]
  | array j len =>
    obtain ⟨ws, xs, rfl, rfl, h⟩ := h
    obtain ⟨ws', xs', he, rfl, h'⟩ := h'
    cases he
    rw [forall₂_agree h h' fun a ha => hR j (by simp [TypeNode.ids]) a (mem_list_part ha).1 (mem_list_part ha).2]
  | map k j =>
    obtain ⟨ws, xs, rfl, rfl, h⟩ := h
    obtain ⟨ws', xs', he, rfl, h'⟩ := h'
    cases he
    rw [forall₂_agree h h' fun a ha b b' hb hb' => Prod.ext
      (hR k (by simp [TypeNode.ids]) _ (mem_map_part ha).1.1 (mem_map_part ha).1.2 _ _ hb.1 hb'.1)
      (hR j (by simp [TypeNode.ids]) _ (mem_map_part ha).2.1 (mem_map_part ha).2.2 _ _ hb.2 hb'.2)]
  | scalar k => exact Eq.trans h h'.symm
  | «opaque» => exact Eq.trans h h'.symm

theorem Retains.unique {P : Ty → Prop} {g : TypeGraph}
    (hc : ∀ i n, P i → g.node i = some n → n.Distinct ∧ ∀ j ∈ n.ids, P j) :
    ∀ {v : Value} {i : Ty} {a b : Value}, P i → v.WF → Retains g i v a → Retains g i v b → a = b := by
  intro v
  generalize hs : sizeOf v = k
  induction k using Nat.strong_induction_on generalizing v with
  | _ k ih =>
    intro i a b hi hw h h'
    obtain ⟨n, hn, h⟩ := h.cases
    obtain ⟨n', hn', h'⟩ := h'.cases
    rw [hn] at hn'; cases hn'
    obtain ⟨hd, hids⟩ := hc i n hi hn
    refine h.unique hw hd (fun j hj w hlt hwf a b ha hb => ?_) h'
    exact ih (sizeOf w) (by omega) rfl (hids j hj) (hwf hw) ha hb

theorem describes_distinct {E : Env} (hD : DeclsOK E) {u : Ty} {n : TypeNode} (hd : Describes E u n) : n.Distinct := by
  cases hd with
  | enum n vds c vs hd hl hvs =>
    have : vs.map (·.name) = vds.map (·.name) := by
      refine List.ext_getElem? fun i => ?_
      rw [List.getElem?_map, List.getElem?_map]
      cases hi : vs[i]? with
      | none =>
        have : vds[i]? = none := by rw [List.getElem?_eq_none_iff] at hi ⊢; omega
        rw [this]; rfl
      | some m =>
        obtain ⟨vd, hvd⟩ := align_pos hl hi
        have := hvs i vd m hvd hi
        rw [hvd]
        cases this <;> rfl
    show (vs.map (·.name)).Nodup
    rw [this]; exact hD.variant_names _ _ _ hd
  | _ => trivial


end Mirror
