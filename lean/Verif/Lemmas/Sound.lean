import Verif.Lemmas.RoundTrip

set_option linter.unusedSimpArgs false

/-!
# What `fromReflect` returns is a proper value
-/

namespace Mirror

/-- A proper value of some type. -/
def Obj.OK (E : Env) (o : Obj) : Prop := ∃ t, HasTy E t o

theorem Value.WF.ok {E : Env} {v : Value} (h : v.WF) : v.toObj.OK E := ⟨_, .value v _ h rfl⟩

theorem optAll_map_inv {α β} {f : α → Option β} {l : List α} {r : List β}
    (h : optAll (l.map f) = some r) :
    r.length = l.length ∧ ∀ (i : Nat) x y, l[i]? = some x → r[i]? = some y → f x = some y := by
  rw [optAll_eq_some] at h
  refine ⟨by simpa using (congrArg List.length h).symm, ?_⟩
  intro i x y hx hy
  have := congrArg (·[i]?) h
  simpa [hx, hy] using this

theorem optAll_mapIdx_inv {α β} {f : Nat → α → Option β} {l : List α} {r : List β}
    (h : optAll (l.mapIdx f) = some r) :
    r.length = l.length ∧ ∀ (i : Nat) x y, l[i]? = some x → r[i]? = some y → f i x = some y := by
  rw [optAll_eq_some] at h
  refine ⟨by simpa using (congrArg List.length h).symm, ?_⟩
  intro i x y hx hy
  have := congrArg (·[i]?) h
  simpa [hx, hy] using this

theorem Value.WF.parts_ok {E : Env} {v : Value} (h : v.WF) : ∀ x ∈ v.toObj.parts, x.OK E := by
  intro x hx
  have aux : ∀ {fs : List (String × Value)}, (∀ p ∈ fs, p.2.WF) →
      x ∈ (visFields (fs.map fun p => (p.1, p.2.toObj))).map (·.2) → x.OK E := by
    intro fs h hx
    rw [toObj_visFields, List.map_map] at hx
    obtain ⟨p, hp, rfl⟩ := List.mem_map.mp hx
    exact (h p hp).ok
  have aux2 : ∀ {fs : List Value}, (∀ v ∈ fs, v.WF) →
      x ∈ visPos (fs.map fun v => v.toObj) → x.OK E := by
    intro fs h hx
    obtain ⟨p, hp, rfl⟩ := List.mem_map.mp (visPos_sub hx)
    exact (h p hp).ok
  cases h with
  | scalar s => simp [Value.toObj, Obj.parts] at hx
  | enumU s => simp [Value.toObj, Obj.parts] at hx
  | struct ns fs _ _ h => rw [Value.toObj] at hx; exact aux h hx
  | enumS v ns fs _ _ h => rw [Value.toObj] at hx; exact aux h hx
  | enumT v fs h => rw [Value.toObj] at hx; exact aux2 h hx
  | tupleStruct fs h => rw [Value.toObj] at hx; exact aux2 h hx
  | tuple fs h => rw [Value.toObj] at hx; exact aux2 h hx
  | list fs h =>
    rw [Value.toObj] at hx
    obtain ⟨p, hp, rfl⟩ := List.mem_map.mp hx
    exact (h p hp).ok
  | map kvs _ hk hv =>
    rw [Value.toObj] at hx
    simp only [Obj.parts, List.mem_append, List.map_map, List.mem_map] at hx
    rcases hx with ⟨p, hp, rfl⟩ | ⟨p, hp, rfl⟩
    · exact (hk p hp).ok
    · exact (hv p hp).ok

theorem HasTy.parts_ok {E : Env} {t : Ty} {o : Obj} (h : HasTy E t o) :
    ∀ x ∈ o.parts, x.OK E := by
  induction h with
  | scalar s => simp [Obj.parts]
  | nonzero k n h => simp [Obj.parts]
  | enumU n vds c vn hd hv => simp [Obj.parts]
  | struct n fds c fs hd h2 h3 h4 _ =>
    intro x hx
    obtain ⟨p, hp, rfl⟩ := List.mem_map.mp hx
    exact vis_named (P := fun x => x.OK E) h2 h3 (fun i fd p h h' h'' => ⟨_, h4 i fd p h h' h''⟩) hp
  | enumS n vds c vn fds fs hd hv h2 h3 h4 _ =>
    intro x hx
    obtain ⟨p, hp, rfl⟩ := List.mem_map.mp hx
    exact vis_named (P := fun x => x.OK E) h2 h3 (fun i fd p h h' h'' => ⟨_, h4 i fd p h h' h''⟩) hp
  | tupleStruct n fds c fs hd h2 h3 h4 _ =>
    intro x hx
    exact vis_pos (P := fun x => x.OK E) h2 h3 (fun i fd p h h' h'' => ⟨_, h4 i fd p h h' h''⟩) hx
  | enumT n vds c vn fds fs hd hv h2 h3 h4 _ =>
    intro x hx
    exact vis_pos (P := fun x => x.OK E) h2 h3 (fun i fd p h h' h'' => ⟨_, h4 i fd p h h' h''⟩) hx
  | tuple ts fs hl h _ =>
    intro x hx
    obtain ⟨i, hi⟩ := List.getElem?_of_mem (visPos_sub hx)
    obtain ⟨t, ht⟩ := align_pos hl hi
    exact ⟨_, h i t x ht hi⟩
  | vec t xs h _ => intro x hx; exact ⟨_, h x hx⟩
  | array t xs h _ => intro x hx; exact ⟨_, h x hx⟩
  | map kt vt kvs hs hk hv _ _ =>
    intro x hx
    simp only [Obj.parts, List.mem_append, List.mem_map] at hx
    rcases hx with ⟨p, hp, rfl⟩ | ⟨p, hp, rfl⟩
    · exact ⟨_, hk p hp⟩
    · exact ⟨_, hv p hp⟩
  | box t o _ ih => exact ih
  | value v o h ho => subst ho; exact h.parts_ok
  | structValue ns fs o h ho => subst ho; exact h.parts_ok
  | tupleStructValue fs o h ho => subst ho; exact h.parts_ok
  | tupleValue fs o h ho => subst ho; exact h.parts_ok
  | enumValueS v ns fs o h ho => subst ho; exact h.parts_ok
  | enumValueT v fs o h ho => subst ho; exact h.parts_ok
  | enumValueU v o ho => subst ho; exact (Value.WF.enumU v).parts_ok

theorem Obj.OK.parts {E : Env} {o x : Obj} (h : o.OK E) (hx : x ∈ o.parts) : x.OK E := by
  obtain ⟨t, h⟩ := h; exact h.parts_ok x hx

theorem Obj.OK.not_hidden {E : Env} {o : Obj} (h : o.OK E) : o.isHidden = false := by
  obtain ⟨t, h⟩ := h; exact h.not_hidden

theorem Obj.OK.toValue_wf {E : Env} {o : Obj} (h : o.OK E) : o.toValue.WF := by
  obtain ⟨t, h⟩ := h; exact h.toValue_wf

theorem Obj.OK.isTy {E : Env} (hO : OrdLaws E) {o : Obj} (h : o.OK E) {t : Ty}
    (ht : o.isTy t = true) : HasTy E t o := by
  obtain ⟨u, h⟩ := h
  obtain ⟨w, hw, h⟩ := h.typeOf hO
  simp only [Obj.isTy, beq_iff_eq] at ht
  rw [ht] at hw; cases hw; exact h

theorem visAt_parts {fs : List Obj} {i : Nat} {x : Obj} (h : visAt fs i = some x) :
    x ∈ visPos fs := by
  refine List.mem_filter.mpr ⟨visAt_mem h, ?_⟩
  unfold visAt at h
  split at h
  · split at h
    · cases h
    · cases h; simp_all
  · cases h

theorem Obj.field_parts {o : Obj} {n : String} {x : Obj} (h : o.field n = some x) :
    x ∈ o.parts := by
  cases o <;> simp only [Obj.field, reduceCtorEq] at h
  all_goals exact List.mem_map.mpr ⟨_, lookup_mem h, rfl⟩

/-- In dynamic records every entry is visible. -/
def Obj.DynVis : Obj → Prop
  | .struct (.dyn _) fs => ∀ p ∈ fs, p.2.isHidden = false
  | .enumS (.dyn _) _ fs => ∀ p ∈ fs, p.2.isHidden = false
  | _ => True

theorem Value.dynVis (v : Value) : v.toObj.DynVis := by
  have : ∀ {fs : List (String × Value)}, ∀ p ∈ fs.map (fun p => (p.1, p.2.toObj)),
      p.2.isHidden = false := by
    intro fs p hp
    obtain ⟨q, _, rfl⟩ := List.mem_map.mp hp
    exact q.2.toObj_not_hidden
  cases v <;> simp only [Value.toObj, Obj.DynVis] <;> exact this

theorem HasTy.dynVis {E : Env} {t : Ty} {o : Obj} (h : HasTy E t o) : o.DynVis := by
  induction h <;> first | exact trivial | assumption | (subst_vars; apply Value.dynVis)

theorem Obj.fieldAt_parts {o : Obj} (hv : o.DynVis) {i : Nat} {x : Obj}
    (h : o.fieldAt i = some x) : x ∈ o.parts := by
  cases o <;> simp only [Obj.fieldAt, reduceCtorEq] at h
  case struct tag fs =>
    cases tag with
    | derived n =>
      obtain ⟨p, hp, rfl⟩ := Option.map_eq_some_iff.mp h
      exact List.mem_map.mpr ⟨_, List.mem_of_getElem? hp, rfl⟩
    | dyn ns =>
      obtain ⟨n, _, h⟩ := Option.bind_eq_some_iff.mp h
      have hm := lookup_mem h
      exact List.mem_map.mpr ⟨_, List.mem_filter.mpr ⟨hm, by simp [hv _ hm]⟩, rfl⟩
  case enumS tag v fs =>
    cases tag with
    | derived n =>
      have := visAt_parts h
      simp only [visPos, List.mem_filter, List.mem_map] at this
      obtain ⟨⟨p, hp, rfl⟩, hh⟩ := this
      exact List.mem_map.mpr ⟨p, List.mem_filter.mpr ⟨hp, hh⟩, rfl⟩
    | dyn ns =>
      obtain ⟨n, _, h⟩ := Option.bind_eq_some_iff.mp h
      have hm := lookup_mem h
      exact List.mem_map.mpr ⟨_, List.mem_filter.mpr ⟨hm, by simp [hv _ hm]⟩, rfl⟩
  case vec => exact List.mem_of_getElem? h
  case array => exact List.mem_of_getElem? h
  all_goals exact visAt_parts h

theorem Obj.namedIter_parts {o : Obj} (hv : o.DynVis) {p : String × Obj} (h : p ∈ o.namedIter) :
    p.2 ∈ o.parts := by
  have tw : ∀ {fs : List (String × Obj)} {p}, p ∈ fs.takeWhile (fun p => !p.2.isHidden) →
      (!p.2.isHidden) = true := by
    intro fs p h
    have := List.all_takeWhile (p := fun p : String × Obj => !p.2.isHidden) (l := fs)
    rw [List.all_eq_true] at this
    exact this p h
  cases o <;> simp only [Obj.namedIter, List.not_mem_nil] at h
  case struct tag fs =>
    cases tag with
    | derived n => exact List.mem_map.mpr ⟨_, h, rfl⟩
    | dyn ns =>
      have hm := dynIter_mem h
      exact List.mem_map.mpr ⟨_, List.mem_filter.mpr ⟨hm, by simp [hv _ hm]⟩, rfl⟩
  case enumS tag v fs =>
    cases tag with
    | derived n =>
      exact List.mem_map.mpr ⟨_, List.mem_filter.mpr
        ⟨(List.takeWhile_prefix _).subset h, by simpa using tw h⟩, rfl⟩
    | dyn ns =>
      have hm := dynIter_mem h
      exact List.mem_map.mpr ⟨_, List.mem_filter.mpr ⟨hm, by simp [hv _ hm]⟩, rfl⟩

theorem Obj.posIter_parts {o : Obj} {x : Obj} (h : x ∈ o.posIter) : x ∈ o.parts := by
  have tw : ∀ {fs : List Obj} {x}, x ∈ fs.takeWhile (fun x => !x.isHidden) →
      (!x.isHidden) = true := by
    intro fs p h
    have := List.all_takeWhile (p := fun x : Obj => !x.isHidden) (l := fs)
    rw [List.all_eq_true] at this
    exact this p h
  cases o <;> simp only [Obj.posIter, List.not_mem_nil] at h
  case vec => exact h
  case array => exact h
  all_goals
    exact List.mem_filter.mpr ⟨(List.takeWhile_prefix _).subset h, by simpa using tw h⟩

theorem OK_field {E : Env} {o v : Obj} {n : String} (h : o.OK E) (hv : o.field n = some v) :
    v.OK E := h.parts (Obj.field_parts hv)

theorem OK_fieldAt {E : Env} {o v : Obj} {i : Nat} (h : o.OK E) (hv : o.fieldAt i = some v) :
    v.OK E := by
  obtain ⟨t, ht⟩ := h
  exact ht.parts_ok _ (Obj.fieldAt_parts ht.dynVis hv)

theorem OK_namedIter {E : Env} {o : Obj} {p : String × Obj} (h : o.OK E) (hv : p ∈ o.namedIter) :
    p.2.OK E := by
  obtain ⟨t, ht⟩ := h
  exact ht.parts_ok _ (Obj.namedIter_parts ht.dynVis hv)

theorem OK_posIter {E : Env} {o x : Obj} (h : o.OK E) (hv : x ∈ o.posIter) : x.OK E :=
  h.parts (Obj.posIter_parts hv)

/-- Whatever `fromReflect` returns for a proper source is a proper value of the target type. -/
theorem fromReflect_sound {E : Env} (hO : OrdLaws E) (t : Ty) (o : Obj) {y : Obj} (ho : o.OK E)
    (h : fromReflect E t o = some y) : HasTy E t y := by
  have named : ∀ (c : Bool) (fds : List FieldDef) (fs : List (String × Obj)),
      optAll (fds.map (convNamed E c o)) = some fs →
      fs.map (·.1) = fds.map (·.name) ∧
      (∀ (i : Nat) fd p, fds[i]? = some fd → fs[i]? = some p → fd.skip = true →
        p.2.isHidden = true) ∧
      (∀ (i : Nat) fd p, fds[i]? = some fd → fs[i]? = some p → fd.skip = false →
        HasTy E fd.ty p.2) := by
    intro c fds fs h
    obtain ⟨hl, h⟩ := optAll_map_inv h
    refine ⟨?_, ?_, ?_⟩
    · apply List.ext_getElem?
      intro i
      simp only [List.getElem?_map]
      cases hfd : fds[i]? with
      | none =>
        have : fs[i]? = none := by rw [List.getElem?_eq_none_iff] at hfd ⊢; omega
        simp [this]
      | some fd =>
        obtain ⟨p, hp⟩ := align_pos hl.symm hfd
        have := h i fd p hfd hp
        simp only [convNamed] at this
        split at this
        · cases this; simp [hp]
        · obtain ⟨v, _, this⟩ := Option.bind_eq_some_iff.mp this
          obtain ⟨y, _, rfl⟩ := Option.map_eq_some_iff.mp this
          simp [hp]
    · intro i fd p hfd hp hs
      have := h i fd p hfd hp
      simp [convNamed, hs] at this
      simp [← this, Obj.isHidden]
    · intro i fd p hfd hp hs
      have := h i fd p hfd hp
      simp only [convNamed, hs, Bool.false_eq_true, if_false] at this
      obtain ⟨v, hv, this⟩ := Option.bind_eq_some_iff.mp this
      obtain ⟨y, hy, rfl⟩ := Option.map_eq_some_iff.mp this
      have hsize := Obj.field_size hv
      simp only [convField] at hy
      split at hy
      · next hty => cases hy; simp at hty; exact (OK_field ho hv).isTy hO hty.2
      · exact fromReflect_sound hO fd.ty v (OK_field ho hv) hy
  have pos : ∀ (c : Bool) (fds : List FieldDef) (fs : List Obj),
      optAll (fds.mapIdx (convPos E c o)) = some fs →
      fs.length = fds.length ∧
      (∀ (i : Nat) fd p, fds[i]? = some fd → fs[i]? = some p → fd.skip = true →
        p.isHidden = true) ∧
      (∀ (i : Nat) fd p, fds[i]? = some fd → fs[i]? = some p → fd.skip = false →
        HasTy E fd.ty p) := by
    intro c fds fs h
    obtain ⟨hl, h⟩ := optAll_mapIdx_inv h
    refine ⟨hl, ?_, ?_⟩
    · intro i fd p hfd hp hs
      have := h i fd p hfd hp
      simp [convPos, hs] at this
      simp [← this, Obj.isHidden]
    · intro i fd p hfd hp hs
      have := h i fd p hfd hp
      simp only [convPos, hs, Bool.false_eq_true, if_false] at this
      obtain ⟨v, hv, hy⟩ := Option.bind_eq_some_iff.mp this
      have hsize := Obj.fieldAt_size hv
      simp only [convField] at hy
      split at hy
      · next hty => cases hy; simp at hty; exact (OK_fieldAt ho hv).isTy hO hty.2
      · exact fromReflect_sound hO fd.ty v (OK_fieldAt ho hv) hy
  match t, h with
  | .scalar k, h =>
    rw [fromReflect_scalar] at h
    split at h
    · next hty => cases h; exact ho.isTy hO hty
    · cases h
  | .nonzero k, h =>
    rw [fromReflect_nonzero] at h
    split at h
    · next hty => cases h; exact ho.isTy hO hty
    · split at h
      · split at h
        · next hh => cases h; exact .nonzero k _ hh.2
        · cases h
      · cases h
  | .named n, h =>
    cases hd : E.decl n with
    | none => rw [fromReflect_nodecl hd] at h; cases h
    | some d =>
      obtain ⟨sh, c⟩ := d
      cases sh with
      | struct fds =>
        rw [fromReflect_struct hd] at h
        split at h
        · obtain ⟨fs, hfs, rfl⟩ := Option.map_eq_some_iff.mp h
          obtain ⟨a, b, c'⟩ := named c fds fs hfs
          exact .struct n fds c fs hd a b c'
        · cases h
      | tupleStruct fds =>
        rw [fromReflect_tupleStruct hd] at h
        split at h
        · obtain ⟨fs, hfs, rfl⟩ := Option.map_eq_some_iff.mp h
          obtain ⟨a, b, c'⟩ := pos c fds fs hfs
          exact .tupleStruct n fds c fs hd a b c'
        · cases h
      | enum vds =>
        rw [fromReflect_enum hd] at h
        obtain ⟨vn, _, h⟩ := Option.bind_eq_some_iff.mp h
        obtain ⟨vd, hvd, h⟩ := Option.bind_eq_some_iff.mp h
        have hm := List.mem_of_find?_eq_some hvd
        cases vd with
        | struct vn fds =>
          obtain ⟨fs, hfs, rfl⟩ := Option.map_eq_some_iff.mp h
          obtain ⟨a, b, c'⟩ := named c fds fs hfs
          exact .enumS n vds c vn fds fs hd hm a b c'
        | tuple vn fds =>
          obtain ⟨fs, hfs, rfl⟩ := Option.map_eq_some_iff.mp h
          obtain ⟨a, b, c'⟩ := pos c fds fs hfs
          exact .enumT n vds c vn fds fs hd hm a b c'
        | unit vn => cases h; exact .enumU n vds c vn hd hm
  | .tuple ts, h =>
    rw [fromReflect_tuple] at h
    split at h
    · obtain ⟨fs, hfs, rfl⟩ := Option.map_eq_some_iff.mp h
      obtain ⟨hl, hi⟩ := optAll_mapIdx_inv hfs
      refine .tuple ts fs hl ?_
      intro i t x ht hx
      obtain ⟨v, hv, hy⟩ := Option.bind_eq_some_iff.mp (hi i t x ht hx)
      have hsize := Obj.fieldAt_size hv
      exact fromReflect_sound hO t v (OK_fieldAt ho hv) hy
    · cases h
  | .vec t, h =>
    cases o <;> simp [fromReflect] at h
    rename_i u xs
    obtain ⟨ys, hys, rfl⟩ := h
    obtain ⟨hl, hi⟩ := optAll_map_inv hys
    refine .vec t ys ?_
    intro y hy
    obtain ⟨i, hyi⟩ := List.getElem?_of_mem hy
    obtain ⟨x, hx⟩ := align_pos hl hyi
    have hsize := sizeOf_lt_of_getElem? hx
    exact fromReflect_sound hO t x (ho.parts (List.mem_of_getElem? hx)) (hi i x y hx hyi)
  | .array t n, h =>
    cases o <;> (first | (simp [fromReflect] at h; done) | skip)
    rename_i u xs
    rw [fromReflect_array] at h
    obtain ⟨ys, hys, h⟩ := Option.bind_eq_some_iff.mp h
    split at h
    · next hn =>
      cases h; subst hn
      obtain ⟨hl, hi⟩ := optAll_map_inv hys
      refine .array t ys ?_
      intro y hy
      obtain ⟨i, hyi⟩ := List.getElem?_of_mem hy
      obtain ⟨x, hx⟩ := align_pos hl hyi
      have hsize := sizeOf_lt_of_getElem? hx
      exact fromReflect_sound hO t x (ho.parts (List.mem_of_getElem? hx)) (hi i x y hx hyi)
    · cases h
  | .map kt vt, h =>
    cases o <;> (first | (simp [fromReflect] at h; done) | skip)
    rename_i u w kvs
    rw [fromReflect_map] at h
    obtain ⟨ys, hys, rfl⟩ := Option.map_eq_some_iff.mp h
    obtain ⟨hl, hi⟩ := optAll_map_inv hys
    have hall : ∀ p ∈ ys, HasTy E kt p.1 ∧ HasTy E vt p.2 := by
      intro y hy
      obtain ⟨i, hyi⟩ := List.getElem?_of_mem hy
      obtain ⟨x, hx⟩ := align_pos hl hyi
      have hm := List.mem_of_getElem? hx
      have h1 := sizeOf_fst_lt_of_mem hm
      have h2 := sizeOf_snd_lt_of_mem hm
      obtain ⟨k, hk, hh⟩ := Option.bind_eq_some_iff.mp (hi i x y hx hyi)
      obtain ⟨v, hv, rfl⟩ := Option.map_eq_some_iff.mp hh
      exact ⟨fromReflect_sound hO kt x.1 (ho.parts (by
          simp only [Obj.parts, List.mem_append]; exact .inl (List.mem_map_of_mem hm))) hk,
        fromReflect_sound hO vt x.2 (ho.parts (by
          simp only [Obj.parts, List.mem_append]; exact .inr (List.mem_map_of_mem hm))) hv⟩
    exact .map kt vt _ (bmOfList_sorted (hO.cmpOn kt) fun p hp => (hall p hp).1)
      (bmOfList_keys (hO.cmpOn kt) fun p hp => (hall p hp).1)
      (bmOfList_vals fun p hp => (hall p hp).2)
  | .box t, h =>
    rw [fromReflect_box] at h
    exact .box t y (fromReflect_sound hO t o ho h)
  | .value, h =>
    rw [fromReflect_value] at h; cases h
    exact .value _ _ ho.toValue_wf rfl
  | .structValue, h =>
    rw [fromReflect] at h
    split at h
    · cases h
      refine .structValue _ _ _ ?_ rfl
      rw [dynStruct, svOfList_eq]
      apply svWF
      intro p hp
      obtain ⟨q, hq, rfl⟩ := List.mem_map.mp hp
      exact (OK_namedIter ho hq).toValue_wf
    · cases h
  | .tupleStructValue, h =>
    rw [fromReflect] at h
    split at h
    · cases h
      refine .tupleStructValue _ _ (.tupleStruct _ ?_) rfl
      intro p hp
      obtain ⟨q, hq, rfl⟩ := List.mem_map.mp hp
      exact (OK_posIter ho hq).toValue_wf
    · cases h
  | .tupleValue, h =>
    rw [fromReflect] at h
    split at h
    · cases h
      refine .tupleValue _ _ (.tuple _ ?_) rfl
      intro p hp
      obtain ⟨q, hq, rfl⟩ := List.mem_map.mp hp
      exact (OK_posIter ho hq).toValue_wf
    · cases h
  | .enumValue, h =>
    rw [fromReflect] at h
    split at h
    · cases h
      refine .enumValueS _ _ _ _ ?_ rfl
      rw [dynStruct, svOfList_eq]
      apply evWF
      intro p hp
      obtain ⟨q, hq, rfl⟩ := List.mem_map.mp hp
      exact (OK_namedIter ho hq).toValue_wf
    · cases h
      refine .enumValueT _ _ _ (.enumT _ _ ?_) rfl
      intro p hp
      obtain ⟨q, hq, rfl⟩ := List.mem_map.mp hp
      exact (OK_posIter ho hq).toValue_wf
    · cases h
      exact .enumValueU _ _ rfl
    · cases h
termination_by (sizeOf o, sizeOf t)
decreasing_by
  all_goals first
    | (apply Prod.Lex.left; first | assumption | (simp_all; omega) | omega)
    | (apply Prod.Lex.right; simp_all; try omega)

end Mirror
