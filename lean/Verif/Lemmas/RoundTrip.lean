import Verif.Lemmas.ToValue

set_option linter.unusedSimpArgs false

/-!
# Lemmas for the round trip through `Value`
-/

namespace Mirror

theorem perm_map_inv {α β : Type} {f : α → β} {M N : List β} (h : M.Perm N) :
    ∀ l : List α, N = l.map f → ∃ l' : List α, l'.Perm l ∧ M = l'.map f := by
  induction h with
  | nil => intro l hl; exact ⟨l, .refl _, hl⟩
  | cons x _ ih =>
    intro l hl
    cases l with
    | nil => simp at hl
    | cons a l =>
      simp at hl
      obtain ⟨l', hp, he⟩ := ih l hl.2
      exact ⟨a :: l', hp.cons a, by simp [hl.1, he]⟩
  | swap x y r =>
    intro l hl
    match l, hl with
    | a :: b :: l, hl =>
      simp at hl
      exact ⟨b :: a :: l, .swap _ _ _, by simp [hl]⟩
  | trans _ _ ih1 ih2 =>
    intro l hl
    obtain ⟨l', hp, he⟩ := ih2 l hl
    obtain ⟨l'', hp', he'⟩ := ih1 l' he
    exact ⟨l'', hp'.trans hp, he'⟩

theorem OrdLaws.cmpOn {E : Env} (hO : OrdLaws E) (t : Ty) : CmpOn (HasTy E t) (E.kcmp t) :=
  ⟨hO.refl t, hO.swap t, hO.lt_trans t, hO.eq_trans t⟩

theorem find_variant {vds : List VariantDef} (h : (vds.map (·.name)).Nodup) {vd : VariantDef}
    (hm : vd ∈ vds) : vds.find? (fun d => d.name = vd.name) = some vd := by
  induction vds with
  | nil => simp at hm
  | cons d r ih =>
    simp only [List.map_cons, List.nodup_cons] at h
    rcases List.mem_cons.mp hm with rfl | hm
    · simp
    · have : d.name ≠ vd.name := fun he => h.1 (he ▸ List.mem_map_of_mem hm)
      simp [this, ih h.2 hm]

theorem list_of_values {xs : List Obj} (h : ∀ x ∈ xs, ∃ v : Value, v.WF ∧ x = v.toObj) :
    ∃ vs : List Value, (∀ v ∈ vs, v.WF) ∧ xs = vs.map fun v => v.toObj := by
  induction xs with
  | nil => exact ⟨[], by simp, rfl⟩
  | cons x r ih =>
    obtain ⟨v, hv, rfl⟩ := h x (by simp)
    obtain ⟨vs, hvs, rfl⟩ := ih fun y hy => h y (by simp [hy])
    exact ⟨v :: vs, by simpa using ⟨hv, hvs⟩, rfl⟩

theorem pairs_of_values {xs : List (Obj × Obj)}
    (h : ∀ p ∈ xs, (∃ v : Value, v.WF ∧ p.1 = v.toObj) ∧ ∃ v : Value, v.WF ∧ p.2 = v.toObj) :
    ∃ vs : List (Value × Value), (∀ v ∈ vs, v.1.WF) ∧ (∀ v ∈ vs, v.2.WF) ∧
      xs = vs.map fun v => (v.1.toObj, v.2.toObj) := by
  induction xs with
  | nil => exact ⟨[], by simp, by simp, rfl⟩
  | cons x r ih =>
    obtain ⟨⟨v, hv, hx⟩, w, hw, hy⟩ := h x (by simp)
    obtain ⟨vs, hvs, hvs', rfl⟩ := ih fun y hy => h y (by simp [hy])
    obtain ⟨a, b⟩ := x
    refine ⟨(v, w) :: vs, ?_, ?_, ?_⟩
    · intro p hp; rcases List.mem_cons.mp hp with rfl | hp
      · exact hv
      · exact hvs p hp
    · intro p hp; rcases List.mem_cons.mp hp with rfl | hp
      · exact hw
      · exact hvs' p hp
    simp at hx hy
    simp [hx, hy]

theorem HasTy.value_inv {E : Env} {o : Obj} (h : HasTy E .value o) :
    ∃ v : Value, v.WF ∧ o = v.toObj := by
  cases h with
  | value v _ h ho => exact ⟨v, h, ho⟩

/-- A `Vec<Value>` is the content of a list value. -/
theorem HasTy.vec_value_inv {E : Env} {o : Obj} (h : HasTy E (.vec .value) o) :
    ∃ vs, (Value.list vs).WF ∧ o = (Value.list vs).toObj := by
  cases h with
  | vec _ xs h =>
    obtain ⟨vs, hvs, rfl⟩ := list_of_values fun x hx => (h x hx).value_inv
    exact ⟨vs, .list _ hvs, by simp [Value.toObj]⟩

/-- A `BTreeMap<Value, Value>` is the content of a map value. -/
theorem HasTy.map_value_inv {E : Env} (hO : OrdLaws E) {o : Obj}
    (h : HasTy E (.map .value .value) o) :
    ∃ kvs, (Value.map kvs).WF ∧ o = (Value.map kvs).toObj := by
  cases h with
  | map _ _ xs hs hk hv =>
    obtain ⟨vs, h1, h2, rfl⟩ := pairs_of_values
      fun p hp => ⟨(hk p hp).value_inv, (hv p hp).value_inv⟩
    refine ⟨vs, .map _ ?_ h1 h2, by simp [Value.toObj]⟩
    simp only [BMSorted, List.pairwise_map] at hs
    refine List.Pairwise.imp_of_mem ?_ hs
    intro p q hp hq h
    rwa [hO.value _ _ (h1 p hp) (h1 q hq)] at h

theorem value_roundtrip {v : Value} (h : v.WF) : v.toObj.toValue.toObj = v.toObj.reset := by
  rw [Value.toObj_toValue h, toObj_reset]

/-- If a value and its `to_value` have the same concrete type, they are the same. -/
theorem same_type_reset {E : Env} (hO : OrdLaws E) {t : Ty} {o : Obj} (h : HasTy E t o)
    (ht : o.toValue.toObj.typeOf = some t) : o.toValue.toObj = o.reset := by
  cases h with
  | scalar s => simp [Obj.toValue, Value.toObj, Obj.reset]
  | nonzero k n _ => simp [Obj.toValue, Value.toObj, Obj.typeOf] at ht
  | struct n fds c fs => simp [toValue_struct, Value.toObj, Obj.typeOf] at ht
  | enumS n vds c vn fds fs => simp [toValue_enumS, Value.toObj, Obj.typeOf] at ht
  | tupleStruct n fds c fs => simp [toValue_tupleStruct, Value.toObj, Obj.typeOf] at ht
  | enumT n vds c vn fds fs => simp [toValue_enumT, Value.toObj, Obj.typeOf] at ht
  | enumU n vds c vn => simp [Obj.toValue, Value.toObj, Obj.typeOf] at ht
  | tuple ts fs => simp [Obj.toValue, Value.toObj, Obj.typeOf] at ht
  | vec u xs h =>
    have : u = .value := by simpa [Obj.toValue, Value.toObj, Obj.typeOf, eq_comm] using ht
    subst this
    obtain ⟨vs, hwf, he⟩ := (HasTy.vec _ _ h).vec_value_inv
    rw [he]; exact value_roundtrip hwf
  | array u xs h => simp [Obj.toValue, Value.toObj, Obj.typeOf] at ht
  | map kt vt kvs hs hk hv =>
    have : kt = .value ∧ vt = .value := by
      simpa [Obj.toValue, Value.toObj, Obj.typeOf, eq_comm] using ht
    obtain ⟨rfl, rfl⟩ := this
    obtain ⟨vs, hwf, he⟩ := (HasTy.map _ _ _ hs hk hv).map_value_inv hO
    rw [he]; exact value_roundtrip hwf
  | box t o h =>
    exfalso
    generalize o.toValue = v at ht
    cases v <;> simp [Value.toObj, Obj.typeOf] at ht
  | value v o h ho => subst ho; exact value_roundtrip h
  | structValue ns fs o h ho => subst ho; exact value_roundtrip h
  | tupleStructValue fs o h ho => subst ho; exact value_roundtrip h
  | tupleValue fs o h ho => subst ho; exact value_roundtrip h
  | enumValueS v ns fs o h ho => subst ho; exact value_roundtrip h
  | enumValueT v fs o h ho => subst ho; exact value_roundtrip h
  | enumValueU v o ho => subst ho; exact value_roundtrip (.enumU v)

/-! ## Resetting keeps the type -/

theorem getElem?_map_some {α β} {f : α → β} {l : List α} {i : Nat} {y : β}
    (h : (l.map f)[i]? = some y) : ∃ x, l[i]? = some x ∧ y = f x := by
  rw [List.getElem?_map] at h
  obtain ⟨x, hx, rfl⟩ := Option.map_eq_some_iff.mp h
  exact ⟨x, hx, rfl⟩

/-- A pair of keys compares the same after resetting skipped fields. -/
theorem kcmp_reset {E : Env} (hO : OrdLaws E) (hK : KeysShown E) {t : Ty} {a b : Obj}
    (ha : HasTy E t a) (hb : HasTy E t b) (ha' : HasTy E t a.reset) (hb' : HasTy E t b.reset) :
    E.kcmp t a.reset b.reset = E.kcmp t a b := by
  have h1 : E.kcmp t a.reset a = .eq := hK t _ _ ha' ha (by rw [toValue_reset, Value.cmp_self])
  have h2 : E.kcmp t b.reset b = .eq := hK t _ _ hb' hb (by rw [toValue_reset, Value.cmp_self])
  rw [(hO.cmpOn t).eq_trans _ _ _ ha' ha hb' h1, (hO.cmpOn t).eq_trans_right hb' hb ha h2]

theorem reset_sorted {E : Env} (hO : OrdLaws E) (hK : KeysShown E) {kt : Ty}
    {kvs : List (Obj × Obj)} (hs : BMSorted (E.kcmp kt) kvs) (hk : ∀ p ∈ kvs, HasTy E kt p.1)
    (hk' : ∀ p ∈ kvs, HasTy E kt p.1.reset) :
    BMSorted (E.kcmp kt) (kvs.map fun p => (p.1.reset, p.2.reset)) := by
  simp only [BMSorted, List.pairwise_map]
  refine List.Pairwise.imp_of_mem ?_ hs
  intro p q hp hq h
  rw [kcmp_reset hO hK (hk p hp) (hk q hq) (hk' p hp) (hk' q hq)]; exact h

theorem HasTy.reset {E : Env} (hO : OrdLaws E) (hK : KeysShown E) {t : Ty} {o : Obj}
    (h : HasTy E t o) : HasTy E t o.reset := by
  induction h with
  | scalar s => rw [Obj.reset]; exact .scalar s
  | nonzero k n h => rw [Obj.reset]; exact .nonzero k n h
  | struct n fds c fs hd h2 h3 _ ih =>
    rw [Obj.reset]
    refine .struct n fds c _ hd (by rw [List.map_map]; exact h2) ?_ ?_
    · intro i fd p hfd hp hs
      obtain ⟨q, hq, rfl⟩ := getElem?_map_some hp
      simpa using h3 i fd q hfd hq hs
    · intro i fd p hfd hp hs
      obtain ⟨q, hq, rfl⟩ := getElem?_map_some hp
      exact ih i fd q hfd hq hs
  | enumS n vds c vn fds fs hd hv h2 h3 _ ih =>
    rw [Obj.reset]
    refine .enumS n vds c vn fds _ hd hv (by rw [List.map_map]; exact h2) ?_ ?_
    · intro i fd p hfd hp hs
      obtain ⟨q, hq, rfl⟩ := getElem?_map_some hp
      simpa using h3 i fd q hfd hq hs
    · intro i fd p hfd hp hs
      obtain ⟨q, hq, rfl⟩ := getElem?_map_some hp
      exact ih i fd q hfd hq hs
  | tupleStruct n fds c fs hd h2 h3 _ ih =>
    rw [Obj.reset]
    refine .tupleStruct n fds c _ hd (by rw [List.length_map]; exact h2) ?_ ?_
    · intro i fd p hfd hp hs
      obtain ⟨q, hq, rfl⟩ := getElem?_map_some hp
      simpa using h3 i fd q hfd hq hs
    · intro i fd p hfd hp hs
      obtain ⟨q, hq, rfl⟩ := getElem?_map_some hp
      exact ih i fd q hfd hq hs
  | enumT n vds c vn fds fs hd hv h2 h3 _ ih =>
    rw [Obj.reset]
    refine .enumT n vds c vn fds _ hd hv (by rw [List.length_map]; exact h2) ?_ ?_
    · intro i fd p hfd hp hs
      obtain ⟨q, hq, rfl⟩ := getElem?_map_some hp
      simpa using h3 i fd q hfd hq hs
    · intro i fd p hfd hp hs
      obtain ⟨q, hq, rfl⟩ := getElem?_map_some hp
      exact ih i fd q hfd hq hs
  | enumU n vds c vn hd hv => rw [Obj.reset]; exact .enumU n vds c vn hd hv
  | tuple ts fs hl _ ih =>
    rw [Obj.reset]
    refine .tuple ts _ (by rw [List.length_map]; exact hl) ?_
    intro i t p ht hp
    obtain ⟨q, hq, rfl⟩ := getElem?_map_some hp
    exact ih i t q ht hq
  | vec t xs _ ih =>
    rw [Obj.reset]
    refine .vec t _ ?_
    intro x hx
    obtain ⟨q, hq, rfl⟩ := List.mem_map.mp hx
    exact ih q hq
  | array t xs _ ih =>
    rw [Obj.reset]
    have := HasTy.array (E := E) t (xs.map fun x => x.reset) (by
      intro x hx
      obtain ⟨q, hq, rfl⟩ := List.mem_map.mp hx
      exact ih q hq)
    rwa [List.length_map] at this
  | map kt vt kvs hs hk _ ihk ihv =>
    rw [Obj.reset]
    refine .map _ _ _ (reset_sorted hO hK hs hk ihk) ?_ ?_
    · intro x hx
      obtain ⟨q, hq, rfl⟩ := List.mem_map.mp hx
      exact ihk q hq
    · intro x hx
      obtain ⟨q, hq, rfl⟩ := List.mem_map.mp hx
      exact ihv q hq
  | box t o _ ih => exact .box t _ ih
  | value v o h ho => subst ho; rw [toObj_reset]; exact .value _ _ h rfl
  | structValue ns fs o h ho => subst ho; rw [toObj_reset]; exact .structValue _ _ _ h rfl
  | tupleStructValue fs o h ho => subst ho; rw [toObj_reset]; exact .tupleStructValue _ _ h rfl
  | tupleValue fs o h ho => subst ho; rw [toObj_reset]; exact .tupleValue _ _ h rfl
  | enumValueS v ns fs o h ho => subst ho; rw [toObj_reset]; exact .enumValueS _ _ _ _ h rfl
  | enumValueT v fs o h ho => subst ho; rw [toObj_reset]; exact .enumValueT _ _ _ h rfl
  | enumValueU v o ho => subst ho; rw [toObj_reset]; exact .enumValueU _ _ rfl

/-! ## Fields of a `to_value` -/

theorem toObj_visFields (fs : List (String × Value)) :
    visFields (fs.map fun p => (p.1, p.2.toObj)) = fs.map fun p => (p.1, p.2.toObj) := by
  rw [visFields, List.filter_eq_self]
  intro p hp
  obtain ⟨q, _, rfl⟩ := List.mem_map.mp hp
  simp [Value.toObj_not_hidden]

theorem toObj_visAt (fs : List Value) (i : Nat) :
    visAt (fs.map fun x => x.toObj) i = (fs[i]?).map fun x => x.toObj := by
  simp only [visAt, List.getElem?_map]
  cases fs[i]? <;> simp [Value.toObj_not_hidden]

/-- The entries of the struct value built from visible fields. -/
theorem lookup_toValue {fs : List (String × Obj)} (hn : (fs.map (·.1)).Nodup) (n : String) :
    lookup n ((bmOfList strCmp ((visFields fs).map fun p => (p.1, p.2.toValue))).map
      fun p => (p.1, p.2.toObj)) = (lookup n (visFields fs)).map fun x => x.toValue.toObj := by
  have hv : ((visFields fs).map (·.1)).Nodup :=
    hn.sublist ((List.filter_sublist).map _)
  rw [lookup_map, lookup_perm (bmOfList_str_perm (by rw [List.map_map]; exact hv))
    (by
      have := (bmOfList_str_perm (l := (visFields fs).map fun p => (p.1, p.2.toValue))
        (by rw [List.map_map]; exact hv))
      exact (this.map _).nodup_iff.mpr (by rw [List.map_map]; exact hv)), lookup_map]
  cases lookup n (visFields fs) <;> rfl

theorem lookup_vis_of_idx {fs : List (String × Obj)} (hn : (fs.map (·.1)).Nodup) {i : Nat}
    {p : String × Obj} (hp : fs[i]? = some p) (hv : p.2.isHidden = false) :
    lookup p.1 (visFields fs) = some p.2 :=
  lookup_of_mem_nodup (hn.sublist ((List.filter_sublist).map _))
    (List.mem_filter.mpr ⟨List.mem_of_getElem? hp, by simp [hv]⟩)

theorem filter_getElem?_of_prefix {α} {q : α → Bool} {l : List α} {i : Nat}
    (h : ∀ j x, j ≤ i → l[j]? = some x → q x = true) : (l.filter q)[i]? = l[i]? := by
  induction l generalizing i with
  | nil => simp
  | cons a r ih =>
    have ha : q a = true := h 0 a (by omega) (by simp)
    rw [List.filter_cons, if_pos ha]
    cases i with
    | zero => simp
    | succ i =>
      simp only [List.getElem?_cons_succ]
      exact ih fun j x hj hx => h (j + 1) x (by omega) (by simpa using hx)

/-- A derived field converts from what `to_value` shows of it. -/
theorem convField_roundtrip {E : Env} (hO : OrdLaws E) {c : Bool} {t : Ty} {x : Obj}
    (hx : HasTy E t x) (ih : fromReflect E t x.toValue.toObj = some x.reset) :
    convField E c t x.toValue.toObj = some x.reset := by
  simp only [convField]
  split
  · next h =>
    simp only [Obj.isTy, Bool.and_eq_true, beq_iff_eq] at h
    rw [same_type_reset hO hx h.2]
  · exact ih

theorem conv_named_roundtrip {E : Env} (hO : OrdLaws E) {c : Bool} {fds : List FieldDef}
    {fs : List (String × Obj)} {src : Obj} (hn : (fds.map (·.name)).Nodup)
    (h2 : fs.map (·.1) = fds.map (·.name))
    (h3 : ∀ (i : Nat) fd p, fds[i]? = some fd → fs[i]? = some p → fd.skip = true →
      p.2.isHidden = true)
    (h4 : ∀ (i : Nat) fd p, fds[i]? = some fd → fs[i]? = some p → fd.skip = false →
      HasTy E fd.ty p.2)
    (ih : ∀ (i : Nat) fd p, fds[i]? = some fd → fs[i]? = some p → fd.skip = false →
      fromReflect E fd.ty p.2.toValue.toObj = some p.2.reset)
    (hsrc : ∀ n, src.field n = (lookup n (visFields fs)).map fun x => x.toValue.toObj) :
    optAll (fds.map (convNamed E c src)) = some (fs.map fun p => (p.1, p.2.reset)) := by
  rw [optAll_eq_some]
  apply List.ext_getElem?
  intro i
  simp only [List.getElem?_map]
  cases hfd : fds[i]? with
  | none =>
    have : fs[i]? = none := by
      rw [List.getElem?_eq_none_iff] at hfd ⊢
      have := congrArg List.length h2
      simp at this; omega
    simp [this]
  | some fd =>
    obtain ⟨p, hp, he⟩ := align_named' h2 hfd
    simp only [hp, Option.map_some, Option.some.injEq]
    simp only [convNamed]
    cases hs : fd.skip with
    | true =>
      have := h3 i fd p hfd hp hs
      obtain ⟨a, b⟩ := p
      cases b <;> simp [Obj.isHidden] at this
      simp [Obj.reset, he]
    | false =>
      have ht := h4 i fd p hfd hp hs
      have hl := lookup_vis_of_idx (h2 ▸ hn) hp ht.not_hidden
      simp [hsrc, he, hl, convField_roundtrip hO ht (ih i fd p hfd hp hs)]

theorem conv_pos_roundtrip {E : Env} (hO : OrdLaws E) {c : Bool} {fds : List FieldDef}
    {fs : List Obj} {src : Obj}
    (hlast : ∀ (i j : Nat) fd fd', fds[i]? = some fd → fds[j]? = some fd' → fd.skip = true →
      fd'.skip = false → j < i)
    (h2 : fs.length = fds.length)
    (h3 : ∀ (i : Nat) fd p, fds[i]? = some fd → fs[i]? = some p → fd.skip = true →
      p.isHidden = true)
    (h4 : ∀ (i : Nat) fd p, fds[i]? = some fd → fs[i]? = some p → fd.skip = false →
      HasTy E fd.ty p)
    (ih : ∀ (i : Nat) fd p, fds[i]? = some fd → fs[i]? = some p → fd.skip = false →
      fromReflect E fd.ty p.toValue.toObj = some p.reset)
    (hsrc : ∀ i, src.fieldAt i = ((visPos fs)[i]?).map fun x => x.toValue.toObj) :
    optAll (fds.mapIdx (convPos E c src)) = some (fs.map fun x => x.reset) := by
  rw [optAll_eq_some]
  apply List.ext_getElem?
  intro i
  simp only [List.getElem?_map, List.getElem?_mapIdx]
  cases hfd : fds[i]? with
  | none =>
    have : fs[i]? = none := by
      rw [List.getElem?_eq_none_iff] at hfd ⊢; omega
    simp [this]
  | some fd =>
    obtain ⟨p, hp⟩ := align_pos h2.symm hfd
    simp only [hp, Option.map_some, Option.some.injEq]
    simp only [convPos]
    cases hs : fd.skip with
    | true =>
      have := h3 i fd p hfd hp hs
      cases p <;> simp [Obj.isHidden] at this
      simp [Obj.reset]
    | false =>
      have ht := h4 i fd p hfd hp hs
      have hv : (visPos fs)[i]? = some p := by
        rw [visPos, filter_getElem?_of_prefix, hp]
        intro j x hj hx
        obtain ⟨fd', hfd'⟩ := align_pos h2 hx
        cases hs' : fd'.skip with
        | true => have := hlast j i fd' fd hfd' hfd hs' hs; omega
        | false => simp [(h4 j fd' x hfd' hx hs').not_hidden]
      simp [hsrc, hv, convField_roundtrip hO ht (ih i fd p hfd hp hs)]

/-! ## The dynamic types convert from themselves -/

theorem mem_bmOfList_str {α} {l : List (String × α)} {p : String × α}
    (h : p ∈ bmOfList strCmp l) : p ∈ l := by
  suffices H : ∀ m, p ∈ l.foldl (fun m p => bmInsert strCmp p.1 p.2 m) m → p ∈ l ∨ p ∈ m by
    simpa using H [] h
  clear h
  induction l with
  | nil => intro m h; exact .inr h
  | cons q r ih =>
    intro m h
    rcases ih _ h with h | h
    · exact .inl (by simp [h])
    · rcases bmInsert_mem h with h | h | ⟨k', v', hm, he, hp⟩
      · exact .inr h
      · exact .inl (by simp [h])
      · rw [strCmp_eq_iff] at he; subst he; exact .inl (by simp [hp])

/-- Rebuilding a struct value from its names and values gives it back. -/
theorem bmOfList_rebuild {α} {fs l : List (String × α)} (hs : BMSorted strCmp fs)
    (h1 : ∀ n, n ∈ l.map (·.1) ↔ n ∈ fs.map (·.1)) (h2 : ∀ p ∈ l, p ∈ fs) :
    bmOfList strCmp l = fs := by
  have hs' : BMSorted strCmp (bmOfList strCmp l) := bmOfList_sorted strCmpOn (by simp)
  have hnd := strSorted_nodup hs
  have hmem : ∀ p, p ∈ bmOfList strCmp l ↔ p ∈ fs := by
    intro p
    constructor
    · intro hp; exact h2 p (mem_bmOfList_str hp)
    · intro hp
      have : p.1 ∈ (bmOfList strCmp l).map (·.1) :=
        mem_keys_bmOfList.mpr ((h1 _).mpr (List.mem_map_of_mem hp))
      obtain ⟨q, hq, he⟩ := List.mem_map.mp this
      have hqf := h2 q (mem_bmOfList_str hq)
      have e1 := lookup_of_mem_nodup hnd (n := q.1) (x := q.2) hqf
      have e2 := lookup_of_mem_nodup hnd (n := p.1) (x := p.2) hp
      rw [he, e2] at e1
      have : q = p := by
        obtain ⟨a, b⟩ := p; obtain ⟨c, d⟩ := q
        simp at he e1; simp [he, e1]
      exact this ▸ hq
  have n1 : (bmOfList strCmp l).Nodup := List.Pairwise.of_map (·.1) (fun a b h he => h (he ▸ rfl)) (strSorted_nodup hs')
  have n2 : fs.Nodup := List.Pairwise.of_map (·.1) (fun a b h he => h (he ▸ rfl)) hnd
  have hp := (List.perm_ext_iff_of_nodup n1 n2).mpr hmem
  refine List.Perm.eq_of_pairwise (le := fun p q : String × α => strCmp p.1 q.1 = .lt) ?_ hs' hs hp
  intro a b _ _ h h'
  rw [strCmp_swap, h] at h'; simp at h'

theorem dynIter_names {fs : List (String × Obj)} {ns : List String}
    (h : ∀ n ∈ ns, n ∈ fs.map (·.1)) : (dynIter fs ns).map (·.1) = ns := by
  induction ns with
  | nil => rfl
  | cons n ns ih =>
    simp only [dynIter]
    cases hl : lookup n fs with
    | none => exact absurd (h n (by simp)) (lookup_none_iff.mp hl)
    | some x => simp [ih fun m hm => h m (by simp [hm])]

theorem dynStruct_rebuild {ns : List String} {fs : List (String × Value)}
    (h1 : ∀ n, n ∈ ns ↔ n ∈ fs.map (·.1)) (hs : BMSorted strCmp fs) (hw : ∀ p ∈ fs, p.2.WF) :
    dynStruct (dynIter (fs.map fun p => (p.1, p.2.toObj)) ns) = (ns, fs) := by
  have hn : (dynIter (fs.map fun p => (p.1, p.2.toObj)) ns).map (·.1) = ns := by
    apply dynIter_names
    intro n hn
    rw [List.map_map]; exact (h1 n).mp hn
  rw [dynStruct, svOfList_eq, List.map_map]
  congr 1
  apply bmOfList_rebuild hs
  · intro n
    rw [List.map_map]
    show n ∈ (dynIter (fs.map fun p => (p.1, p.2.toObj)) ns).map (·.1) ↔ _
    rw [hn]; exact h1 n
  · intro p hp
    obtain ⟨q, hq, rfl⟩ := List.mem_map.mp hp
    obtain ⟨r, hr, rfl⟩ := List.mem_map.mp (dynIter_mem hq)
    simpa [Value.toObj_toValue (hw r hr)] using hr

theorem takeWhile_toObj (fs : List Value) :
    (fs.map fun x => x.toObj).takeWhile (fun x => !x.isHidden) = fs.map fun x => x.toObj := by
  induction fs with
  | nil => rfl
  | cons v r ih => simp [Value.toObj_not_hidden, ih]

theorem map_toObj_toValue {fs : List Value} (h : ∀ v ∈ fs, v.WF) :
    (fs.map fun x => x.toObj).map (fun x => x.toValue) = fs := by
  rw [List.map_map, map_id_of_mem]
  intro v hv
  exact Value.toObj_toValue (h v hv)

theorem fromReflect_structValue {E : Env} {ns : List String} {fs : List (String × Value)}
    (h : (Value.struct ns fs).WF) :
    fromReflect E .structValue (Value.struct ns fs).toObj = some (Value.struct ns fs).toObj := by
  cases h with
  | struct _ _ h1 hs hw =>
    rw [fromReflect]
    conv => lhs; simp only [Value.toObj, Obj.kind, Obj.namedIter, if_true]
    rw [dynStruct_rebuild h1 hs hw]
    simp [Value.toObj]

theorem fromReflect_tupleStructValue {E : Env} {fs : List Value} (h : (Value.tupleStruct fs).WF) :
    fromReflect E .tupleStructValue (Value.tupleStruct fs).toObj =
      some (Value.tupleStruct fs).toObj := by
  cases h with
  | tupleStruct _ hw =>
    rw [fromReflect]
    simp only [Value.toObj, Obj.kind, Obj.posIter, if_true, takeWhile_toObj, map_toObj_toValue hw]

theorem fromReflect_tupleValue {E : Env} {fs : List Value} (h : (Value.tuple fs).WF) :
    fromReflect E .tupleValue (Value.tuple fs).toObj = some (Value.tuple fs).toObj := by
  cases h with
  | tuple _ hw =>
    rw [fromReflect]
    simp only [Value.toObj, Obj.kind, Obj.posIter, if_true, takeWhile_toObj, map_toObj_toValue hw]

theorem fromReflect_enumValueS {E : Env} {v : String} {ns : List String}
    {fs : List (String × Value)} (h : (Value.enumS v ns fs).WF) :
    fromReflect E .enumValue (Value.enumS v ns fs).toObj = some (Value.enumS v ns fs).toObj := by
  cases h with
  | enumS _ _ _ h1 hs hw =>
    rw [fromReflect]
    conv => lhs; simp only [Value.toObj, Obj.variantKind, Obj.variantName, Obj.namedIter]
    rw [dynStruct_rebuild h1 hs hw]
    simp [Value.toObj]

theorem fromReflect_enumValueT {E : Env} {v : String} {fs : List Value}
    (h : (Value.enumT v fs).WF) :
    fromReflect E .enumValue (Value.enumT v fs).toObj = some (Value.enumT v fs).toObj := by
  cases h with
  | enumT _ _ hw =>
    rw [fromReflect]
    simp only [Value.toObj, Obj.variantKind, Obj.variantName, Obj.posIter, takeWhile_toObj,
      map_toObj_toValue hw]

theorem fromReflect_enumValueU {E : Env} {v : String} :
    fromReflect E .enumValue (Value.enumU v).toObj = some (Value.enumU v).toObj := by
  rw [fromReflect]
  simp only [Value.toObj, Obj.variantKind, Obj.variantName]

theorem Obj.Everywhere.here {P : Obj → Prop} {o : Obj} (h : o.Everywhere P) : P o := by
  cases h; assumption

theorem Obj.Everywhere.parts {P : Obj → Prop} {o x : Obj} (h : o.Everywhere P) (hx : x ∈ o.parts) :
    x.Everywhere P := by
  cases h with
  | mk _ _ h => exact h x hx

theorem mem_visPos {fs : List Obj} {i : Nat} {x : Obj} (h : fs[i]? = some x) (hx : x.isHidden = false) :
    x ∈ visPos fs := List.mem_filter.mpr ⟨List.mem_of_getElem? h, by simp [hx]⟩

theorem mem_parts_named {o : Obj} {tag : STag} {fs : List (String × Obj)}
    (ho : o = .struct tag fs ∨ ∃ v, o = .enumS tag v fs) {i : Nat} {p : String × Obj}
    (h : fs[i]? = some p) (hx : p.2.isHidden = false) : p.2 ∈ o.parts := by
  have : p.2 ∈ (visFields fs).map (·.2) :=
    List.mem_map_of_mem (List.mem_filter.mpr ⟨List.mem_of_getElem? h, by simp [hx]⟩)
  rcases ho with rfl | ⟨v, rfl⟩ <;> exact this

theorem skipsLast_of_hiddenLast {E : Env} {fds : List FieldDef} {fs : List Obj}
    (h2 : fs.length = fds.length)
    (h3 : ∀ (i : Nat) fd x, fds[i]? = some fd → fs[i]? = some x → fd.skip = true → x.isHidden = true)
    (h4 : ∀ (i : Nat) fd x, fds[i]? = some fd → fs[i]? = some x → fd.skip = false → HasTy E fd.ty x)
    (hl : HiddenLast fs) (i j : Nat) (fd fd' : FieldDef) (hi : fds[i]? = some fd)
    (hj : fds[j]? = some fd') (hs : fd.skip = true) (hs' : fd'.skip = false) : j < i := by
  obtain ⟨x, hx⟩ := align_pos h2.symm hi
  obtain ⟨y, hy⟩ := align_pos h2.symm hj
  exact hl i j x y hx hy (h3 i fd x hi hx hs) (h4 j fd' y hj hy hs').not_hidden

/-- Converting the `to_value` of a proper value gives it back, with its skipped fields reset. -/
theorem roundtrip_noGaps {E : Env} (hD : DeclsOK E) (hO : OrdLaws E) (hK : KeysShown E)
    {t : Ty} {o : Obj} (h : HasTy E t o) (hg : o.NoGaps) :
    fromReflect E t o.toValue.toObj = some o.reset := by
  induction h with
  | scalar s => simp [fromReflect_scalar, Obj.toValue, Value.toObj, Obj.isTy, Obj.typeOf, Obj.reset]
  | nonzero k n h =>
    simp [fromReflect, Obj.toValue, Value.toObj, Obj.isTy, Obj.typeOf, Obj.reset, h]
  | struct n fds c fs hd h2 h3 h4 ih =>
    have hn := hD.struct_names n fds c hd
    rw [fromReflect_struct hd, toValue_struct, Value.toObj,
      conv_named_roundtrip hO hn h2 h3 h4 (fun i fd p hfd hp hs => ih i fd p hfd hp hs
        (hg.parts (mem_parts_named (.inl rfl) hp (h4 i fd p hfd hp hs).not_hidden)))]
    · simp [Obj.kind, Obj.reset]
    · intro m
      simp only [Obj.field, toObj_visFields]
      exact lookup_toValue (h2 ▸ hn) m
  | enumS n vds c vn fds fs hd hv h2 h3 h4 ih =>
    have hn := hD.variant_fields n vds c vn fds hd hv
    rw [fromReflect_enum hd, toValue_enumS, Value.toObj]
    have hf : vds.find? (fun d => d.name = vn) = some _ :=
      find_variant (hD.variant_names n vds c hd) hv
    simp only [Obj.variantName, Option.bind_some, hf]
    rw [conv_named_roundtrip hO hn h2 h3 h4 (fun i fd p hfd hp hs => ih i fd p hfd hp hs
      (hg.parts (mem_parts_named (.inr ⟨_, rfl⟩) hp (h4 i fd p hfd hp hs).not_hidden)))]
    · simp [Obj.reset]
    · intro m
      simp only [Obj.field, toObj_visFields]
      exact lookup_toValue (h2 ▸ hn) m
  | tupleStruct n fds c fs hd h2 h3 h4 ih =>
    rw [fromReflect_tupleStruct hd, toValue_tupleStruct, Value.toObj,
      conv_pos_roundtrip hO (skipsLast_of_hiddenLast h2 h3 h4 (hg.here.1 _ _ rfl)) h2 h3 h4
        (fun i fd p hfd hp hs => ih i fd p hfd hp hs
          (hg.parts (mem_visPos hp (h4 i fd p hfd hp hs).not_hidden)))]
    · simp [Obj.kind, Obj.reset]
    · intro i
      simp only [Obj.fieldAt, toObj_visAt, List.getElem?_map, Option.map_map]; rfl
  | enumT n vds c vn fds fs hd hv h2 h3 h4 ih =>
    rw [fromReflect_enum hd, toValue_enumT, Value.toObj]
    have hf : vds.find? (fun d => d.name = vn) = some _ :=
      find_variant (hD.variant_names n vds c hd) hv
    simp only [Obj.variantName, Option.bind_some, hf]
    rw [conv_pos_roundtrip hO (skipsLast_of_hiddenLast h2 h3 h4 (hg.here.2 _ _ _ rfl)) h2 h3 h4
      (fun i fd p hfd hp hs => ih i fd p hfd hp hs
        (hg.parts (mem_visPos hp (h4 i fd p hfd hp hs).not_hidden)))]
    · simp [Obj.reset]
    · intro i
      simp only [Obj.fieldAt, toObj_visAt, List.getElem?_map, Option.map_map]; rfl
  | enumU n vds c vn hd hv =>
    rw [fromReflect_enum hd, Obj.toValue, Value.toObj]
    have hf : vds.find? (fun d => d.name = vn) = some _ :=
      find_variant (hD.variant_names n vds c hd) hv
    simp only [Obj.variantName, Option.bind_some, hf, Obj.reset]
  | tuple ts fs hl h ih =>
    rw [fromReflect_tuple, Obj.toValue, Value.toObj]
    simp only [Obj.kind, if_true, Obj.reset]
    have : optAll (ts.mapIdx fun i t =>
        ((Obj.tuple TTag.dyn ((fs.map fun x => x.toValue).map fun x => x.toObj)).fieldAt i).bind
          fun v => fromReflect E t v) = some (fs.map fun x => x.reset) := by
      rw [optAll_eq_some]
      apply List.ext_getElem?
      intro i
      simp only [List.getElem?_map, List.getElem?_mapIdx, Obj.fieldAt, toObj_visAt]
      cases ht : ts[i]? with
      | none =>
        have : fs[i]? = none := by rw [List.getElem?_eq_none_iff] at ht ⊢; omega
        simp [this]
      | some t =>
        obtain ⟨x, hx⟩ := align_pos hl.symm ht
        simp [hx, ih i t x ht hx (hg.parts (mem_visPos hx (h i t x ht hx).not_hidden))]
    rw [this]; rfl
  | vec t xs _ ih =>
    replace ih := fun x hx => ih x hx (hg.parts hx)
    rw [Obj.toValue, Value.toObj, fromReflect_vec, List.map_map, List.map_map,
      optAll_map_some (g := fun x => x.reset) (by simpa using ih)]
    simp [Obj.reset]
  | array t xs _ ih =>
    replace ih := fun x hx => ih x hx (hg.parts hx)
    rw [Obj.toValue, Value.toObj, fromReflect_array, List.map_map, List.map_map,
      optAll_map_some (g := fun x => x.reset) (by simpa using ih)]
    simp [Obj.reset]
  | map kt vt kvs hs hk hv ihk ihv =>
    replace ihk := fun p hp => ihk p hp (hg.parts (List.mem_append_left _ (List.mem_map_of_mem hp)))
    replace ihv := fun p hp => ihv p hp (hg.parts (List.mem_append_right _ (List.mem_map_of_mem hp)))
    rw [Obj.toValue, Value.toObj, fromReflect_map, List.map_map]
    have hne : (kvs.map fun p => (p.1.toValue, p.2.toValue)).Pairwise
        fun p q => Value.cmp q.1 p.1 ≠ .eq := by
      rw [List.pairwise_map]
      refine List.Pairwise.imp_of_mem ?_ hs
      intro p q hp hq hlt he
      have := hK kt q.1 p.1 (hk q hq) (hk p hp) he
      rw [hO.swap kt p.1 q.1 (hk p hp) (hk q hq), hlt] at this
      simp at this
    obtain ⟨K, hperm, hKe⟩ := perm_map_inv (bmCollect_perm hne) kvs rfl
    rw [hKe, List.map_map, optAll_map_some (g := fun p => (p.1.reset, p.2.reset))]
    · simp only [Option.map_some, Obj.reset]
      rw [bmOfList_eq_of_perm (hO.cmpOn kt) (m := kvs.map fun p => (p.1.reset, p.2.reset)) ?_
        (reset_sorted hO hK hs hk fun p hp => (hk p hp).reset hO hK) (hperm.map _)]
      intro p hp
      obtain ⟨q, hq, rfl⟩ := List.mem_map.mp hp
      exact (hk q hq).reset hO hK
    · intro p hp
      have hp := hperm.subset hp
      simp [ihk p hp, ihv p hp]
  | box t o _ ih => rw [fromReflect_box]; exact ih hg
  | value v o h ho => 
    subst ho; rw [fromReflect_value, Value.toObj_toValue h, Value.toObj_toValue h, toObj_reset]
  | structValue ns fs o h ho =>
    subst ho; rw [Value.toObj_toValue h, toObj_reset, fromReflect_structValue h]
  | tupleStructValue fs o h ho =>
    subst ho; rw [Value.toObj_toValue h, toObj_reset, fromReflect_tupleStructValue h]
  | tupleValue fs o h ho =>
    subst ho; rw [Value.toObj_toValue h, toObj_reset, fromReflect_tupleValue h]
  | enumValueS v ns fs o h ho =>
    subst ho; rw [Value.toObj_toValue h, toObj_reset, fromReflect_enumValueS h]
  | enumValueT v fs o h ho =>
    subst ho; rw [Value.toObj_toValue h, toObj_reset, fromReflect_enumValueT h]
  | enumValueU v o ho =>
    subst ho; rw [Value.toObj_toValue (.enumU v), toObj_reset, fromReflect_enumValueU]

theorem hiddenLast_of_skipsLast {E : Env} {fds : List FieldDef} {fs : List Obj}
    (hl : fs.length = fds.length)
    (hs : ∀ (i j : Nat) fd fd', fds[i]? = some fd → fds[j]? = some fd' → fd.skip = true →
      fd'.skip = false → j < i)
    (h3 : ∀ (i : Nat) fd x, fds[i]? = some fd → fs[i]? = some x → fd.skip = true → x.isHidden = true)
    (h4 : ∀ (i : Nat) fd x, fds[i]? = some fd → fs[i]? = some x → fd.skip = false → HasTy E fd.ty x) :
    HiddenLast fs := by
  intro i j x y hi hj hx hy
  obtain ⟨fi, hfi⟩ := align_pos hl hi
  obtain ⟨fj, hfj⟩ := align_pos hl hj
  refine hs i j fi fj hfi hfj ?_ ?_
  · cases hsk : fi.skip with
    | true => rfl
    | false => simp [(h4 i fi x hfi hi hsk).not_hidden] at hx
  · cases hsk : fj.skip with
    | false => rfl
    | true => simp [h3 j fj y hfj hj hsk] at hy

theorem hiddenLast_toObj (fs : List Value) : HiddenLast (fs.map fun x => x.toObj) := by
  intro i j x y hi _ hx _
  obtain ⟨v, _, rfl⟩ := List.mem_map.mp (List.mem_of_getElem? hi)
  simp [Value.toObj_not_hidden] at hx

theorem Value.WF.noGaps {v : Value} (h : v.WF) : v.toObj.NoGaps := by
  have pos : ∀ {fs : List Value} {x : Obj}, (∀ v ∈ fs, v.toObj.NoGaps) →
      x ∈ visPos (fs.map fun x => x.toObj) → x.NoGaps := by
    intro fs x ih hx
    obtain ⟨v, hv, rfl⟩ := List.mem_map.mp (List.mem_filter.mp hx).1
    exact ih v hv
  have named : ∀ {fs : List (String × Value)} {x : Obj}, (∀ p ∈ fs, p.2.toObj.NoGaps) →
      x ∈ (visFields (fs.map fun p => (p.1, p.2.toObj))).map (·.2) → x.NoGaps := by
    intro fs x ih hx
    obtain ⟨p, hp, rfl⟩ := List.mem_map.mp hx
    obtain ⟨v, hv, rfl⟩ := List.mem_map.mp (List.mem_filter.mp hp).1
    exact ih v hv
  induction h with
  | scalar s => rw [Value.toObj]; exact .mk _ ⟨nofun, nofun⟩ nofun
  | struct ns fs _ _ _ ih => rw [Value.toObj]; exact .mk _ ⟨nofun, nofun⟩ fun x hx => named ih hx
  | enumS v ns fs _ _ _ ih => rw [Value.toObj]; exact .mk _ ⟨nofun, nofun⟩ fun x hx => named ih hx
  | enumT v fs _ ih =>
    rw [Value.toObj]
    exact .mk _ ⟨nofun, by rintro _ _ _ ⟨⟩; exact hiddenLast_toObj fs⟩ fun x hx => pos ih hx
  | enumU v => rw [Value.toObj]; exact .mk _ ⟨nofun, nofun⟩ nofun
  | tupleStruct fs _ ih =>
    rw [Value.toObj]
    exact .mk _ ⟨by rintro _ _ ⟨⟩; exact hiddenLast_toObj fs, nofun⟩ fun x hx => pos ih hx
  | tuple fs _ ih => rw [Value.toObj]; exact .mk _ ⟨nofun, nofun⟩ fun x hx => pos ih hx
  | list xs _ ih =>
    rw [Value.toObj]
    refine .mk _ ⟨nofun, nofun⟩ fun x hx => ?_
    obtain ⟨v, hv, rfl⟩ := List.mem_map.mp hx
    exact ih v hv
  | map kvs _ _ _ ihk ihv =>
    rw [Value.toObj]
    refine .mk _ ⟨nofun, nofun⟩ fun x hx => ?_
    rcases List.mem_append.mp hx with hx | hx
    · obtain ⟨p, hp, rfl⟩ := List.mem_map.mp hx
      obtain ⟨q, hq, rfl⟩ := List.mem_map.mp hp
      exact ihk q hq
    · obtain ⟨p, hp, rfl⟩ := List.mem_map.mp hx
      obtain ⟨q, hq, rfl⟩ := List.mem_map.mp hp
      exact ihv q hq

/-- Where skipped fields are declared last, values have no gaps. -/
theorem HasTy.noGaps {E : Env} (hS : SkipsLast E) {t : Ty} {o : Obj} (h : HasTy E t o) : o.NoGaps := by
  have part : ∀ {fds : List FieldDef} {fs : List Obj} {x : Obj}, fs.length = fds.length →
      (∀ (i : Nat) fd x, fds[i]? = some fd → fs[i]? = some x → fd.skip = true → x.isHidden = true) →
      (∀ (i : Nat) fd x, fds[i]? = some fd → fs[i]? = some x → fd.skip = false → x.NoGaps) →
      x ∈ visPos fs → x.NoGaps := by
    intro fds fs x h2 h3 ih hx
    obtain ⟨hx, hv⟩ := List.mem_filter.mp hx
    obtain ⟨i, hi⟩ := List.getElem?_of_mem hx
    obtain ⟨fd, hfd⟩ := align_pos h2 hi
    cases hs : fd.skip with
    | true => simp [h3 i fd x hfd hi hs] at hv
    | false => exact ih i fd x hfd hi hs
  have npart : ∀ {fds : List FieldDef} {fs : List (String × Obj)} {x : Obj},
      fs.map (·.1) = fds.map (·.name) →
      (∀ (i : Nat) fd p, fds[i]? = some fd → fs[i]? = some p → fd.skip = true → p.2.isHidden = true) →
      (∀ (i : Nat) fd p, fds[i]? = some fd → fs[i]? = some p → fd.skip = false → p.2.NoGaps) →
      x ∈ (visFields fs).map (·.2) → x.NoGaps := by
    intro fds fs x h2 h3 ih hx
    obtain ⟨p, hp, rfl⟩ := List.mem_map.mp hx
    obtain ⟨hp, hv⟩ := List.mem_filter.mp hp
    obtain ⟨i, hi⟩ := List.getElem?_of_mem hp
    have hl := congrArg List.length h2
    simp only [List.length_map] at hl
    obtain ⟨fd, hfd⟩ := align_pos hl hi
    cases hs : fd.skip with
    | true => simp [h3 i fd p hfd hi hs] at hv
    | false => exact ih i fd p hfd hi hs
  induction h with
  | scalar s => exact .mk _ ⟨nofun, nofun⟩ nofun
  | nonzero k n _ => exact .mk _ ⟨nofun, nofun⟩ nofun
  | struct n fds c fs hd h2 h3 h4 ih => exact .mk _ ⟨nofun, nofun⟩ fun x hx => npart h2 h3 ih hx
  | tupleStruct n fds c fs hd h2 h3 h4 ih =>
    exact .mk _ ⟨by rintro _ _ ⟨⟩; exact hiddenLast_of_skipsLast h2 (hS.1 n fds c hd) h3 h4, nofun⟩
      fun x hx => part h2 h3 ih hx
  | enumS n vds c vn fds fs hd hv h2 h3 h4 ih =>
    exact .mk _ ⟨nofun, nofun⟩ fun x hx => npart h2 h3 ih hx
  | enumT n vds c vn fds fs hd hv h2 h3 h4 ih =>
    exact .mk _ ⟨nofun, by
      rintro _ _ _ ⟨⟩; exact hiddenLast_of_skipsLast h2 (hS.2 n vds c vn fds hd hv) h3 h4⟩
      fun x hx => part h2 h3 ih hx
  | enumU n vds c vn _ _ => exact .mk _ ⟨nofun, nofun⟩ nofun
  | tuple ts fs hl _ ih =>
    refine .mk _ ⟨nofun, nofun⟩ fun x hx => ?_
    obtain ⟨i, hi⟩ := List.getElem?_of_mem (List.mem_filter.mp hx).1
    obtain ⟨t, ht⟩ := align_pos hl hi
    exact ih i t x ht hi
  | vec t xs _ ih => exact .mk _ ⟨nofun, nofun⟩ ih
  | array t xs _ ih => exact .mk _ ⟨nofun, nofun⟩ ih
  | map kt vt kvs _ _ _ ihk ihv =>
    refine .mk _ ⟨nofun, nofun⟩ fun x hx => ?_
    rcases List.mem_append.mp hx with hx | hx
    · obtain ⟨p, hp, rfl⟩ := List.mem_map.mp hx
      exact ihk p hp
    · obtain ⟨p, hp, rfl⟩ := List.mem_map.mp hx
      exact ihv p hp
  | box t o _ ih => exact ih
  | value v o h ho => subst ho; exact h.noGaps
  | structValue ns fs o h ho => subst ho; exact h.noGaps
  | tupleStructValue fs o h ho => subst ho; exact h.noGaps
  | tupleValue fs o h ho => subst ho; exact h.noGaps
  | enumValueS v ns fs o h ho => subst ho; exact h.noGaps
  | enumValueT v fs o h ho => subst ho; exact h.noGaps
  | enumValueU v o ho => subst ho; exact (Value.WF.enumU v).noGaps

theorem roundtrip {E : Env} (hD : DeclsOK E) (hO : OrdLaws E) (hK : KeysShown E)
    (hS : SkipsLast E) {t : Ty} {o : Obj} (h : HasTy E t o) :
    fromReflect E t o.toValue.toObj = some o.reset :=
  roundtrip_noGaps hD hO hK h (h.noGaps hS)

end Mirror
