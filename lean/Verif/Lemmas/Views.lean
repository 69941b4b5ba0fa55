import Verif.Spec.Views
import Verif.Lemmas.TypePath
import Verif.Lemmas.Containers

set_option linter.unusedSimpArgs false

/-!
# All accessors together
-/

namespace Mirror

variable {E : Env}

theorem find_eq_lookup {α} (n : String) (l : List (String × α)) :
    (l.find? fun p => p.1 == n).map (·.2) = lookup n l := by
  induction l with
  | nil => rfl
  | cons p r ih =>
    obtain ⟨m, x⟩ := p
    rw [List.find?_cons]
    by_cases h : m = n
    · simp [lookup, h]
    · simp only [lookup, if_neg h, ← ih]
      rw [show (m == n) = false by simpa using h]

theorem showsNamed_struct (n : String) (fs : List (String × Obj)) :
    (Obj.struct (.derived n) fs).ShowsNamed (visFields fs) where
  len := rfl
  name_at _ := rfl
  field_at _ := rfl
  field m := (find_eq_lookup m _).symm
  fields := nextNamed_yields (.inl rfl)

theorem showsNamed_enumS (n v : String) {fs : List (String × Obj)}
    (h : ∀ (i j : Nat) p q, fs[i]? = some p → fs[j]? = some q → p.2.isHidden = true →
      q.2.isHidden = false → j < i) :
    (Obj.enumS (.derived n) v fs).ShowsNamed (visFields fs) := by
  have ht : fs.takeWhile (fun p => !p.2.isHidden) = visFields fs :=
    takeWhile_eq_filter fun i j x y hi hj hx hy =>
      h i j x y hi hj (by simpa using hx) (by simpa using hy)
  have hk : (Obj.enumS (.derived n) v fs).variantKind = some .struct := rfl
  have key : ∀ i : Nat, (visFields fs)[i]? = (fs[i]?).bind fun (p : String × Obj) => if p.2.isHidden then none else some p := by
    intro i
    by_cases hi : i ≤ (visFields fs).length
    · rw [← ht, takeWhile_getElem? _ _ _ (by rw [ht]; exact hi)]
      cases fs[i]? with
      | none => rfl
      | some p => cases hp : p.2.isHidden <;> simp [hp]
    · rw [List.getElem?_eq_none (by omega)]
      cases hp : fs[i]? with
      | none => rfl
      | some p =>
        cases hh : p.2.isHidden with
        | true => simp [hh]
        | false =>
          exfalso
          have hsub : ∀ j ≤ i, ∃ q, fs[j]? = some q ∧ q.2.isHidden = false := by
            intro j hj
            have hj' : j < fs.length := by have := (List.getElem?_eq_some_iff.mp hp).1; omega
            refine ⟨_, List.getElem?_eq_getElem hj', ?_⟩
            cases hq : (fs[j]).2.isHidden with
            | false => rfl
            | true =>
              have := h j i _ p (List.getElem?_eq_getElem hj') hp hq hh
              omega
          have := filter_getElem?_of_prefix (q := fun p : String × Obj => !p.2.isHidden) (l := fs) (i := i)
            (fun j x hj hx => by obtain ⟨q, hq, hh⟩ := hsub j hj; rw [hq] at hx; cases hx; simp [hh])
          rw [hp] at this
          have := (List.getElem?_eq_some_iff.mp this).1
          exact hi (Nat.le_of_lt this)
  refine ⟨rfl, fun i => ?_, fun i => ?_, fun m => (find_eq_lookup m _).symm, ?_⟩
  · simp only [Obj.nameAt, key]
    cases fs[i]? with
    | none => rfl
    | some p => cases hp : p.2.isHidden <;> simp [hp]
  · simp only [Obj.fieldAt, visAt, List.getElem?_map, key]
    cases fs[i]? with
    | none => rfl
    | some p => cases hp : p.2.isHidden <;> simp [hp]
  · have := nextNamed_yields (o := .enumS (.derived n) v fs) (.inr rfl)
    simpa only [Obj.namedIter, ht] using this

theorem showsPos_of {x : Obj} {fs : List Obj} (h : HiddenLast fs)
    (hx : (∃ t, x = .tupleStruct t fs) ∨ (∃ t, x = .tuple t fs) ∨ (∃ t v, x = .enumT t v fs)) :
    x.ShowsPos (visPos fs) := by
  rcases hx with ⟨t, rfl⟩ | ⟨t, rfl⟩ | ⟨t, v, rfl⟩
  · refine ⟨rfl, fun i => visAt_eq_filter h i, ?_⟩
    have := nextPos_yields (o := .tupleStruct t fs) (.inl rfl)
    simpa only [Obj.posIter, h.takeWhile, visPos] using this
  · refine ⟨rfl, fun i => visAt_eq_filter h i, ?_⟩
    have := nextPos_yields (o := .tuple t fs) (.inr (.inl rfl))
    simpa only [Obj.posIter, h.takeWhile, visPos] using this
  · refine ⟨rfl, fun i => visAt_eq_filter h i, ?_⟩
    have := nextPos_yields (o := .enumT t v fs) (.inr (.inr (.inr (.inr rfl))))
    simpa only [Obj.posIter, h.takeWhile, visPos] using this

theorem showsPos_list {x : Obj} {xs : List Obj} {t : Ty} (hx : x = .vec t xs ∨ x = .array t xs) :
    x.ShowsPos xs := by
  rcases hx with rfl | rfl
  · exact ⟨rfl, fun _ => rfl, nextPos_yields (.inr (.inr (.inl rfl)))⟩
  · exact ⟨rfl, fun _ => rfl, nextPos_yields (.inr (.inr (.inr (.inl rfl))))⟩

theorem visPos_of_vis {fs : List Obj} (h : ∀ x ∈ fs, x.isHidden = false) : visPos fs = fs := by
  rw [visPos, List.filter_eq_self]; intro x hx; simp [h x hx]

/-- `dynIter` over the names of `l`, in a map with the entries of `l`. -/
theorem dynIter_of {fs l : List (String × Obj)} (h : ∀ n ∈ l.map (·.1), lookup n fs = lookup n l)
    (hn : (l.map (·.1)).Nodup) : dynIter fs (l.map (·.1)) = l := by
  induction l with
  | nil => rfl
  | cons p r ih =>
    obtain ⟨m, x⟩ := p
    have h0 : lookup m fs = some x := by rw [h m (by simp)]; simp [lookup]
    simp only [List.map_cons, dynIter, h0]
    rw [ih]
    · intro n hm
      rw [h n (by simp only [List.map_cons, List.mem_cons]; exact .inr hm), lookup, if_neg]
      rintro rfl
      simp only [List.map_cons, List.nodup_cons] at hn
      exact hn.1 hm
    · simp only [List.map_cons, List.nodup_cons] at hn; exact hn.2

theorem nodup_getElem_lookup {α} {l : List (String × α)} (hn : (l.map (·.1)).Nodup) (i : Nat) :
    ((l.map (·.1))[i]?.bind fun n => lookup n l) = l[i]?.map (·.2) := by
  rw [List.getElem?_map]
  cases hi : l[i]? with
  | none => rfl
  | some p => simp [lookup_of_mem_nodup hn (List.mem_of_getElem? hi)]

theorem showsNamed_dyn {x : Obj} {fs l : List (String × Obj)} (hn : (l.map (·.1)).Nodup)
    (hv : visFields fs = fs) (h : ∀ n, lookup n fs = lookup n l)
    (hx : x = .struct (.dyn (l.map (·.1))) fs ∨ ∃ v, x = .enumS (.dyn (l.map (·.1))) v fs) :
    x.ShowsNamed l := by
  have h' : (fun n => lookup n fs) = fun n => lookup n l := funext h
  rcases hx with rfl | ⟨v, rfl⟩
  · refine ⟨by simp [Obj.fieldsLen], fun i => by simp [Obj.nameAt], fun i => ?_, fun n => ?_, ?_⟩
    · simp only [Obj.fieldAt, h']; exact nodup_getElem_lookup hn i
    · simp only [Obj.field, hv, h, find_eq_lookup]
    · have := nextNamed_yields (o := .struct (.dyn (l.map (·.1))) fs) (.inl rfl)
      simpa only [Obj.namedIter, dynIter_of (fun n _ => h n) hn] using this
  · refine ⟨by simp [Obj.fieldsLen], fun i => by simp [Obj.nameAt], fun i => ?_, fun n => ?_, ?_⟩
    · simp only [Obj.fieldAt, h']; exact nodup_getElem_lookup hn i
    · simp only [Obj.field, hv, h, find_eq_lookup]
    · have := nextNamed_yields (o := .enumS (.dyn (l.map (·.1))) v fs) (.inr rfl)
      simpa only [Obj.namedIter, dynIter_of (fun n _ => h n) hn] using this

/-- What the `Value` of a struct or struct variant shows. -/
theorem showsNamed_toValue {x : Obj} {n : String} {fs : List (String × Obj)} (hn : (fs.map (·.1)).Nodup)
    (hx : x = .struct (.derived n) fs ∨ ∃ v, x = .enumS (.derived n) v fs) :
    x.toValue.toObj.ShowsNamed ((visFields fs).map fun p => (p.1, p.2.toValue.toObj)) := by
  have hm : ((visFields fs).map fun p => (p.1, p.2.toValue.toObj)).map (·.1) = (visFields fs).map (·.1) := by
    rw [List.map_map]; rfl
  have hnd : ((visFields fs).map (·.1)).Nodup := hn.sublist ((List.filter_sublist).map _)
  refine showsNamed_dyn (fs := (bmOfList strCmp ((visFields fs).map fun p => (p.1, p.2.toValue))).map
      fun p => (p.1, p.2.toObj)) (by rw [hm]; exact hnd) (toObj_visFields _) (fun m => ?_) ?_
  · rw [lookup_toValue hn]
    exact (lookup_map (fun y : Obj => y.toValue.toObj) (visFields fs) m).symm
  · rw [hm]
    rcases hx with rfl | ⟨v, rfl⟩
    · left; rw [toValue_struct, Value.toObj]
    · right; exact ⟨v, by rw [toValue_enumS, Value.toObj]⟩

theorem showsPos_toValue {x : Obj} {fs : List Obj}
    (hx : (∃ t, x = .tupleStruct t fs) ∨ (∃ t v, x = .enumT t v fs)) :
    x.toValue.toObj.ShowsPos ((visPos fs).map fun y => y.toValue.toObj) := by
  have e : ((visPos fs).map fun y => y.toValue).map (fun v => v.toObj) =
      (visPos fs).map fun y => y.toValue.toObj := by rw [List.map_map]; rfl
  have hv : visPos ((visPos fs).map fun y => y.toValue.toObj) =
      (visPos fs).map fun y => y.toValue.toObj := by
    apply visPos_of_vis; intro y hy
    obtain ⟨z, _, rfl⟩ := List.mem_map.mp hy
    exact Value.toObj_not_hidden _
  have hl : HiddenLast ((visPos fs).map fun y => y.toValue.toObj) := by
    rw [← e]; exact toObj_hiddenLast _
  have := fun x h => showsPos_of (x := x) hl h
  rw [hv] at this
  apply this
  rcases hx with ⟨t, rfl⟩ | ⟨t, v, rfl⟩
  · left; rw [toValue_tupleStruct, Value.toObj, e]; exact ⟨_, rfl⟩
  · right; right; rw [toValue_enumT, Value.toObj, e]; exact ⟨_, _, rfl⟩

/-- Named fields aligned with a declaration show what the type information lists. -/
theorem namedAs_of {fds : List FieldDef} {names fields} {l : List (String × Obj)}
    (hf : namedTypes names fields = (fds.filter fun fd => !fd.skip).map fun fd => (fd.name, some fd.ty.unbox))
    (ha : List.Forall₂ (fun p fd => p.1 = fd.name ∧ HasTy E fd.ty p.2) l (visDefs fds)) :
    NamedAs E l (namedTypes names fields) := by
  rw [NamedAs, hf, List.forall₂_map_right_iff]
  exact ha.imp fun p fd h => ⟨h.1, _, rfl, hasTy_unbox.mpr h.2⟩

theorem posAs_of {fds : List FieldDef} {l : List Obj}
    (ha : List.Forall₂ (fun x fd => HasTy E fd.ty x) l (visDefs fds)) :
    List.Forall₂ (fun t y => HasTy E t y) ((fds.filter fun fd => !fd.skip).map fun fd => fd.ty.unbox) l := by
  rw [List.forall₂_map_left_iff]
  exact ha.flip.imp fun fd x h => hasTy_unbox.mpr h

/-- From the declaration to the value, for named fields. -/
theorem hidden_last_named {fds : List FieldDef} {fs : List (String × Obj)}
    (hn : fs.map (·.1) = fds.map (·.name))
    (hs : ∀ (i : Nat) fd p, fds[i]? = some fd → fs[i]? = some p → fd.skip = true → p.2.isHidden = true)
    (ht : ∀ (i : Nat) fd p, fds[i]? = some fd → fs[i]? = some p → fd.skip = false → HasTy E fd.ty p.2)
    (hl : ∀ (i j : Nat) fd fd', fds[i]? = some fd → fds[j]? = some fd' → fd.skip = true →
      fd'.skip = false → j < i) :
    ∀ (i j : Nat) p q, fs[i]? = some p → fs[j]? = some q → p.2.isHidden = true →
      q.2.isHidden = false → j < i := by
  have hlen : fs.length = fds.length := by simpa using congrArg List.length hn
  intro i j p q hi hj hp hq
  have := hidden_last (E := E) (fds := fds) (fs := fs.map (·.2)) (by simpa using hlen)
    (fun i fd x h h' hk => by
      obtain ⟨p, hp, rfl⟩ := getElem?_map_some h'
      exact hs i fd p h hp hk)
    (fun i fd x h h' hk => by
      obtain ⟨p, hp, rfl⟩ := getElem?_map_some h'
      exact ht i fd p h hp hk) hl
  exact this i j p.2 q.2 (by simp [hi]) (by simp [hj]) hp hq

theorem enum_variant_node {n vds c} {vs : List VariantNode} (hD : DeclsOK E) (hd : E.decl n = some ⟨.enum vds, c⟩)
    (hlen : vs.length = vds.length)
    (hv : ∀ (i : Nat) vd v, vds[i]? = some vd → vs[i]? = some v → DescribesVariant vd v)
    {vd : VariantDef} (hm : vd ∈ vds) :
    ∃ v ∈ vs, DescribesVariant vd v ∧ ∀ w ∈ vs, w.name = v.name → w = v := by
  obtain ⟨i, hi⟩ := List.getElem?_of_mem hm
  have hi' : i < vs.length := by have := (List.getElem?_eq_some_iff.mp hi).1; omega
  have hvi := List.getElem?_eq_getElem hi'
  refine ⟨vs[i], List.getElem_mem hi', hv i _ _ hi hvi, ?_⟩
  intro w hw he
  obtain ⟨j, hj⟩ := List.getElem?_of_mem hw
  have hj' : j < vds.length := by have := (List.getElem?_eq_some_iff.mp hj).1; omega
  have hdj := List.getElem?_eq_getElem hj'
  have e1 := describesVariant_name (hv i _ _ hi hvi)
  have e2 := describesVariant_name (hv j _ _ hdj hj)
  have hnd := hD.variant_names n vds c hd
  have h1 : (vds.map (·.name))[i]? = some vd.name := by simp [hi]
  have h2 : (vds.map (·.name))[j]? = some vd.name := by
    rw [List.getElem?_map, hdj]; simp only [Option.map_some, e2, he, e1]
  have li := (List.getElem?_eq_some_iff.mp h1).1
  have lj := (List.getElem?_eq_some_iff.mp h2).1
  have : j = i := (List.Nodup.getElem_inj_iff hnd (hi := lj) (hj := li)).mp (by
      rw [(List.getElem?_eq_some_iff.mp h2).2, (List.getElem?_eq_some_iff.mp h1).2])
  subst this
  rw [hvi] at hj; exact (Option.some.inj hj).symm

theorem fits_struct {n fds c names fields x} (hd : E.decl n = some ⟨.struct fds, c⟩)
    (hf : namedTypes names fields = (fds.filter fun fd => !fd.skip).map fun fd => (fd.name, some fd.ty.unbox))
    (hx : HasTy E (.named n) x) : Fits E (.struct names fields) x := by
  cases hx with
  | struct _ fds' c' fs hd' h1 h2 h3 =>
    rw [hd] at hd'; cases hd'
    exact .struct _ _ _ _ rfl (showsNamed_struct n fs) (namedAs_of hf (alignNamed h1 h2 h3))
  | tupleStruct _ _ _ _ hd' => rw [hd] at hd'; cases hd'
  | enumS _ _ _ _ _ _ hd' => rw [hd] at hd'; cases hd'
  | enumT _ _ _ _ _ _ hd' => rw [hd] at hd'; cases hd'
  | enumU _ _ _ _ hd' => rw [hd] at hd'; cases hd'

theorem hiddenLast_of_gaps {fs : List Obj}
    (h : ∀ i j : Nat, i < j → ∀ x, fs[j]? = some x → x.isHidden = false →
      ∃ y, fs[i]? = some y ∧ y.isHidden = false) : HiddenLast fs := by
  intro i j x y hi hj hx hy
  rcases Nat.lt_trichotomy j i with hlt | rfl | hgt
  · exact hlt
  · rw [hi] at hj; cases hj; simp [hx] at hy
  · obtain ⟨z, hz, hzv⟩ := h i j hgt y hj hy
    rw [hi] at hz; cases hz; simp [hx] at hzv

theorem hiddenLast_of_gaps_named {fs : List (String × Obj)}
    (h : ∀ i j : Nat, i < j → ∀ x, fs[j]? = some x → x.2.isHidden = false →
      ∃ y, fs[i]? = some y ∧ y.2.isHidden = false) :
    ∀ (i j : Nat) p q, fs[i]? = some p → fs[j]? = some q → p.2.isHidden = true →
      q.2.isHidden = false → j < i := by
  intro i j x y hi hj hx hy
  rcases Nat.lt_trichotomy j i with hlt | rfl | hgt
  · exact hlt
  · rw [hi] at hj; cases hj; simp [hx] at hy
  · obtain ⟨z, hz, hzv⟩ := h i j hgt y hj hy
    rw [hi] at hz; cases hz; simp [hx] at hzv

theorem fits_variant {n vds c} (hd : E.decl n = some ⟨.enum vds, c⟩) {x}
    (hx : HasTy E (.named n) x) (hg : x.GapFree) :
    ∃ vd ∈ vds, ∀ v, DescribesVariant vd v → FitsVariant E v x := by
  rcases enum_inv hd hx with ⟨vn, fds, fs, hm, rfl, h1, h2, h3⟩ | ⟨vn, fds, fs, hm, rfl, h1, h2, h3⟩ |
      ⟨vn, hm, rfl⟩
  · refine ⟨_, hm, fun v hv => ?_⟩
    cases hv with
    | struct _ _ names fields hf _ _ =>
      have hl := hiddenLast_of_gaps_named hg
      have ht : fs.takeWhile (fun p => !p.2.isHidden) = visFields fs :=
        takeWhile_eq_filter fun i j x y hi hj hx hy =>
          hl i j x y hi hj (by simpa using hx) (by simpa using hy)
      refine .struct _ _ _ _ _ rfl rfl (showsNamed_enumS n vn hl) ?_ (namedAs_of hf (alignNamed h1 h2 h3))
      have := nextVariant_yields (.enumS (.derived n) vn fs)
      simpa only [Obj.variantIter, Obj.variantKind, Obj.namedIter, ht] using this
  · refine ⟨_, hm, fun v hv => ?_⟩
    cases hv with
    | tuple =>
      have hl : HiddenLast fs := hiddenLast_of_gaps hg
      refine .tuple _ _ _ _ rfl rfl (showsPos_of hl (.inr (.inr ⟨_, _, rfl⟩))) ?_
        (posAs_of (alignPos h1 h2 h3))
      have := nextVariant_yields (.enumT (.derived n) vn fs)
      simpa only [Obj.variantIter, Obj.variantKind, Obj.posIter, hl.takeWhile, visPos] using this
  · refine ⟨_, hm, fun v hv => ?_⟩
    cases hv with
    | unit => exact .unit _ _ rfl rfl rfl (nextVariant_yields (.enumU (.derived n) vn))

theorem fits_of_describes (hD : DeclsOK E) {t node} (h : Describes E t node)
    {x : Obj} (hx : HasTy E t x) (hg : x.GapFree) : Fits E node x ∨ node = .opaque := by
  cases h with
  | scalar k =>
    left
    generalize he : Ty.scalar k = q at hx
    cases hx <;> cases he
    exact .scalar _ _ _ rfl rfl rfl
  | nonzero | value | structValue | tupleStructValue | tupleValue | enumValue => exact .inr rfl
  | vec t =>
    left
    cases hx with
    | vec _ xs h => exact .list _ _ _ rfl (showsPos_list (.inl rfl)) fun y hy => hasTy_unbox.mpr (h y hy)
  | array t n =>
    left
    cases hx with
    | array _ xs h => exact .array _ _ _ _ rfl (showsPos_list (.inr rfl)) (fun y hy => hasTy_unbox.mpr (h y hy)) rfl
  | map k v =>
    left
    cases hx with
    | map _ _ kvs _ h1 h2 =>
      exact .map _ _ _ rfl rfl fun p hp => ⟨hasTy_unbox.mpr (h1 p hp), hasTy_unbox.mpr (h2 p hp)⟩
  | tuple ts =>
    left
    have hx' := hx
    cases hx with
    | tuple _ fs hl h =>
      have hv := tuple_visible hx'
      have := showsPos_of (x := .tuple (.typed ts) fs) (hiddenLast_of_vis hv) (.inr (.inl ⟨_, rfl⟩))
      rw [visPos_of_vis hv] at this
      refine .tuple _ _ _ rfl this ?_
      rw [List.forall₂_map_left_iff, List.forall₂_iff_get]
      refine ⟨hl.symm, fun i h1 h2 => hasTy_unbox.mpr (h i _ _ ?_ ?_)⟩
      · exact List.getElem?_eq_getElem h1
      · exact List.getElem?_eq_getElem h2
  | struct n fds c names fields hd hf _ _ => exact .inl (fits_struct hd hf hx)
  | tupleStruct n fds c hd =>
    left
    cases hx with
    | tupleStruct _ fds' c' fs hd' h1 h2 h3 =>
      rw [hd] at hd'; cases hd'
      have hl : HiddenLast fs := hiddenLast_of_gaps hg
      exact .tupleStruct _ _ _ rfl (showsPos_of hl (.inl ⟨_, rfl⟩)) (posAs_of (alignPos h1 h2 h3))
    | struct _ _ _ _ hd' => rw [hd] at hd'; cases hd'
    | enumS _ _ _ _ _ _ hd' => rw [hd] at hd'; cases hd'
    | enumT _ _ _ _ _ _ hd' => rw [hd] at hd'; cases hd'
    | enumU _ _ _ _ hd' => rw [hd] at hd'; cases hd'
  | enum n vds c vs hd hlen hv =>
    left
    obtain ⟨vd, hm, hf⟩ := fits_variant hd hx hg
    obtain ⟨v, hvm, hdv, hu⟩ := enum_variant_node hD hd hlen hv hm
    refine .enum _ _ _ ?_ hvm hu (hf v hdv)
    rcases enum_inv hd hx with ⟨_, _, _, _, rfl, _⟩ | ⟨_, _, _, _, rfl, _⟩ | ⟨_, _, rfl⟩ <;> rfl

/-- Conversely, a value that shows what its type information lists has no gaps. -/
theorem gapFree_of_showsPos {x : Obj} {l : List Obj} (hk : x.kind = .tupleStruct ∨ x.kind = .tuple ∨
    x.kind = .list ∨ x.kind = .array ∨ x.variantKind = some .tuple) (h : x.ShowsPos l) : x.GapFree := by
  have e : ∀ n, x.posIter[n]? = l[n]? := fun n => by rw [← nextPos_yields hk n, h.fields n]
  have hl : x.posIter = l := List.ext_getElem? e
  exact (pos_length_iff hk).1.mp (by rw [hl, h.len])

theorem gapFree_of_showsNamed {x : Obj} {l : List (String × Obj)}
    (hk : x.kind = .struct ∨ x.variantKind = some .struct) (h : x.ShowsNamed l) : x.GapFree := by
  have e : ∀ n, x.namedIter[n]? = l[n]? := fun n => by rw [← nextNamed_yields hk n, h.fields n]
  have hl : x.namedIter = l := List.ext_getElem? e
  have hlen : x.namedIter.length = x.fieldsLen := by rw [hl, h.len]
  cases x <;> simp [Obj.kind, Obj.variantKind] at hk
  case struct => trivial
  case enumS tag v fs =>
    cases tag with
    | dyn ns => trivial
    | derived n =>
      simp only [Obj.namedIter, Obj.fieldsLen, visFields] at hlen
      rw [takeWhile_length_iff] at hlen
      simpa [Obj.GapFree] using hlen

theorem gapFree_of_fits {node x} (h : Fits E node x) : x.GapFree := by
  cases h with
  | struct _ _ _ l hk hs _ => exact gapFree_of_showsNamed (.inl hk) hs
  | tupleStruct _ _ l hk hs _ => exact gapFree_of_showsPos (.inl hk) hs
  | tuple _ _ l hk hs _ => exact gapFree_of_showsPos (.inr (.inl hk)) hs
  | enum vs v _ hk _ _ hf =>
    cases hf with
    | struct _ _ _ _ l _ hv hs _ _ => exact gapFree_of_showsNamed (.inr hv) hs
    | tuple _ _ _ l _ hv hs _ _ => exact gapFree_of_showsPos (.inr (.inr (.inr (.inr hv)))) hs
    | unit _ _ _ hv _ _ => cases x <;> simp [Obj.variantKind] at hv; trivial
  | list _ _ l hk hs _ => exact gapFree_of_showsPos (.inr (.inr (.inl hk))) hs
  | array _ _ _ l hk hs _ _ => exact gapFree_of_showsPos (.inr (.inr (.inr (.inl hk)))) hs
  | map _ _ _ hk _ _ => cases x <;> simp [Obj.kind] at hk; trivial
  | scalar _ _ _ hk _ _ => cases x <;> simp [Obj.kind] at hk <;> trivial

theorem takeWhile_forall2 {α β} {R : α → β → Prop} {P : α → Bool} {Q : β → Bool} :
    ∀ {as : List α} {bs : List β}, as.length = bs.length →
    (∀ (i : Nat) a b, as[i]? = some a → bs[i]? = some b → P a = Q b ∧ (Q b = true → R a b)) →
    List.Forall₂ R (as.takeWhile P) (bs.takeWhile Q)
  | [], [], _, _ => .nil
  | [], _ :: _, h, _ => by simp at h
  | _ :: _, [], h, _ => by simp at h
  | a :: as, b :: bs, hl, h => by
    have h0 := h 0 a b rfl rfl
    have ih := takeWhile_forall2 (R := R) (P := P) (Q := Q) (as := as) (bs := bs) (by simpa using hl)
      (fun i a b ha hb => h (i + 1) a b (by simpa using ha) (by simpa using hb))
    cases hq : Q b with
    | true =>
      rw [List.takeWhile_cons_of_pos (by rw [h0.1, hq]), List.takeWhile_cons_of_pos hq]
      exact .cons (h0.2 hq) ih
    | false =>
      rw [List.takeWhile_cons_of_neg (by rw [h0.1, hq]; simp), List.takeWhile_cons_of_neg (by simp [hq])]
      exact .nil

theorem skipsAt_of {n : String} {fds : List FieldDef} {fs : List Obj} (hn : fs.length = fds.length)
    (hs : ∀ (i : Nat) fd x, fds[i]? = some fd → fs[i]? = some x → fd.skip = true → x.isHidden = true)
    (ht : ∀ (i : Nat) fd x, fds[i]? = some fd → fs[i]? = some x → fd.skip = false → HasTy E fd.ty x)
    {x : Obj} (hx : (x = .tupleStruct (.derived n) fs) ∨ ∃ v, x = .enumT (.derived n) v fs) :
    SkipsAt E fds x := by
  have hat : ∀ i, x.fieldAt i = visAt fs i := by rcases hx with rfl | ⟨v, rfl⟩ <;> exact fun _ => rfl
  have hal := alignPos hn hs ht
  have get : ∀ {i : Nat} {fd}, fds[i]? = some fd → ∃ y, fs[i]? = some y := fun {i fd} h =>
    ⟨_, List.getElem?_eq_getElem (by rw [hn]; exact (List.getElem?_eq_some_iff.mp h).1)⟩
  have hit : Yields FieldIter.nextPos x.iter (fs.takeWhile fun x => !x.isHidden) := by
    rcases hx with rfl | ⟨v, rfl⟩
    · exact nextPos_yields (.inl rfl)
    · exact nextPos_yields (.inr (.inr (.inr (.inr rfl))))
  refine ⟨fun i fd h hk => ?_, fun i fd h hk => ?_, fun i h => ?_, ?_, ⟨_, hit, ?_⟩, ⟨visPos fs, ?_, hal⟩⟩
  · obtain ⟨y, hy⟩ := get h
    rw [hat, visAt, hy]; simp [hs i fd y h hy hk]
  · obtain ⟨y, hy⟩ := get h
    have := ht i fd y h hy hk
    exact ⟨y, by rw [hat, visAt, hy]; simp [this.not_hidden], this⟩
  · rw [hat, visAt, List.getElem?_eq_none (by omega)]
  · have := hal.length_eq
    rcases hx with rfl | ⟨v, rfl⟩ <;> exact this
  · refine takeWhile_forall2 hn fun i y fd hy h => ?_
    cases hk : fd.skip with
    | true => simp [hs i fd y h hy hk]
    | false =>
      have := ht i fd y h hy hk
      exact ⟨by simp [this.not_hidden], fun _ => this⟩
  · refine showsPos_toValue ?_
    rcases hx with rfl | ⟨v, rfl⟩
    · exact .inl ⟨_, rfl⟩
    · exact .inr ⟨_, _, rfl⟩

theorem lookup_visFields_reset (n : String) (fs : List (String × Obj)) :
    lookup n (visFields (fs.map fun p => (p.1, p.2.reset))) = (lookup n (visFields fs)).map Obj.reset := by
  rw [visFields_reset, lookup_map]

theorem visAt_reset (fs : List Obj) (i : Nat) :
    visAt (fs.map fun x => x.reset) i = (visAt fs i).map Obj.reset := by
  simp only [visAt, List.getElem?_map]
  cases fs[i]? with
  | none => rfl
  | some x => cases hx : x.isHidden <;> simp [hx]

end Mirror
