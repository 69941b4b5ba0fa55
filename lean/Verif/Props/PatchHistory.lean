import Verif.Lemmas.PatchCover
import Verif.Lemmas.Demo

set_option linter.unusedSimpArgs false

/-!
# C81: histories of patches

Patches arrive one after the other, perhaps from several sources, perhaps more than once. Patches that do not meet
may be applied in any order. A patch that a later one covers may be left out, whatever else comes between; in
particular, of a patch that occurs several times only the last occurrence counts. More generally, if a patch makes
two values equal, it still does after any history of other patches has been applied to both. The last three are
about types without dynamic components: an `EnumValue` that was replaced by another variant remembers which
fields the first patch had, so there a history can leave traces of patches that were covered or repeated.
-/

namespace Mirror

theorem patchAll_eq (E : Env) (x : Obj) (vs : List Obj) : patchAll (patch E) x vs = patchSeq E x vs := by
  induction vs generalizing x with
  | nil => rfl
  | cons v vs ih => rw [patchAll, ih, patchSeq_cons]

theorem DoNotMeet.symm {E : Env} (hO : OrdLaws E) (hD : DeclsOK E) {v w : Obj} (h : DoNotMeet E v w) : v.OK E → w.OK E →
    DoNotMeet E w v := by
  induction h with
  | kinds v w hk => exact fun _ _ => .kinds _ _ (Ne.symm hk)
  | structs v w h1 h2 _ ih =>
    exact fun hv hw => .structs _ _ h2 h1 fun n a b ha hb => ih n b a hb ha (OK_field hv hb) (OK_field hw ha)
  | positions v w h1 h2 _ ih =>
    exact fun hv hw => .positions _ _ h1.symm (h1 ▸ h2) fun n a b ha hb =>
      ih n b a hb ha (OK_fieldAt hv hb) (OK_fieldAt hw ha)
  | maps _ _ _ _ m m' _ ih =>
    intro hv hw
    refine .maps _ _ _ _ _ _ fun p hp q hq hs => ih q hq p hp ?_ (map_entry_ok hv hq).2 (map_entry_ok hw hp).2
    obtain ⟨t, y, z, h1, h2, h3⟩ := hs
    refine ⟨t, z, y, h2, h1, ?_⟩
    have hy := fromReflect_sound hO t p.1 (map_entry_ok hw hp).1 ((convertsTo_iff hD).mp h1)
    have hz := fromReflect_sound hO t q.1 (map_entry_ok hv hq).1 ((convertsTo_iff hD).mp h2)
    rw [hO.swap t _ _ hy hz, h3]; rfl

/-- C81: two patches that do not meet can be applied in either order. -/
theorem C81_commute (E : Env) (hD : DeclsOK E) (hO : OrdLaws E) (R S T : Ty) (x v w : Obj) (hx : HasTy E T x)
    (hv : HasTy E R v) (hw : HasTy E S w) (h : DoNotMeet E v w) :
    patch E (patch E x v) w = patch E (patch E x w) v :=
  apart_commute hD hO h ⟨R, hv⟩ ⟨S, hw⟩ x (.inr ⟨T, hx⟩)

/-- C81: patches no two of which meet can be applied in any order. -/
theorem C81_any_order (E : Env) (hD : DeclsOK E) (hO : OrdLaws E) (T : Ty) (x : Obj) (vs ws : List Obj)
    (hx : HasTy E T x) (hv : ∀ v ∈ vs, ∃ S, HasTy E S v) (h : vs.Pairwise (DoNotMeet E)) (hp : vs.Perm ws) :
    patchAll (patch E) x vs = patchAll (patch E) x ws := by
  rw [patchAll_eq, patchAll_eq]
  replace hx : x.OK E := ⟨T, hx⟩
  clear T
  induction hp generalizing x with
  | nil => rfl
  | cons v hp ih =>
    rw [patchSeq_cons, patchSeq_cons]
    exact ih _ (fun v hv' => hv v (by simp [hv'])) (List.pairwise_cons.mp h).2 (patch_ok hO hx (hv v (by simp)))
  | swap v w l =>
    rw [patchSeq_cons, patchSeq_cons, patchSeq_cons, patchSeq_cons]
    have hm := (List.pairwise_cons.mp h).1 v (by simp)
    rw [apart_commute hD hO hm (hv w (by simp)) (hv v (by simp)) x (.inr hx)]
  | trans h1 h2 ih1 ih2 =>
    rename_i l1 l2 l3
    have hv2 : ∀ v ∈ l2, ∃ S, HasTy E S v := fun v h => hv v (h1.mem_iff.mpr h)
    rw [ih1 x hv h hx]
    refine ih2 x hv2 ?_ hx
    have hb : l1.Pairwise fun a b => (a.OK E ∧ b.OK E) ∧ DoNotMeet E a b := by
      refine List.Pairwise.imp_of_mem ?_ h
      intro a b ha hb hab
      exact ⟨⟨hv a ha, hv b hb⟩, hab⟩
    have hs : l2.Pairwise fun a b => (a.OK E ∧ b.OK E) ∧ DoNotMeet E a b := by
      refine (List.Perm.pairwise_iff ?_ h1).mp hb
      rintro a b ⟨⟨ha, hb⟩, hab⟩
      exact ⟨⟨hb, ha⟩, hab.symm hO hD ha hb⟩
    exact hs.imp fun h => h.2

/-- C81: a patch that makes two values equal makes them equal after any history of other patches as well. -/
theorem C81_forgets (E : Env) (hD : DeclsOK E) (hO : OrdLaws E) (T : Ty) (x y w : Obj) (us : List Obj)
    (hT : Static E T) (hx : HasTy E T x) (hy : HasTy E T y) (hu : ∀ u ∈ us, ∃ S, HasTy E S u) (hw : ∃ S, HasTy E S w)
    (h : patch E x w = patch E y w) :
    patchAll (patch E) x (us ++ [w]) = patchAll (patch E) y (us ++ [w]) := by
  rw [patchAll_eq, patchAll_eq]
  refine patchSeq_forgets hD hO _ us [w] (Nat.le_refl _) ?_ T hT x y (.inr ⟨hx, hy⟩) h
  intro p hp
  rcases List.mem_append.mp hp with hp | hp
  · exact hu p hp
  · simp at hp; rw [hp]; exact hw

/-- C81: a patch that a later patch covers can be left out of a history. -/
theorem C81_superfluous (E : Env) (hD : DeclsOK E) (hO : OrdLaws E) (hK : KeysShown E) (T : Ty) (x v w : Obj)
    (as us bs : List Obj) (hT : Static E T) (hx : HasTy E T x)
    (hp : ∀ p ∈ as ++ v :: us ++ w :: bs, ∃ S, HasTy E S p) (h : Covers w v) :
    patchAll (patch E) x (as ++ v :: us ++ w :: bs) = patchAll (patch E) x (as ++ us ++ w :: bs) := by
  have hv : v.OK E := hp v (by simp)
  have hw : w.OK E := hp w (by simp)
  rw [patchAll_eq, patchAll_eq, List.append_assoc, List.append_assoc, patchSeq_append, patchSeq_append E x,
    List.cons_append, patchSeq_cons]
  refine wipes_later hD hO hv hw (covers_wipes hD hO hK h hw hv) (fun u hu => hp u (by simp [hu])) (.inr ?_) bs
  have : ∀ (as : List Obj), (∀ a ∈ as, a.OK E) → ∀ x, HasTy E T x → HasTy E T (patchSeq E x as) := by
    intro as
    induction as with
    | nil => exact fun _ x h => h
    | cons a as ih =>
      intro h x hx
      exact ih (fun b hb => h b (by simp [hb])) _ (patch_hasTy hO a (h a (by simp)) hx)
  exact ⟨T, hT, this as (fun a ha => hp a (by simp [ha])) x hx⟩

/-- C81: of a patch that occurs several times in a history only the last occurrence counts. -/
theorem C81_repeated (E : Env) (hD : DeclsOK E) (hO : OrdLaws E) (hK : KeysShown E) (T : Ty) (x v : Obj)
    (as us bs : List Obj) (hT : Static E T) (hx : HasTy E T x)
    (hp : ∀ p ∈ as ++ v :: us ++ v :: bs, ∃ S, HasTy E S p) (hg : v.EnumsGapFree) :
    patchAll (patch E) x (as ++ v :: us ++ v :: bs) = patchAll (patch E) x (as ++ us ++ v :: bs) :=
  C81_superfluous E hD hO hK T x v v as us bs hT hx hp (.same v hg)

/-- A struct-like `EnumValue` with one field. -/
def oneField (vn n : String) (s : Scalar) : Value := .enumS vn [n] [(n, .scalar s)]

/-- C81: in an `EnumValue` a repeated patch does count: whatever variant it was in before, if that was another one,
the first patch decides which fields it has from then on. -/
theorem C81_dynamic_remembers (E : Env) (x : Obj) (vn n m : String) (s t : Scalar) (hx : HasTy E .enumValue x)
    (hvn : x.variantName ≠ some vn) (hnm : n ≠ m) :
    let v := (oneField vn n s).toObj
    let u := (oneField vn m t).toObj
    patchAll (patch E) x [v, u, v] = v ∧ patchAll (patch E) x [u, v] = u ∧ u ≠ v := by
  have shape : x.kind = .enum ∧ x.typeOf = some .enumValue := by
    cases hx <;> (rename_i ho; subst ho; simp [Value.toObj, Obj.kind, Obj.typeOf])
  have first : ∀ n s, patch E x (oneField vn n s).toObj = (oneField vn n s).toObj := by
    intro n s
    rw [patch_enum_dyn E shape.1 shape.2, if_pos (by simp [oneField, Value.toObj, Obj.kind]), if_neg]
    · rw [fromReflect]
      simp [oneField, Value.toObj, Obj.variantKind, Obj.variantName, Obj.namedIter, Obj.toValue, dynIter,
        dynStruct, svOfList, svSetField, svNew, svSet, bmInsert, lookup]
    · simp only [oneField, Value.toObj, Obj.variantName]
      exact fun h => hvn h.symm
  have next : ∀ n m s t, n ≠ m → patch E (oneField vn n s).toObj (oneField vn m t).toObj = (oneField vn n s).toObj := by
    intro n m s t h
    simp only [oneField, Value.toObj]
    rw [patch_enum_dyn E rfl rfl, if_pos (by simp [Obj.kind]), if_pos (by simp [Obj.variantName])]
    simp [patchFields, patchNamed, Obj.field, visFields, Obj.isHidden, lookup, h.symm, patchO, Value.toObj]
  have same : patch E (oneField vn n s).toObj (oneField vn n s).toObj = (oneField vn n s).toObj := by
    simp only [oneField, Value.toObj]
    rw [patch_enum_dyn E rfl rfl, if_pos (by simp [Obj.kind]), if_pos (by simp [Obj.variantName])]
    simp [patchFields, patchNamed, Obj.field, visFields, Obj.isHidden, lookup, patchO, Value.toObj, patch_scalar]
  refine ⟨?_, ?_, ?_⟩
  · simp only [patchAll]
    rw [first, next n m s t hnm, same]
  · simp only [patchAll]
    rw [first, next m n t s hnm.symm]
  · simp only [oneField, Value.toObj]
    intro h
    simp at h
    exact hnm h.1.symm

/-! ## Examples -/

/-- `Tree` has no dynamic components. -/
theorem tree_static : Static demoEnv (.named "Tree") := by
  have hS : ∀ u, (Ty.named "Tree").Reach demoEnv u →
      u ∈ [Ty.named "Tree", .nonzero .u8, .vec (.named "Tree"), .map (.scalar .string) (.scalar (.int .u8)),
        .scalar .string, .scalar (.int .u8)] := by
    intro u hu
    induction hu with
    | refl => decide
    | step u v _ hv ih =>
      have : ∀ u ∈ [Ty.named "Tree", .nonzero .u8, .vec (.named "Tree"), .map (.scalar .string) (.scalar (.int .u8)),
        .scalar .string, .scalar (.int .u8)], ∀ v ∈ u.comps demoEnv, v ∈ [Ty.named "Tree", .nonzero .u8,
        .vec (.named "Tree"), .map (.scalar .string) (.scalar (.int .u8)), .scalar .string, .scalar (.int .u8)] := by
        decide
      exact this u ih v hv
  intro u hu
  have h := hS u hu
  simp only [List.mem_cons, List.not_mem_nil, or_false] at h
  rcases h with rfl | rfl | rfl | rfl | rfl | rfl <;> simp

/-- A string converts to nothing but itself. -/
theorem string_converts {E : Env} (a : String) : ∀ (t : Ty) (y : Obj), fromReflect E t (.scalar (.string a)) = some y →
    y = .scalar (.string a) := by
  intro t
  induction t using Ty.unbox.induct with
  | case1 t ih =>
    intro y h
    rw [fromReflect] at h
    exact ih y h
  | case2 t h' =>
    intro y h
    rw [fromReflect.eq_def] at h
    cases t <;> simp [Obj.isTy, Obj.typeOf, Scalar.kind, Obj.kind, Obj.variantKind] at h
    case box t => exact absurd rfl (h' t)
    case scalar k => exact h.2.symm
    case value => rw [← h, Obj.toValue, Value.toObj]
    case named n =>
      have hv : (Obj.scalar (.string a)).variantName = none := rfl
      rw [hv] at h
      split at h <;> simp_all

/-- Patches of a `Tree`: `{ val: 3 }`, `{ names: { "a": 1 } }` and `{ names: { "b": 2 } }`. -/
def treeVal : Value := .struct ["val"] [("val", .scalar (.int .u8 3))]
@[inherit_doc treeVal] def treeA : Value := .struct ["names"] [("names", .map [(.scalar (.string "a"), .scalar (.int .u8 1))])]
@[inherit_doc treeVal] def treeB : Value := .struct ["names"] [("names", .map [(.scalar (.string "b"), .scalar (.int .u8 2))])]

theorem one_wf {n : String} {v : Value} (h : v.WF) : (Value.struct [n] [(n, v)]).WF :=
  .struct _ _ (by simp) (List.pairwise_singleton _ _) (by simpa using h)

theorem one_entry_wf {k v : Value} (hk : k.WF) (hv : v.WF) : (Value.map [(k, v)]).WF :=
  .map _ (List.pairwise_singleton _ _) (by simpa using hk) (by simpa using hv)

/-- Non-vacuity: no two of the three patches meet, so they can be applied to `demoTree` in any order. -/
example : patchAll (patch demoEnv) demoTree [treeVal.toObj, treeA.toObj, treeB.toObj] =
    patchAll (patch demoEnv) demoTree [treeB.toObj, treeA.toObj, treeVal.toObj] := by
  have field : ∀ n m v w, (Value.struct [n] [(n, v)]).toObj.field m = some w → m = n ∧ w = v.toObj := by
    intro n m v w h
    simp only [Value.toObj, Obj.field, visFields, List.map_cons, List.map_nil] at h
    have := lookup_mem h
    simp at this
    exact ⟨this.1.1, this.1.2⟩
  have kind : ∀ n v, (Value.struct [n] [(n, v)]).toObj.kind = .struct := by
    intro n v; simp [Value.toObj, Obj.kind]
  have other : ∀ v, DoNotMeet demoEnv treeVal.toObj (Value.struct ["names"] [("names", v)]).toObj := by
    intro v
    refine .structs _ _ (kind _ _) (kind _ _) ?_
    intro n a b ha hb
    have h1 := (field _ _ _ _ ha).1
    have h2 := (field _ _ _ _ hb).1
    rw [h1] at h2; simp at h2
  have keys : DoNotMeet demoEnv treeA.toObj treeB.toObj := by
    refine .structs _ _ (kind _ _) (kind _ _) ?_
    intro n a b ha hb
    rw [(field _ _ _ _ ha).2, (field _ _ _ _ hb).2, Value.toObj, Value.toObj]
    refine .maps _ _ _ _ _ _ ?_
    intro p hp q hq hs
    simp only [List.map_cons, List.map_nil, List.mem_singleton] at hp hq
    subst hp hq
    obtain ⟨t, y, z, h1, h2, h3⟩ := hs
    simp only [Value.toObj] at h1 h2
    rw [string_converts _ _ _ ((convertsTo_iff demo_declsOK).mp h1),
      string_converts _ _ _ ((convertsTo_iff demo_declsOK).mp h2)] at h3
    simp only [demoEnv, valueOrdEnv, Obj.toValue, Value.cmp] at h3
    exact absurd h3 (by decide)
  refine C81_any_order demoEnv demo_declsOK demo_ordLaws _ _ _ _ demoTree_hasTy ?_ ?_ ?_
  · intro v hv
    simp only [List.mem_cons, List.not_mem_nil, or_false] at hv
    rcases hv with rfl | rfl | rfl
    · exact (one_wf (.scalar _)).ok
    · exact (one_wf (one_entry_wf (.scalar _) (.scalar _))).ok
    · exact (one_wf (one_entry_wf (.scalar _) (.scalar _))).ok
  · simp only [List.pairwise_cons, List.mem_cons, List.not_mem_nil, or_false, List.Pairwise.nil, and_true]
    refine ⟨?_, ?_, by simp⟩
    · rintro v (rfl | rfl)
      · exact other _
      · exact other _
    · rintro v rfl; exact keys
  · exact (List.Perm.swap _ _ _).trans (((List.Perm.swap _ _ _).cons _).trans (List.Perm.swap _ _ _)) |>.trans
      (List.Perm.refl _)

/-- `{ val: 5, names: { "a": 7 } }` -/
def treeBoth : Value := .struct ["val", "names"]
  [("names", .map [(.scalar (.string "a"), .scalar (.int .u8 7))]), ("val", .scalar (.int .u8 5))]

theorem treeBoth_wf : treeBoth.WF :=
  .struct _ _ (by simp [or_comm]) (by simp [BMSorted, strCmp]; decide) (by
    simp only [List.mem_cons, List.not_mem_nil, or_false]
    rintro p (rfl | rfl)
    · exact one_entry_wf (.scalar _) (.scalar _)
    · exact .scalar _)

/-- Non-vacuity: `treeBoth` covers `treeVal`, which can be left out of a history before it. -/
example : patchAll (patch demoEnv) demoTree [treeB.toObj, treeVal.toObj, treeA.toObj, treeBoth.toObj, treeB.toObj] =
    patchAll (patch demoEnv) demoTree [treeB.toObj, treeA.toObj, treeBoth.toObj, treeB.toObj] := by
  refine C81_superfluous demoEnv demo_declsOK demo_ordLaws demo_keysShown (.named "Tree") _ _ _ [treeB.toObj] [treeA.toObj]
    [treeB.toObj] tree_static demoTree_hasTy ?_ ?_
  · intro v hv
    simp only [List.cons_append, List.nil_append, List.mem_cons, List.not_mem_nil, or_false] at hv
    have hB := (one_wf (n := "names") (one_entry_wf (.scalar (.string "b")) (.scalar (.int .u8 2)))).ok (E := demoEnv)
    rcases hv with rfl | rfl | rfl | rfl | rfl
    · exact hB
    · exact (one_wf (.scalar _)).ok
    · exact (one_wf (one_entry_wf (.scalar _) (.scalar _))).ok
    · exact treeBoth_wf.ok
    · exact hB
  · have field : ∀ m w, treeVal.toObj.field m = some w → m = "val" ∧ w = .scalar (.int .u8 3) := by
      intro m w h
      simp only [treeVal, Value.toObj, Obj.field, visFields, List.map_cons, List.map_nil] at h
      have := lookup_mem h
      simp at this
      exact this.1
    have found : treeBoth.toObj.field "val" = some (.scalar (.int .u8 5)) := by
      simp [treeBoth, Value.toObj, Obj.field, visFields, Obj.isHidden, lookup]
    refine .structs _ _ (by simp [treeBoth, Value.toObj, Obj.kind]) (by simp [treeVal, Value.toObj, Obj.kind]) ?_ ?_
    · intro n a h
      rw [(field n a h).1, found]; simp
    · intro n a b h hb
      rw [(field n a h).1, found] at hb
      cases hb
      rw [(field n a h).2]
      exact .scalar _ _ rfl (by simp)

/-- Non-vacuity: patching with `treeA` again makes the first time superfluous. -/
example : patchAll (patch demoEnv) demoTree [treeA.toObj, treeBoth.toObj, treeA.toObj] =
    patchAll (patch demoEnv) demoTree [treeBoth.toObj, treeA.toObj] := by
  refine C81_repeated demoEnv demo_declsOK demo_ordLaws demo_keysShown (.named "Tree") _ _ [] [treeBoth.toObj]
    [] tree_static demoTree_hasTy ?_ ?_
  · intro v hv
    simp only [List.cons_append, List.nil_append, List.mem_cons, List.not_mem_nil, or_false] at hv
    rcases hv with rfl | rfl | rfl
    · exact (one_wf (one_entry_wf (.scalar _) (.scalar _))).ok
    · exact treeBoth_wf.ok
    · exact (one_wf (one_entry_wf (.scalar _) (.scalar _))).ok
  · exact (one_wf (one_entry_wf (.scalar _) (.scalar _))).noGaps.enumsGapFree

/-- Non-vacuity: the `EnumValue` `B` patched with `A { x: 1 }` and `A { y: true }`. -/
example : patchAll (patch demoEnv) (Value.enumU "B").toObj
      [(oneField "A" "x" (.int .u8 1)).toObj, (oneField "A" "y" (.bool true)).toObj, (oneField "A" "x" (.int .u8 1)).toObj] =
      (oneField "A" "x" (.int .u8 1)).toObj ∧
    patchAll (patch demoEnv) (Value.enumU "B").toObj
      [(oneField "A" "y" (.bool true)).toObj, (oneField "A" "x" (.int .u8 1)).toObj] =
      (oneField "A" "y" (.bool true)).toObj := by
  have h := C81_dynamic_remembers demoEnv (Value.enumU "B").toObj "A" "x" "y" (.int .u8 1) (.bool true)
    (.enumValueU _ _ rfl) (by simp [Value.toObj, Obj.variantName]) (by simp)
  exact ⟨h.1, h.2.1⟩

end Mirror
