import Verif.Lemmas.StandIn
import Verif.Props.Edit
import Verif.Props.PatchHistory

set_option linter.unusedSimpArgs false

/-!
# C83: the `to_value` of a value can stand in for it

A program that is not compiled with the type takes `x.to_value()`, reads and edits that, and sends it back. Paths lead
to the copies of the same parts, and any history of edits that mean the same for the copy gives the same answers and
leaves the copy of what it would have left, which converts back. Four things make the copy behave differently, and
for each there is a theorem below: arrays, `NonZero` integers, and two things about derived enums.
-/

namespace Mirror

/-- C83: a path leads to the copy of the part it leads to in the value, or to nothing in both. -/
theorem C83_reads_partial (E : Env) (hD : DeclsOK E) (hO : OrdLaws E) (hF : KeysFaithful E) (T : Ty) (x : Obj) (p : KeyPath)
    (hx : HasTy E T x) (hg : x.NoGaps) (hp : KeyPath.WF p) (hf : PathFits E x p) :
    atPath E x.copied p = (atPath E x p).map Obj.copied :=
  atPath_copy hD hO hF ⟨T, hx⟩ hg hp hf

/-- C83: a patch that fits does to the copy what it does to the value. -/
theorem C83_patch_partial (E : Env) (hD : DeclsOK E) (hO : OrdLaws E) (hF : KeysFaithful E) (S T : Ty) (x v : Obj)
    (hx : HasTy E T x) (hg : x.NoGaps) (hv : HasTy E S v) (h : PatchesAlike E x v) :
    patch E x.copied v = (patch E x v).copied :=
  (patch_copy hD hO hF h ⟨T, hx⟩ hg ⟨S, hv⟩).1

theorem history_copy {E : Env} (hD : DeclsOK E) (hO : OrdLaws E) (hF : KeysFaithful E) (es : List Edit) :
    ∀ {x : Obj}, x.OK E → x.NoGaps → (∀ e ∈ es, e.Proper E) → EditsFit E x es →
    (runEdits E x.copied (es.map Edit.forCopy)).1 = (runEdits E x es).1.map (Option.map Obj.copied) ∧
    (runEdits E x.copied (es.map Edit.forCopy)).2 = (runEdits E x es).2.copied ∧ (runEdits E x es).2.NoGaps := by
  induction es with
  | nil => exact fun _ hg _ _ => ⟨rfl, rfl, hg⟩
  | cons e es ih =>
    intro x hx hg hp hf
    obtain ⟨h1, h2, h3⟩ := edit_copy hD hO hF hx hg (hp e (by simp)) hf.1
    have hok : (e.run E x).2.OK E := by
      obtain ⟨T, hT⟩ := hx
      rw [run_snd]
      exact ⟨T, upd_typed hO (act_keeps hO (hp e (by simp)).2) hT⟩
    obtain ⟨h4, h5, h6⟩ := ih hok h3 (fun e he => hp e (by simp [he])) hf.2
    simp only [runEdits, List.map_cons, h1, h2, h4, h5]
    exact ⟨trivial, trivial, h6⟩

/-- C83: a history of edits made to the copy returns copies of what it returns when made to the value, and leaves the
copy of what it leaves there. -/
theorem C83_history_partial (E : Env) (hD : DeclsOK E) (hO : OrdLaws E) (hF : KeysFaithful E) (T : Ty) (x : Obj) (es : List Edit)
    (hx : HasTy E T x) (hg : x.NoGaps) (hp : ∀ e ∈ es, e.Proper E) (hf : EditsFit E x es) :
    (runEdits E x.copied (es.map Edit.forCopy)).1 = (runEdits E x es).1.map (Option.map Obj.copied) ∧
    (runEdits E x.copied (es.map Edit.forCopy)).2 = (runEdits E x es).2.copied :=
  ⟨(history_copy hD hO hF es ⟨T, hx⟩ hg hp hf).1, (history_copy hD hO hF es ⟨T, hx⟩ hg hp hf).2.1⟩

/-- C83: the edited copy converts back to the type, to what the edits would have made of the value, with its skipped
fields reset. -/
theorem C83_back_partial (E : Env) (hD : DeclsOK E) (hO : OrdLaws E) (hF : KeysFaithful E) (T : Ty) (x : Obj) (es : List Edit)
    (hx : HasTy E T x) (hg : x.NoGaps) (hp : ∀ e ∈ es, e.Proper E) (hf : EditsFit E x es) :
    fromReflect E T (runEdits E x.copied (es.map Edit.forCopy)).2 = some (runEdits E x es).2.reset := by
  obtain ⟨_, h2, h3⟩ := history_copy hD hO hF es ⟨T, hx⟩ hg hp hf
  rw [h2]
  exact roundtrip_noGaps hD hO hF.shown (C77_type_kept E hO T x es hx hp) h3

/-- C83: what is sent may itself be the `to_value` of a value of the type wanted: nothing of it is lost. -/
theorem C83_sent (E : Env) (hD : DeclsOK E) (hO : OrdLaws E) (hF : KeysFaithful E) (T : Ty) (x : Obj)
    (hx : HasTy E T x) (hg : x.NoGaps) : Taken E T x.copied := by
  refine ⟨x.reset, (convertsTo_iff hD).mpr (roundtrip_noGaps hD hO hF.shown hx hg), ?_, hg.reset⟩
  rw [toValue_reset, copied_toValue]
  exact ⟨T, hx⟩

/-! ## Where the copy behaves differently -/

/-- C83 fails for arrays: the copy of an array is a list. A list can be pushed onto, after which it converts to an
array of this length no more; the array itself cannot. -/
theorem C83_array_push (E : Env) (t : Ty) (xs : List Obj) (v : Obj) :
    (ListOp.push v).run E (.array t xs) = (none, .array t xs) ∧
    (ListOp.push v).run E (Obj.array t xs).copied = (none, .vec .value (xs.map Obj.copied ++ [v.copied])) ∧
    fromReflect E (.array t xs.length) (.vec .value (xs.map Obj.copied ++ [v.copied])) = none := by
  refine ⟨rfl, ?_, ?_⟩
  · rw [copied_array]
    simp only [ListOp.run, Obj.listPush, fromReflect_value]
    rfl
  · rw [fromReflect_array, Option.bind_eq_none_iff]
    intro ys hys
    have := (optAll_map_inv hys).1
    simp at this
    rw [if_neg (by omega)]

/-- C83 fails for arrays: a list does not patch an array, but the copy of the array. -/
theorem C83_array_list (E : Env) (t u : Ty) (x y : Obj) (xs : List Obj) (hx : HasTy E t x) :
    patch E (.array t (x :: xs)) (.vec u [y]) = .array t (x :: xs) ∧
    patch E (Obj.array t (x :: xs)).copied (.vec u [y]) = .vec .value (patch E x.copied y :: xs.map Obj.copied) := by
  refine ⟨?_, ?_⟩
  · rw [patch_array, if_neg (by simp [Obj.kind])]
  · have hh : x.copied.isHidden = false := (OK.copied ⟨t, hx⟩).not_hidden
    rw [copied_array, patch_vec, if_pos (by simp [Obj.kind]), patchPos, List.map_cons, List.mapIdx_cons]
    congr 1
    congr 1
    refine List.ext_getElem? fun i => ?_
    rw [List.getElem?_mapIdx]
    cases (xs.map Obj.copied)[i]? <;> rfl

/-- C83 fails for `NonZero` integers: the copy takes a zero, and does not convert back then. -/
theorem C83_nonzero (E : Env) (k : IntKind) (n : Int) :
    patch E (.nonzero k n) (.scalar (.int k 0)) = .nonzero k n ∧
    patch E (Obj.nonzero k n).copied (.scalar (.int k 0)) = .scalar (.int k 0) ∧
    fromReflect E (.nonzero k) (.scalar (.int k 0)) = none := by
  have h : fromReflect E (.nonzero k) (.scalar (.int k 0)) = none := by
    rw [fromReflect_nonzero]; simp [Obj.isTy, Obj.typeOf]
  refine ⟨?_, ?_, h⟩
  · rw [patch_nonzero, h]; rfl
  · rw [copied_nonzero, patch_scalar, if_pos]
    simp [Obj.isTy, Obj.typeOf, Scalar.kind]

/-- C83 fails for enums: a `Value` of another variant that does not convert leaves a derived enum as it is, and
replaces its copy, which does not convert back then. -/
theorem C83_enum_unknown (E : Env) (hD : DeclsOK E) (n : String) (x v : Obj) (hk : x.kind = .enum)
    (hn : x.typeOf = some (.named n)) (hv : HasTy E .value v) (hvk : v.kind = .enum)
    (hne : v.variantName ≠ x.variantName) (hc : ∀ y, ¬ ConvertsTo E (.named n) v y) :
    patch E x v = x ∧ patch E x.copied v = v ∧ fromReflect E (.named n) v = none := by
  have hnone : fromReflect E (.named n) v = none := by
    cases hf : fromReflect E (.named n) v with
    | none => rfl
    | some y => exact (hc y ((convertsTo_iff hD).mpr hf)).elim
  obtain ⟨hk', ht'⟩ := enum_copied hk
  refine ⟨?_, ?_, hnone⟩
  · rw [patch_enum_derived E hk hn, if_neg (not_named_of_value hv), if_pos hvk, hnone]
    exact if_neg hne
  · rw [patch_enum_dyn E hk' ht', if_pos hvk, copied_variantName, if_neg hne, fromReflect_enumValue_self hv hvk]
    rfl

theorem emptied {E : Env} {u t : Ty} {xs : List Obj} (h : HasTy E u (.vec t xs)) : HasTy E u (.vec t []) := by
  generalize ho : Obj.vec t xs = o at h
  induction h with
  | vec t' xs' _ => cases ho; exact .vec _ _ (by simp)
  | box u _ _ ih => exact .box _ _ (ih ho)
  | value v _ hw hv =>
    subst hv
    cases v <;> simp only [Value.toObj, reduceCtorEq, Obj.vec.injEq] at ho
    rw [ho.1]
    exact .value (.list []) _ (.list _ (by simp)) (by simp [Value.toObj])
  | structValue => simp_all [Value.toObj]
  | tupleStructValue => simp_all [Value.toObj]
  | tupleValue => simp_all [Value.toObj]
  | enumValueS => simp_all [Value.toObj]
  | enumValueT => simp_all [Value.toObj]
  | enumValueU => simp_all [Value.toObj]
  | _ => cases ho

/-- C83 fails for enums: a `Value` of the same variant that converts replaces a derived enum as a whole, but patches
the fields of its copy. Shown here for a variant that holds a list: the list of the derived enum becomes empty, that
of the copy keeps its elements. -/
theorem C83_enum_merged (E : Env) (hD : DeclsOK E) (hO : OrdLaws E) (hF : KeysFaithful E) (n vn : String) (t : Ty)
    (xs : List Obj) (hx : HasTy E (.named n) (.enumT (.derived n) vn [.vec t xs])) :
    patch E (.enumT (.derived n) vn [.vec t xs]) (Value.enumT vn [.list []]).toObj = .enumT (.derived n) vn [.vec t []] ∧
    patch E (Obj.enumT (.derived n) vn [.vec t xs]).copied (Value.enumT vn [.list []]).toObj =
      (Obj.enumT (.derived n) vn [.vec t xs]).copied := by
  have hv : HasTy E .value (Value.enumT vn [.list []]).toObj :=
    .value _ _ (.enumT _ _ (by simp; exact .list _ (by simp))) rfl
  have hk : (Value.enumT vn [.list []]).toObj.kind = .enum := by simp [Value.toObj, Obj.kind]
  have hc : (Value.enumT vn [.list []]).toObj = (Obj.enumT (.derived n) vn [.vec t []]).copied := by
    rw [copied_enumT]; simp [Value.toObj, visPos, Obj.isHidden, copied_vec]
  have hx' : HasTy E (.named n) (.enumT (.derived n) vn [.vec t []]) := by
    cases hx with
    | enumT _ vds c _ fds _ h1 h2 h3 h4 h5 =>
      refine .enumT n vds c vn fds _ h1 h2 h3 ?_ ?_ <;> intro i fd x hi hx hs
      · match i with
        | 0 =>
          simp only [List.getElem?_cons_zero, Option.some.injEq] at hx
          have := h4 0 fd _ hi rfl hs
          simp [Obj.isHidden] at this
        | i + 1 => simp at hx
      · match i with
        | 0 =>
          simp only [List.getElem?_cons_zero, Option.some.injEq] at hx
          rw [← hx]
          exact emptied (h5 0 fd _ hi rfl hs)
        | i + 1 => simp at hx
  have hg : (Obj.enumT (.derived n) vn [.vec t []]).NoGaps := by
    refine .mk _ ⟨by simp, ?_⟩ ?_
    · intro tag v fs h
      simp only [Obj.enumT.injEq] at h
      obtain ⟨_, _, rfl⟩ := h
      intro i j x y hx _ h1
      match i with
      | 0 =>
        simp only [List.getElem?_cons_zero, Option.some.injEq] at hx
        subst hx
        simp [Obj.isHidden] at h1
      | i + 1 => simp at hx
    · intro x hx
      simp only [Obj.parts, visPos, Obj.isHidden, List.filter_cons, List.filter_nil] at hx
      simp at hx
      subst hx
      exact vec_noGaps (by simp)
  refine ⟨?_, ?_⟩
  · rw [patch_enum_derived E rfl rfl, if_neg (not_named_of_value hv), if_pos hk, hc, Obj.copied,
      roundtrip_noGaps hD hO hF.shown hx' hg]
    simp [Obj.reset]
  · rw [copied_enumT, patch_enum_dyn E rfl rfl, if_pos hk, if_pos (by simp [Value.toObj, Obj.variantName]), patchFields]
    simp [visPos, Obj.isHidden, copied_vec, patchPos, Value.toObj, Obj.fieldAt, visAt, patchO, patch_vec, Obj.kind]
    refine List.ext_getElem? fun i => ?_
    rw [List.getElem?_mapIdx]
    cases (xs.map Obj.copied)[i]? <;> rfl

/-- C83 fails for keys that lose something when they are converted, a struct with an extra field for instance: the map
finds the entry, its copy does not. -/
theorem C83_lossy_key (E : Env) (hD : DeclsOK E) (hO : OrdLaws E) (S kt vt : Ty) (p w k y : Obj)
    (hx : HasTy E (.map kt vt) (.map kt vt [(p, w)])) (hk : HasTy E S k) (hy : ConvertsTo E kt k y)
    (he : E.kcmp kt y p = .eq) (hl : Value.cmp k.toValue p.toValue ≠ .eq) :
    (Obj.map kt vt [(p, w)]).mapGet E k = some w ∧ (Obj.map kt vt [(p, w)]).copied.mapGet E k = none := by
  refine ⟨?_, ?_⟩
  · rw [convertsTo_iff hD] at hy
    simp [Obj.mapGet, hy, bmGet, he]
  · have hp : p.OK E := by
      cases hx with
      | map _ _ _ _ h _ => exact ⟨_, h (p, w) (by simp)⟩
    have := kcmp_copied hO ⟨S, hk⟩ hp
    rw [Obj.copied, Obj.copied] at this
    rw [Obj.copied, Obj.toValue]
    simp only [List.map_cons, List.map_nil, show ∀ q : Value × Value, bmCollect Value.cmp [q] = [q] from fun _ => rfl, Value.toObj,
      Obj.mapGet, fromReflect_value, Option.bind_some, bmGet, this, if_neg hl]

/-! ## A case -/

theorem demo_keysFaithful : KeysFaithful demoEnv := fun _ _ _ _ _ => Iff.rfl

theorem scalar_taken {E : Env} (hD : DeclsOK E) (s : Scalar) : Taken E (.scalar s.kind) (.scalar s) :=
  ⟨.scalar s, (convertsTo_iff hD).mpr (by rw [fromReflect_scalar]; simp [Obj.isTy, Obj.typeOf]), rfl,
    .mk _ ⟨by simp, by simp⟩ (by simp [Obj.parts])⟩

/-- A client pops the child, removes an entry, patches another one and pushes a tree; the tree is a `Value`. -/
def copyHistory : List Edit :=
  [⟨[.named "kids"], .list .pop⟩,
   ⟨[.named "names"], .map (.remove (.scalar (.string "a")))⟩,
   ⟨[.named "names", .get (.scalar (.string "b"))], .patch (.scalar (.int .u8 7))⟩,
   ⟨[.named "kids"], .list (.push demoTree.copied)⟩,
   ⟨[], .patch treeVal.toObj⟩,
   ⟨[.named "val"], .assign (.nonzero .u8 9)⟩]

theorem demoTree_noGaps : demoTree.NoGaps := demoTree_hasTy.noGaps demo_skipsLast

theorem copyHistory_proper : ∀ e ∈ copyHistory, e.Proper demoEnv := by
  intro e he
  simp only [copyHistory, List.mem_cons, List.not_mem_nil, or_false] at he
  rcases he with rfl | rfl | rfl | rfl | rfl | rfl
  · exact ⟨fun v hv => by simp at hv, trivial⟩
  · exact ⟨fun v hv => by simp at hv, ⟨_, .scalar _⟩⟩
  · refine ⟨fun v hv => ?_, ⟨_, .scalar _⟩⟩
    simp at hv; subst hv; exact .scalar _
  · exact ⟨fun v hv => by simp at hv, ⟨_, OK.copied ⟨_, demoTree_hasTy⟩⟩⟩
  · exact ⟨fun v hv => by simp at hv, (one_wf (.scalar _)).ok⟩
  · exact ⟨fun v hv => by simp at hv, ⟨.nonzero .u8, .nonzero _ _ (by decide)⟩⟩

/-- A tree with any value, any children and any names. -/
def anyTree (n : Int) (kids : List Obj) (names : List (Obj × Obj)) : Obj :=
  .struct (.derived "Tree") [("val", .nonzero .u8 n), ("kids", .vec (.named "Tree") kids),
    ("names", .map (.scalar .string) (.scalar (.int .u8)) names)]

theorem anyTree_kids (n kids names y) (h : atPath demoEnv (anyTree n kids names) [.named "kids"] = some y) :
    y = .vec (.named "Tree") kids := by
  simpa [anyTree, atPath_cons, atPath_nil, Obj.atKey, Obj.field, Obj.kind, visFields, Obj.isHidden, lookup] using h.symm

theorem anyTree_names (n kids names y) (h : atPath demoEnv (anyTree n kids names) [.named "names"] = some y) :
    y = .map (.scalar .string) (.scalar (.int .u8)) names := by
  simpa [anyTree, atPath_cons, atPath_nil, Obj.atKey, Obj.field, Obj.kind, visFields, Obj.isHidden, lookup] using h.symm

theorem tree_form {x : Obj} (h : HasTy demoEnv (.named "Tree") x) : ∃ n kids names, x = anyTree n kids names ∧
    ∀ p ∈ names, ∃ s, p.2 = .scalar s := by
  cases h with
  | struct _ fds c fs hd hn _ ht =>
    simp only [demoEnv, valueOrdEnv, demoDecl, Option.some.injEq, TyDef.mk.injEq, Shape.struct.injEq] at hd
    obtain ⟨rfl, rfl⟩ := hd
    match fs, hn with
    | [(_, a), (_, b), (_, c)], hn =>
      simp at hn
      obtain ⟨rfl, rfl, rfl⟩ := hn
      have h0 := ht 0 _ _ rfl rfl rfl
      have h1 := ht 1 _ _ rfl rfl rfl
      have h2 := ht 2 _ _ rfl rfl rfl
      cases h0 with
      | nonzero k n _ =>
        cases h1 with
        | vec _ xs _ =>
          cases h2 with
          | map _ _ kvs _ _ hv =>
            refine ⟨n, xs, kvs, rfl, fun p hp => ?_⟩
            have := hv p hp
            generalize p.2 = o at this ⊢
            generalize ht : Ty.scalar (.int .u8) = t at this
            cases this <;> first | exact ⟨_, rfl⟩ | cases ht
  | tupleStruct _ _ _ _ hd => simp [demoEnv, valueOrdEnv, demoDecl] at hd
  | enumS _ _ _ _ _ _ hd => simp [demoEnv, valueOrdEnv, demoDecl] at hd
  | enumT _ _ _ _ _ _ hd => simp [demoEnv, valueOrdEnv, demoDecl] at hd
  | enumU _ _ _ _ hd => simp [demoEnv, valueOrdEnv, demoDecl] at hd

theorem field_fits (x : Obj) (n : String) : PathFits demoEnv x [.named n] :=
  .cons _ _ _ (by simp) fun y _ => .nil y

theorem copyHistory_fits_each {x : Obj} (hx : HasTy demoEnv (.named "Tree") x) : ∀ e ∈ copyHistory, e.Fits demoEnv x := by
  obtain ⟨n, kids, names, rfl, hn⟩ := tree_form hx
  have key : ∀ s, ReadsBack demoEnv (.scalar .string) (.scalar (.string s)) := fun s =>
    (scalar_taken demo_declsOK (.string s)).readsBack demo_declsOK
  intro e he
  simp only [copyHistory, List.mem_cons, List.not_mem_nil, or_false] at he
  rcases he with rfl | rfl | rfl | rfl | rfl | rfl
  · refine ⟨field_fits _ _, fun y hy => ?_⟩
    rw [anyTree_kids _ _ _ _ hy]
    exact .pop _ (by simp [Obj.kind])
  · refine ⟨field_fits _ _, fun y hy => ?_⟩
    rw [anyTree_names _ _ _ _ hy]
    refine .remove _ _ fun kt vt kvs h => ?_
    cases h
    exact key _
  · refine ⟨.cons _ _ _ (by simp) fun y hy => ?_, fun y hy => ?_⟩
    · refine .cons _ _ _ (fun v kt vt kvs h1 h2 => ?_) fun z _ => .nil z
      have := anyTree_names n kids names y (by rw [atPath_cons, hy]; rfl)
      rw [this] at h2
      cases h1
      cases h2
      rw [Value.toObj]
      exact key _
    · rw [atPath_cons] at hy
      obtain ⟨z, hz, hy⟩ := Option.bind_eq_some_iff.mp hy
      have := anyTree_names n kids names z (by rw [atPath_cons, hz]; rfl)
      subst this
      rw [atPath_cons] at hy
      obtain ⟨w, hw, hy⟩ := Option.bind_eq_some_iff.mp hy
      cases hy
      have : ∃ p ∈ names, p.2 = y := by
        simp only [Obj.atKey, Obj.kind, Obj.mapGet] at hw
        obtain ⟨k, _, hk⟩ := Option.bind_eq_some_iff.mp hw
        obtain ⟨k', hm, _⟩ := bmGet_mem hk
        exact ⟨_, hm, rfl⟩
      obtain ⟨p, hp, rfl⟩ := this
      obtain ⟨s, hs⟩ := hn p hp
      rw [hs]
      exact .patch _ _ (.scalar _ _)
  · refine ⟨field_fits _ _, fun y hy => ?_⟩
    rw [anyTree_kids _ _ _ _ hy]
    refine .push _ _ (by simp [Obj.kind]) fun t xs h => ?_
    cases h
    exact C83_sent demoEnv demo_declsOK demo_ordLaws demo_keysFaithful _ _ demoTree_hasTy demoTree_noGaps
  · refine ⟨.nil _, fun y hy => ?_⟩
    cases hy
    refine .patch _ _ (.struct _ _ _ fun m a w h1 h2 => ?_)
    simp only [treeVal, Value.toObj, Obj.field, visFields, List.map_cons, List.map_nil] at h2
    have := lookup_mem h2
    simp at this
    obtain ⟨rfl, rfl⟩ := this.1
    simp [Obj.field, visFields, Obj.isHidden, lookup] at h1
    subst h1
    exact .nonzero _ _ _ (by simp) (by simp)
  · refine ⟨field_fits _ _, fun y hy => ?_⟩
    have : y = .nonzero .u8 n := by
      simpa [anyTree, atPath_cons, atPath_nil, Obj.atKey, Obj.field, Obj.kind, visFields, Obj.isHidden, lookup] using hy.symm
    rw [this]
    exact .assign _ _ rfl (.mk _ ⟨by simp, by simp⟩ (by simp [Obj.parts]))

theorem editsFit_of_each {es : List Edit} (hp : ∀ e ∈ es, e.Proper demoEnv)
    (h : ∀ x, HasTy demoEnv (.named "Tree") x → ∀ e ∈ es, e.Fits demoEnv x) :
    ∀ {x : Obj}, HasTy demoEnv (.named "Tree") x → EditsFit demoEnv x es := by
  induction es with
  | nil => exact fun _ => trivial
  | cons e es ih =>
    intro x hx
    refine ⟨h x hx e (by simp), ih (fun e he => hp e (by simp [he])) (fun x hx e he => h x hx e (by simp [he])) ?_⟩
    rw [run_snd]
    exact upd_typed demo_ordLaws (act_keeps demo_ordLaws (hp e (by simp)).2) hx

/-- Non-vacuity: the history fits the demo tree, and the copy of the child is handed out. -/
example : EditsFit demoEnv demoTree copyHistory ∧
    fromReflect demoEnv (.named "Tree") (runEdits demoEnv demoTree.copied (copyHistory.map Edit.forCopy)).2 =
      some (runEdits demoEnv demoTree copyHistory).2.reset ∧
    (runEdits demoEnv demoTree.copied (copyHistory.map Edit.forCopy)).1.head? =
      some ((atPath demoEnv demoTree [.named "kids", .get (.scalar (.int .u8 0))]).map Obj.copied) := by
  have hf := editsFit_of_each copyHistory_proper (fun _ => copyHistory_fits_each) demoTree_hasTy
  refine ⟨hf, C83_back_partial demoEnv demo_declsOK demo_ordLaws demo_keysFaithful _ _ _ demoTree_hasTy demoTree_noGaps
    copyHistory_proper hf, ?_⟩
  rw [(C83_history_partial demoEnv demo_declsOK demo_ordLaws demo_keysFaithful _ _ _ demoTree_hasTy demoTree_noGaps
    copyHistory_proper hf).1]
  simp [copyHistory, runEdits, run_fst, demoTree, atPath_cons, atPath_nil, Obj.atKey, visAt, Obj.kind, Obj.field,
    visFields, Obj.isHidden, lookup, Act.run, ListOp.run, Obj.listPop, vecPop, Obj.fieldAt, valueToUsize, usizeSize]

/-- Non-vacuity: `Opt::None` and the `Value` `Third`, a variant that `Opt` does not have. -/
example : patch demoEnv (.enumU (.derived "Opt") "None") (Value.enumU "Third").toObj = .enumU (.derived "Opt") "None" ∧
    patch demoEnv (Obj.enumU (.derived "Opt") "None").copied (Value.enumU "Third").toObj = (Value.enumU "Third").toObj := by
  have := C83_enum_unknown demoEnv demo_declsOK "Opt" (.enumU (.derived "Opt") "None") (Value.enumU "Third").toObj rfl rfl
    (.value _ _ (.enumU _) rfl) (by simp [Value.toObj, Obj.kind]) (by simp [Value.toObj, Obj.variantName]) (by
      intro y hy
      rw [convertsTo_iff demo_declsOK, fromReflect_enum (vds := [.tuple "Some" [⟨"", .named "Point", false⟩], .unit "None"])
        (c := true) rfl] at hy
      simp [Value.toObj, Obj.variantName, VariantDef.name] at hy)
  exact ⟨this.1, this.2.1⟩

/-- Non-vacuity: the key `Point { x: -1, y: -0.0 }`, looked up with an extra field `z`. -/
example : ∃ k y, HasTy demoEnv .value k ∧ ConvertsTo demoEnv (.named "Point") k y ∧
    demoEnv.kcmp (.named "Point") y demoPoint = .eq ∧ Value.cmp k.toValue demoPoint.toValue ≠ .eq := by
  refine ⟨(Value.struct ["x", "y", "z"] [("x", .scalar (.int .i32 (-1))), ("y", .scalar (.f32 0x80000000#32)),
    ("z", .scalar (.bool true))]).toObj, demoPoint, ?_, ?_, ?_, ?_⟩
  · exact .value _ _ (.struct _ _ (by simp) (by simp [BMSorted, strCmp]; decide) (by
      simp only [List.mem_cons, List.not_mem_nil, or_false]
      rintro p (rfl | rfl | rfl) <;> exact .scalar _)) rfl
  · rw [convertsTo_iff demo_declsOK]
    rw [fromReflect_struct (fds := [⟨"x", .scalar (.int .i32), false⟩, ⟨"y", .scalar .f32, false⟩]) (c := false) rfl]
    simp [convNamed, convField, fromReflect_scalar, demoPoint, Value.toObj, Obj.field, visFields, Obj.isHidden, lookup,
      optAll, Obj.kind, Obj.isTy, Obj.typeOf, Scalar.kind]
  · exact Value.cmp_self _
  · rw [ne_eq, Value.cmp_eq_iff]
    simp [demoPoint, Value.toObj, Obj.toValue, Value.enc, visFields, Obj.isHidden, svFinish, svOfList_eq]

/-- `enum Many { All(Vec<u8>) }` -/
def manyEnv : Env := valueOrdEnv fun n =>
  if n = "Many" then some ⟨.enum [.tuple "All" [⟨"", .vec (.scalar (.int .u8)), false⟩]], false⟩ else none

/-- Non-vacuity: `Many::All(vec![1])` becomes empty, its copy does not. -/
example : DeclsOK manyEnv ∧ HasTy manyEnv (.named "Many")
    (.enumT (.derived "Many") "All" [.vec (.scalar (.int .u8)) [.scalar (.int .u8 1)]]) := by
  refine ⟨⟨?_, ?_, ?_⟩, ?_⟩
  · intro n fds c h
    simp only [manyEnv, valueOrdEnv] at h
    split at h <;> simp at h
  · intro n vds c h
    simp only [manyEnv, valueOrdEnv] at h
    split at h <;> simp at h
    obtain ⟨rfl, _⟩ := h
    decide
  · intro n vds c vn fds h hv
    simp only [manyEnv, valueOrdEnv] at h
    split at h <;> simp at h
    obtain ⟨rfl, _⟩ := h
    simp at hv
  · refine .enumT "Many" _ false "All" _ _ rfl (by simp; rfl) rfl ?_ ?_ <;> intro i fd x h1 h2 h3
    · match i with
      | 0 => simp at h1; subst h1; simp at h3
      | i + 1 => simp at h1
    · match i with
      | 0 =>
        simp at h1 h2; subst h1 h2
        exact .vec _ _ (by simp; exact .scalar' rfl)
      | i + 1 => simp at h1

end Mirror
