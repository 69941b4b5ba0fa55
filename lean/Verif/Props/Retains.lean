import Verif.Lemmas.Retains
import Verif.Props.Suits

set_option linter.unusedSimpArgs false

/-!
# C97: the descriptor tells what is left of a Value

`Retains` (Spec/Suits) says, from the descriptor alone, what a type keeps of a Value: the described fields
under their described names and in their order, and nothing else. Reading a Value and turning the result
into a Value again gives exactly that, so programs with the same stored descriptor keep the same.
-/

namespace Mirror

variable {E : Env} {S : Facts}

theorem reach_unboxed {t : Ty} : ∀ {u : Ty}, t.Reach E u → t.Reach E u.unbox := by
  intro u
  induction u using Ty.unbox.induct with
  | case1 u ih => intro h; rw [Ty.unbox]; exact ih (.step _ _ h (by simp [Ty.comps]))
  | case2 u hu => intro h; rw [Ty.unbox]; exact h; exact hu

theorem TypeNode.ids_rename {r : Ty → Ty} (n : TypeNode) : (n.rename r).ids = n.ids.map r := by
  have one : ∀ m : VariantNode, (m.rename r).ids = m.ids.map r := by
    intro m; cases m <;> simp [VariantNode.rename, VariantNode.ids, Function.comp_def]
  cases n <;> simp [TypeNode.rename, TypeNode.ids, Function.comp_def, List.flatMap_map, List.map_flatMap, one]

theorem parts_distinct (hD : DeclsOK E) {t : Ty} {depth : Nat} {d : TypeDescriptor}
    (hd : describe E depth t = some d) :
    ∀ i n, Part E t i → d.graph.node i = some n → n.Distinct ∧ ∀ j ∈ n.ids, Part E t j := fun i n hi hn =>
  ⟨describes_distinct hD (part_describes hD hd hi hn), (describe_parts hD hd).2 i n hi hn⟩

theorem kept_retains (hD : DeclsOK E) (hO : OrdLaws E) {t : Ty} {depth : Nat} {d : TypeDescriptor}
    (hd : describe E depth t = some d) (hg : ∀ u, t.Reach E u → ¬ u.unbox.PosGap E) (hk : KeysAsValues E t) :
    ∀ {v : Value} {i : Ty} {v' : Value}, Part E t i → v.WF → Kept E i v v' → Retains d.graph i v v' := by
  obtain ⟨hnode, hclosed⟩ := describe_parts hD hd
  intro v
  generalize hs : sizeOf v = k
  induction k using Nat.strong_induction_on generalizing v with
  | _ k ih =>
    rintro i v' hi hw ⟨y, hy, rfl⟩
    obtain ⟨n, hn⟩ := hnode i hi
    have hde := part_describes hD hd hi hn
    have hc := hclosed i n hi hn
    obtain ⟨u, hu, rfl⟩ := hi
    have := retains_step hD hO hde (hg u hu) (fun k w he => hk k w (he ▸ reach_unboxed hu)) hw hy
    refine .intro hn (this.mono fun j hj w w' hlt hwf hr => ?_)
    exact ih (sizeOf w) (by omega) rfl (hc j hj) (hwf hw) hr

/-- C97. If a type reads a Value, then what is left of it, seen as a Value again, is what the descriptor says,
and nothing else is. -/
theorem C97_retains_iff_partial (hD : DeclsOK E) (hO : OrdLaws E) {t : Ty} {depth : Nat} {d : TypeDescriptor}
    (hd : describe E depth t = some d) (hg : ∀ u, t.Reach E u → ¬ u.unbox.PosGap E) (hk : KeysAsValues E t)
    {v : Value} (hw : v.WF) {y : Obj} (hy : fromReflect E t v.toObj = some y) (v' : Value) :
    Retains d.graph d.root v v' ↔ y.toValue = v' := by
  rw [descriptor_root hD hd]
  have hr := kept_retains hD hO hd hg hk (.root t) hw ⟨y, by rw [fromReflect_unbox]; exact hy, rfl⟩
  exact ⟨fun h => Retains.unique (parts_distinct hD hd) (.root t) hw hr h, fun h => h ▸ hr⟩

/-- C97 for every type in the descriptor. -/
theorem C97_part_retains_iff_partial (hD : DeclsOK E) (hO : OrdLaws E) {t : Ty} {depth : Nat} {d : TypeDescriptor}
    (hd : describe E depth t = some d) (hg : ∀ u, t.Reach E u → ¬ u.unbox.PosGap E) (hk : KeysAsValues E t)
    {u : Ty} (hu : t.Reach E u) {v : Value} (hw : v.WF) {y : Obj} (hy : fromReflect E u v.toObj = some y)
    (v' : Value) : Retains d.graph u.unbox v v' ↔ y.toValue = v' := by
  have hr := kept_retains hD hO hd hg hk ⟨u, hu, rfl⟩ hw ⟨y, by rw [fromReflect_unbox]; exact hy, rfl⟩
  exact ⟨fun h => Retains.unique (parts_distinct hD hd) ⟨u, hu, rfl⟩ hw hr h, fun h => h ▸ hr⟩

/-- C97 for a descriptor with hashes for ids, as it is in memory, written, or read back. -/
theorem C97_stored_partial (hD : DeclsOK E) (hO : OrdLaws E) (hS : S.Every Attrs.Parsed) (hi : ∀ u, S.id u < 2 ^ 64)
    (ha : S.Every fun a => ∀ p ∈ a.pairs, p.2.toValue.Storable) {t : Ty}
    (hl : ∀ u n, t.Reach E (.array u n) → n < 2 ^ 64) (hn : NoCollision E S.id t) {depth : Nat}
    {d : TypeDescriptor} {x : WireDescriptor} (hd : describe E depth t = some d)
    (hx : describeW E S depth t = some x) (hg : ∀ u, t.Reach E u → ¬ u.unbox.PosGap E) (hk : KeysAsValues E t)
    {v : Value} (hw : v.WF) {y : Obj} (hy : fromReflect E t v.toObj = some y) (v' : Value) :
    Retains x.nav.graph x.nav.root v v' ↔ y.toValue = v' := by
  have hren := (describeW_renames hD hS hn hd hx).2 (C94_storable hD hS hi ha hl hx)
  have hroot : x.nav.root = wireTy (S.id t.unbox) := by
    show wireTy x.root = _
    rw [(C94_nodes hD hS hx).1]
  have hr := kept_retains hD hO hd hg hk (.root t) hw ⟨y, by rw [fromReflect_unbox]; exact hy, rfl⟩
  have hr' := retains_rename hren (.root t) hr
  rw [hroot]
  refine ⟨fun h => Retains.unique (P := fun i => ∃ j, Part E t j ∧ i = wireTy (S.id j)) ?_ ⟨_, .root t, rfl⟩ hw hr' h,
    fun h => h ▸ hr'⟩
  rintro i m ⟨j, hj, rfl⟩ hm
  rw [hren.node j hj] at hm
  obtain ⟨n, hn, rfl⟩ := Option.map_eq_some_iff.mp hm
  obtain ⟨h1, h2⟩ := parts_distinct hD hd j n hj hn
  refine ⟨?_, fun k hk => ?_⟩
  · cases n <;> first | trivial | skip
    simpa [TypeNode.rename, TypeNode.Distinct, Function.comp_def, VariantNode.rename_name] using h1
  · rw [TypeNode.ids_rename] at hk
    obtain ⟨l, hl, rfl⟩ := List.mem_map.mp hk
    exact ⟨l, h2 l hl, rfl⟩

/-- C97: two programs, or two versions of one, whose types have the same stored descriptor keep the same of
every Value that both read. -/
theorem C97_same_descriptor_partial {E' : Env} {S' : Facts} {t t' : Ty} {depth depth' : Nat} {d d' : TypeDescriptor}
    {x : WireDescriptor} (hD : DeclsOK E) (hD' : DeclsOK E') (hO : OrdLaws E) (hO' : OrdLaws E')
    (hS : S.Every Attrs.Parsed) (hS' : S'.Every Attrs.Parsed)
    (hi : ∀ u, S.id u < 2 ^ 64) (hi' : ∀ u, S'.id u < 2 ^ 64)
    (ha : S.Every fun a => ∀ p ∈ a.pairs, p.2.toValue.Storable)
    (ha' : S'.Every fun a => ∀ p ∈ a.pairs, p.2.toValue.Storable)
    (hl : ∀ u n, t.Reach E (.array u n) → n < 2 ^ 64) (hl' : ∀ u n, t'.Reach E' (.array u n) → n < 2 ^ 64)
    (hn : NoCollision E S.id t) (hn' : NoCollision E' S'.id t')
    (hd : describe E depth t = some d) (hd' : describe E' depth' t' = some d')
    (hx : describeW E S depth t = some x) (hx' : describeW E' S' depth' t' = some x)
    (hg : ∀ u, t.Reach E u → ¬ u.unbox.PosGap E) (hg' : ∀ u, t'.Reach E' u → ¬ u.unbox.PosGap E')
    (hk : KeysAsValues E t) (hk' : KeysAsValues E' t')
    {v : Value} (hw : v.WF) {y y' : Obj} (hy : fromReflect E t v.toObj = some y)
    (hy' : fromReflect E' t' v.toObj = some y') : y.toValue = y'.toValue :=
  (C97_stored_partial hD hO hS hi ha hl hn hd hx hg hk hw hy _).mp
    ((C97_stored_partial hD' hO' hS' hi' ha' hl' hn' hd' hx' hg' hk' hw hy' _).mpr rfl)

/-! ## Concrete cases -/

/-- A tree as an editor may send it: the fields in another order, and one that is not described. -/
def sentTree : Value := .struct ["names", "colour", "val", "kids"]
  [("colour", .scalar (.string "red")), ("kids", .list []),
   ("names", .map [(.scalar (.string "a"), .scalar (.int .u8 1))]), ("val", .scalar (.int .u8 5))]

theorem sentTree_wf : sentTree.WF :=
  .struct _ _ (by intro n; simp; tauto) (by unfold BMSorted; decide) (by
    simp only [List.forall_mem_cons]
    exact ⟨.scalar _, .list _ (by simp), .map _ (by unfold BMSorted; decide)
      (by simp only [List.forall_mem_cons]; exact ⟨.scalar _, by simp⟩)
      (by simp only [List.forall_mem_cons]; exact ⟨.scalar _, by simp⟩), .scalar _, by simp⟩)

theorem valueOrd_keysAsValues (decl) (t : Ty) : KeysAsValues (valueOrdEnv decl) t := fun _ _ _ _ _ _ _ => Iff.rfl

/-- Non-vacuity of `C97_retains_iff_partial`: of the tree sent only the described fields are kept, in the
described order; in particular `colour` is gone. -/
example : ∃ d, describe demoEnv 10 (.named "Tree") = some d ∧ ∀ v', Retains d.graph d.root sentTree v' ↔
    Value.struct ["val", "kids", "names"] [("kids", .list []),
      ("names", .map [(.scalar (.string "a"), .scalar (.int .u8 1))]), ("val", .scalar (.int .u8 5))] = v' := by
  obtain ⟨d, hd⟩ := Option.isSome_iff_exists.mp
    ((C94_full demo_declsOK demoFacts_parsed demo_noCollision 10).1.symm.trans (by rw [demoFull_built]; rfl))
  refine ⟨d, hd, fun v' => ?_⟩
  have hy : fromReflect demoEnv (.named "Tree") sentTree.toObj = some (.struct (.derived "Tree")
      [("val", .nonzero .u8 5), ("kids", .vec (.named "Tree") []),
       ("names", .map (.scalar .string) (.scalar (.int .u8)) [(.scalar (.string "a"), .scalar (.int .u8 1))])]) := by cbv
  rw [C97_retains_iff_partial demo_declsOK demo_ordLaws hd (fun u _ => demo_noPosGap _) (valueOrd_keysAsValues _ _)
    sentTree_wf hy v']
  have : (Obj.struct (.derived "Tree")
      [("val", .nonzero .u8 5), ("kids", .vec (.named "Tree") []),
       ("names", .map (.scalar .string) (.scalar (.int .u8)) [(.scalar (.string "a"), .scalar (.int .u8 1))])]).toValue =
    Value.struct ["val", "kids", "names"] [("kids", .list []),
      ("names", .map [(.scalar (.string "a"), .scalar (.int .u8 1))]), ("val", .scalar (.int .u8 5))] := by cbv
  rw [this]

/-- Non-vacuity of `C97_same_descriptor_partial`: adding a skipped field to `Tree` leaves the stored descriptor as
it was, and both versions keep the same of every Value they read. -/
example {v : Value} (hw : v.WF) {y y' : Obj} (hy : fromReflect demoEnv (.named "Tree") v.toObj = some y)
    (hy' : fromReflect treeNext (.named "Tree") v.toObj = some y') : y.toValue = y'.toValue := by
  have hx' : describeW treeNext demoFacts 10 (.named "Tree") = some demoFull := by cbv
  have inj : ∀ u ∈ ([.named "Tree", .nonzero .u8, .vec (.named "Tree"), .map (.scalar .string) (.scalar (.int .u8)),
      .scalar .string, .scalar (.int .u8)] : List Ty), ∀ v ∈ ([.named "Tree", .nonzero .u8, .vec (.named "Tree"),
      .map (.scalar .string) (.scalar (.int .u8)), .scalar .string, .scalar (.int .u8)] : List Ty),
      demoHash u.unbox = demoHash v.unbox → u.unbox = v.unbox := by decide
  have hn' : NoCollision treeNext demoFacts.id (.named "Tree") :=
    fun u v hu hv => inj u (treeNext_reach hu) v (treeNext_reach hv)
  obtain ⟨d, hd⟩ := Option.isSome_iff_exists.mp
    ((C94_full demo_declsOK demoFacts_parsed demo_noCollision 10).1.symm.trans (by rw [demoFull_built]; rfl))
  obtain ⟨d', hd'⟩ := Option.isSome_iff_exists.mp
    ((C94_full treeNext_declsOK demoFacts_parsed hn' 10).1.symm.trans (by rw [hx']; rfl))
  refine C97_same_descriptor_partial demo_declsOK treeNext_declsOK demo_ordLaws (valueOrdEnv_ordLaws _)
    demoFacts_parsed demoFacts_parsed demoFacts_id
    demoFacts_id demoFacts_storable demoFacts_storable (fun u n h => absurd h (demo_arrays u n))
    (fun u n h => absurd (treeNext_reach h) (by simp)) demo_noCollision hn' hd hd' demoFull_built hx'
    (fun u _ => demo_noPosGap _) (fun u _ => ?_) (valueOrd_keysAsValues _ _) (valueOrd_keysAsValues _ _) hw hy hy'
  rintro ⟨n, c, _, ⟨fds, h, _⟩ | ⟨vn, fds, vds, h, _⟩⟩ <;>
    (obtain ⟨_, h1, _⟩ := treeNext_decl h; cases h1)

example : (fromReflect demoEnv (.named "Tree") sentTree.toObj).isSome = true ∧
    (fromReflect treeNext (.named "Tree") sentTree.toObj).isSome = true := ⟨by cbv, by cbv⟩

/-- `struct Key { s: String }`. -/
def keyDecl : String → Option TyDef := fun n =>
  if n = "Key" then some ⟨.struct [⟨"s", .scalar .string, false⟩], false⟩ else none

/-- `Key` has an `Ord` of its own, for which all keys are equal. -/
def ownKeyEnv : Env :=
  ⟨keyDecl, fun t a b => if t = .named "Key" then .eq else Value.cmp a.toValue b.toValue⟩

theorem keyDecl_some {n : String} {df} (h : keyDecl n = some df) : df = ⟨.struct [⟨"s", .scalar .string, false⟩], false⟩ := by
  simp only [keyDecl] at h
  split at h
  · cases h; rfl
  · cases h

theorem ownKeyEnv_ordLaws : OrdLaws ownKeyEnv where
  refl t a _ := by simp only [ownKeyEnv]; split <;> simp [Value.cmp_self]
  swap t a b _ _ := by
    simp only [ownKeyEnv]; split
    · rfl
    · exact Value.cmp_swap _ _
  lt_trans t a b c ha hb hc := by
    simp only [ownKeyEnv]; split
    · intro h; cases h
    · exact (valueOrdEnv_ordLaws keyDecl).lt_trans .value (a.toValue.toObj) (b.toValue.toObj) (c.toValue.toObj) (.value _ _ ha.toValue_wf rfl) (.value _ _ hb.toValue_wf rfl) (.value _ _ hc.toValue_wf rfl) |> fun h => by
        simpa [valueOrdEnv, Value.toObj_toValue, ha.toValue_wf, hb.toValue_wf, hc.toValue_wf] using h
  eq_trans t a b c ha hb hc := by
    simp only [ownKeyEnv]; split
    · intro _; rfl
    · exact (valueOrdEnv_ordLaws keyDecl).eq_trans .value (a.toValue.toObj) (b.toValue.toObj) (c.toValue.toObj) (.value _ _ ha.toValue_wf rfl) (.value _ _ hb.toValue_wf rfl) (.value _ _ hc.toValue_wf rfl) |> fun h => by
        simpa [valueOrdEnv, Value.toObj_toValue, ha.toValue_wf, hb.toValue_wf, hc.toValue_wf] using h
  value a b ha hb := by simp [ownKeyEnv, Value.toObj_toValue ha, Value.toObj_toValue hb]

theorem key_declsOK {E : Env} (h : E.decl = keyDecl) : DeclsOK E where
  struct_names n fds c hd := by rw [h] at hd; cases keyDecl_some hd; simp
  variant_names n vds c hd := by rw [h] at hd; cases keyDecl_some hd
  variant_fields n vds c vn fds hd _ := by rw [h] at hd; cases keyDecl_some hd

/-- A map with two keys. -/
def twoKeys : Value := .map
  [(.struct ["s"] [("s", .scalar (.string "A"))], .scalar (.int .u8 1)),
   (.struct ["s"] [("s", .scalar (.string "a"))], .scalar (.int .u8 2))]

/-- What reading a map keeps depends on more than the descriptor if the keys have an `Ord` of their own: two
programs whose types have the same descriptor read the same Value to different results, one of them having lost
an entry. -/
theorem C97_own_key_order : ∃ (E E' : Env) (t : Ty) (v : Value) (d : TypeDescriptor) (y y' : Obj),
    DeclsOK E ∧ DeclsOK E' ∧ OrdLaws E ∧ OrdLaws E' ∧ v.WF ∧
    describe E 10 t = some d ∧ describe E' 10 t = some d ∧
    fromReflect E t v.toObj = some y ∧ fromReflect E' t v.toObj = some y' ∧ y.toValue ≠ y'.toValue := by
  refine ⟨valueOrdEnv keyDecl, ownKeyEnv, .map (.named "Key") (.scalar (.int .u8)), twoKeys, _,
    .map (.named "Key") (.scalar (.int .u8))
      [(.struct (.derived "Key") [("s", .scalar (.string "A"))], .scalar (.int .u8 1)),
       (.struct (.derived "Key") [("s", .scalar (.string "a"))], .scalar (.int .u8 2))],
    .map (.named "Key") (.scalar (.int .u8))
      [(.struct (.derived "Key") [("s", .scalar (.string "A"))], .scalar (.int .u8 2))],
    key_declsOK rfl, key_declsOK rfl, valueOrdEnv_ordLaws _, ownKeyEnv_ordLaws, ?_, rfl, rfl, by cbv, by cbv, ?_⟩
  · have hk : ∀ s, (Value.struct ["s"] [("s", .scalar (.string s))]).WF := fun s =>
      .struct _ _ (by simp) (List.pairwise_singleton _ _) (by simp only [List.forall_mem_cons]; exact ⟨.scalar _, by simp⟩)
    have hlt : Value.cmp (.struct ["s"] [("s", .scalar (.string "A"))]) (.struct ["s"] [("s", .scalar (.string "a"))]) = .lt := by
      cbv
    refine .map _ (by unfold BMSorted; simp [hlt]) ?_ ?_
    · simp only [List.forall_mem_cons]; exact ⟨hk _, hk _, by simp⟩
    · simp only [List.forall_mem_cons]; exact ⟨.scalar _, .scalar _, by simp⟩
  · intro h
    have := congrArg (fun v : Value => match v with | .map l => l.length | _ => 0) h
    revert this
    have h1 : (Obj.map (.named "Key") (.scalar (.int .u8))
      [(.struct (.derived "Key") [("s", .scalar (.string "A"))], .scalar (.int .u8 1)),
       (.struct (.derived "Key") [("s", .scalar (.string "a"))], .scalar (.int .u8 2))]).toValue = twoKeys := by cbv
    have h2 : (Obj.map (.named "Key") (.scalar (.int .u8))
      [(.struct (.derived "Key") [("s", .scalar (.string "A"))], .scalar (.int .u8 2))]).toValue =
        .map [(.struct ["s"] [("s", .scalar (.string "A"))], .scalar (.int .u8 2))] := by cbv
    rw [h1, h2]
    simp [twoKeys]

end Mirror
