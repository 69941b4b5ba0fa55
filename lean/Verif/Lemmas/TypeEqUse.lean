import Verif.Lemmas.TypeEq
import Verif.Lemmas.NodeId
import Verif.Lemmas.WireDefault

/-! # Equal type descriptors answer alike -/

set_option linter.unusedSimpArgs false

namespace Mirror

theorem entry_same : ∀ {g h : List (WireId × Option WireNode)}, wireGraphEh.eq g h = true → ∀ i,
    WireNode.eh.option.option.eq (bmGet compare i g) (bmGet compare i h) = true
  | [], [], _, i => by simp [bmGet, EqHash.option]
  | (a, m) :: g, (b, n) :: h, hgh, i => by
    simp only [wireGraphEh, EqHash.vec, sliceEq, EqHash.and, Bool.and_eq_true] at hgh
    obtain ⟨⟨h1, h2⟩, h3⟩ := hgh
    have hab : a = b := by simpa [EqHash.nat] using h1
    subst hab
    simp only [bmGet]
    split
    · simpa [EqHash.option] using h2
    · exact entry_same h3 i
  | [], _ :: _, h, _ => by simp [wireGraphEh, EqHash.vec, sliceEq] at h
  | _ :: _, [], h, _ => by simp [wireGraphEh, EqHash.vec, sliceEq] at h

theorem descriptor_eq_iff {x y : WireDescriptor} :
    WireDescriptor.eh.eq x y = true ↔ x.root = y.root ∧ wireGraphEh.eq x.graph y.graph = true := by
  simp [WireDescriptor.eh, EqHash.of, EqHash.and, EqHash.nat]

theorem node_same {x y : WireDescriptor} (h : wireGraphEh.eq x.graph y.graph = true) (i : WireId) :
    WireNode.eh.option.eq (x.node i) (y.node i) = true := by
  have := entry_same h i
  unfold WireDescriptor.node
  revert this
  cases bmGet compare i x.graph <;> cases bmGet compare i y.graph <;> simp [EqHash.option]
  rename_i a b
  cases a <;> cases b <;> simp

/-! ## Navigation -/

theorem named_outline_nav (e : WireId → Ty) (fs : List (String × WireNamed)) :
    (fs.map fun p => (p.1, e p.2.id)) = (namedOutline fs).map fun p => (p.1, e p.2.id) := by
  simp [namedOutline, WireNamed.outline]

theorem unnamed_outline_nav (e : WireId → Ty) (fs : List WireUnnamed) :
    (fs.map fun f => e f.id) = (fs.map WireUnnamed.outline).map fun f => e f.id := by
  simp [WireUnnamed.outline]

theorem variant_outline_nav (e : WireId → Ty) (v : WireVariant) : v.outline.nav e = v.nav e := by
  cases v <;> simp only [WireVariant.outline, WireVariant.nav]
  · rw [← named_outline_nav]
  · rw [← unnamed_outline_nav]

theorem node_outline_nav (e : WireId → Ty) (n : WireNode) : n.outline.nav e = n.nav e := by
  cases n <;> simp only [WireNode.outline, WireNode.nav]
  · rw [← named_outline_nav]
  · rw [← unnamed_outline_nav]
  · rw [← unnamed_outline_nav]
  · simp [variant_outline_nav]

theorem nav_same {x y : WireDescriptor} (h : WireDescriptor.eh.eq x y = true) : x.nav = y.nav := by
  obtain ⟨hr, hg⟩ := descriptor_eq_iff.mp h
  have hG : x.navGraph = y.navGraph := by
    funext t
    have key : ∀ i, (bmGet compare i x.graph).map (Option.map (WireNode.nav wireTy)) =
        (bmGet compare i y.graph).map (Option.map (WireNode.nav wireTy)) := by
      intro i
      have := entry_same hg i
      revert this
      cases bmGet compare i x.graph <;> cases bmGet compare i y.graph <;> simp [EqHash.option]
      rename_i a b
      cases a <;> cases b <;> simp
      intro hab
      rw [← node_outline_nav wireTy, (Splits.node.iff _ _).mp hab |>.1, node_outline_nav]
    unfold WireDescriptor.navGraph
    split
    · exact key _
    · rfl
  unfold WireDescriptor.nav
  rw [hr, hG]

/-! ## Defaults -/

/-- The same fields, with values that are equal. -/
def SameFields (a b : List (String × Value)) : Prop :=
  (a.map fun p => (p.1, p.2.enc)) = b.map fun p => (p.1, p.2.enc)

/-- Values that are pairwise equal. -/
def SameValues (a b : List Value) : Prop := Value.beqList a b = true

theorem sameFields_beq : ∀ {a b : List (String × Value)}, SameFields a b → Value.beqFields a b = true
  | [], [], _ => by simp [Value.beqFields]
  | (n, a) :: as, (m, b) :: bs, h => by
    simp only [SameFields, List.map_cons, List.cons.injEq, Prod.mk.injEq] at h
    obtain ⟨⟨rfl, h1⟩, h2⟩ := h
    simp [Value.beqFields, (Value.beq_enc a b).mpr h1, sameFields_beq h2]
  | [], _ :: _, h => by simp [SameFields] at h
  | _ :: _, [], h => by simp [SameFields] at h

theorem svOfList_same {a b : List (String × Value)} (h : SameFields a b) :
    (svOfList a).1 = (svOfList b).1 ∧ Value.beqFields (svOfList a).2 (svOfList b).2 = true := by
  have hn : a.map (·.1) = b.map (·.1) := by
    have := congrArg (List.map Prod.fst) h
    simpa [Function.comp_def] using this
  rw [svOfList_eq, svOfList_eq]
  refine ⟨hn, sameFields_beq ?_⟩
  unfold SameFields
  rw [← bmOfList_map strCmp Value.enc a, ← bmOfList_map strCmp Value.enc b, h]

theorem defaultPos_same {f f' : WireId → Option (Ends (Option Value))}
    (h : ∀ i, SameAnswer BEq' (f i) (f' i)) : ∀ is,
    SameAnswer SameValues (wireDefaultPos f is) (wireDefaultPos f' is)
  | [] => by simp only [wireDefaultPos]; exact .some _ _ (by simp [SameValues, Value.beqList])
  | i :: is => by
    have h1 := h i
    have h2 := defaultPos_same h is
    simp only [wireDefaultPos]
    generalize f i = r at h1 ⊢
    generalize f' i = r' at h1 ⊢
    generalize wireDefaultPos f is = q at h2 ⊢
    generalize wireDefaultPos f' is = q' at h2 ⊢
    cases h1 with
    | stuck => exact .stuck
    | panic => exact .panic
    | none => exact .none
    | some a b hab =>
      cases h2 with
      | stuck => exact .stuck
      | panic => exact .panic
      | none => exact .none
      | some as bs h3 =>
        refine .some _ _ ?_
        simp only [SameValues] at h3
        simp [SameValues, Value.beqList, hab, h3]

/-- What the loops look at in a field. -/
def WireNamed.key (d : WireNamed) : String × WireId := (d.name, d.id)

theorem defaultNamed_same {f f' : WireId → Option (Ends (Option Value))}
    (h : ∀ i, SameAnswer BEq' (f i) (f' i)) : ∀ ds ds' : List (Option WireNamed),
    ds.map (Option.map WireNamed.key) = ds'.map (Option.map WireNamed.key) →
    SameAnswer SameFields (wireDefaultNamed f ds) (wireDefaultNamed f' ds')
  | [], [], _ => by simp only [wireDefaultNamed]; exact .some _ _ rfl
  | none :: _, none :: _, _ => by simp only [wireDefaultNamed]; exact .panic
  | some d :: ds, some d' :: ds', hd => by
    simp only [List.map_cons, Option.map_some, List.cons.injEq, Option.some.injEq, WireNamed.key,
      Prod.mk.injEq] at hd
    obtain ⟨⟨hn, hi⟩, hr⟩ := hd
    have h1 := h d.id
    have h2 := defaultNamed_same h ds ds' hr
    simp only [wireDefaultNamed, ← hi, ← hn]
    generalize f d.id = r at h1 ⊢
    generalize f' d.id = r' at h1 ⊢
    generalize wireDefaultNamed f ds = q at h2 ⊢
    generalize wireDefaultNamed f' ds' = q' at h2 ⊢
    cases h1 with
    | stuck => exact .stuck
    | panic => exact .panic
    | none => exact .none
    | some a b hab =>
      cases h2 with
      | stuck => exact .stuck
      | panic => exact .panic
      | none => exact .none
      | some as bs h3 =>
        refine .some _ _ ?_
        simp only [SameFields] at h3
        simp only [SameFields, List.map_cons, h3, (Value.beq_enc a b).mp hab]
  | [], _ :: _, h => by simp at h
  | _ :: _, [], h => by simp at h
  | none :: _, some _ :: _, h => by simp at h
  | some _ :: _, none :: _, h => by simp at h

theorem wrap_same {α : Type} {R : α → α → Prop} {mk mk' : α → Value} {o o' : Option (Ends (Option α))}
    (h : SameAnswer R o o') (hm : ∀ a b, R a b → BEq' (mk a) (mk' b)) :
    SameAnswer BEq' (Ends.wrap mk o) (Ends.wrap mk' o') := by
  cases h with
  | stuck => exact .stuck
  | panic => exact .panic
  | none => exact .none
  | some a b hab => exact .some _ _ (hm a b hab)

theorem fieldTypes_same {ns : List String} {fs gs : List (String × WireNamed)}
    (h : namedOutline fs = namedOutline gs) :
    (wireFieldTypes ns fs).map (Option.map WireNamed.key) =
      (wireFieldTypes ns gs).map (Option.map WireNamed.key) := by
  have key : ∀ (n : String) (fs : List (String × WireNamed)),
      (bmGet strCmp n fs).map WireNamed.key = (bmGet strCmp n (namedOutline fs)).map WireNamed.key := by
    intro n fs
    rw [namedOutline, bmGet_map_val]
    cases bmGet strCmp n fs <;> rfl
  simp only [wireFieldTypes, List.map_map, Function.comp_def]
  apply List.map_congr_left
  intro n _
  rw [key n fs, key n gs, h]

theorem ids_same {fs gs : List WireUnnamed}
    (h : fs.map WireUnnamed.outline = gs.map WireUnnamed.outline) : fs.map (·.id) = gs.map (·.id) := by
  have := congrArg (List.map (·.id)) h
  simpa [Function.comp_def, WireUnnamed.outline] using this

theorem defaultVariant_same {f f' : WireId → Option (Ends (Option Value))}
    (h : ∀ i, SameAnswer BEq' (f i) (f' i)) {v w : WireVariant} (hv : v.outline = w.outline) :
    SameAnswer BEq' (wireDefaultVariant f v) (wireDefaultVariant f' w) := by
  cases v <;> cases w <;> simp [WireVariant.outline] at hv
  · simp only [wireDefaultVariant, hv.1, hv.2.2.1]
    refine wrap_same (defaultNamed_same h _ _ (fieldTypes_same hv.2.1)) ?_
    intro a b hab
    have := svOfList_same hab
    simp [BEq', Value.beq, this]
  · simp only [wireDefaultVariant, hv.1, ids_same hv.2.1]
    refine wrap_same (defaultPos_same h _) ?_
    intro a b hab
    simpa [BEq', Value.beq, SameValues] using hab
  · simp only [wireDefaultVariant, hv.1]
    exact .some _ _ (beq'_refl _)

theorem default_same {x y : WireDescriptor} (cap : Nat) (h : wireGraphEh.eq x.graph y.graph = true) :
    ∀ fuel i, SameAnswer BEq' (wireDefault cap x fuel i) (wireDefault cap y fuel i)
  | 0, i => by simp only [wireDefault]; exact .stuck
  | fuel + 1, i => by
    have ih := default_same cap h fuel
    have hn := node_same h i
    simp only [wireDefault]
    generalize x.node i = a at hn ⊢
    generalize y.node i = b at hn ⊢
    cases a <;> cases b <;> simp [EqHash.option] at hn
    · exact .panic
    · rename_i a b
      have ho := ((Splits.node.iff _ _).mp hn).1
      have hv := ((Splits.node.iff _ _).mp hn).2
      cases a <;> cases b <;> simp [WireNode.outline] at ho
      case struct.struct =>
        simp only [ho.2.2.1]
        refine wrap_same (defaultNamed_same ih _ _ (fieldTypes_same ho.2.1)) ?_
        intro a b hab
        have := svOfList_same hab
        simp [BEq', Value.beq, this]
      case tupleStruct.tupleStruct =>
        simp only [ids_same ho.2.1]
        exact wrap_same (defaultPos_same ih _) fun a b hab => by simpa [BEq', Value.beq, SameValues] using hab
      case tuple.tuple =>
        simp only [ids_same ho.2.1]
        exact wrap_same (defaultPos_same ih _) fun a b hab => by simpa [BEq', Value.beq, SameValues] using hab
      case enum.enum n m =>
        have hvs := ho.2.1
        cases hnv : n.variants <;> cases hmv : m.variants <;> simp [hnv, hmv] at hvs
        · simp only [hnv, hmv]; exact .none
        · simp only [hnv, hmv]; exact defaultVariant_same ih hvs.1
      case list.list => exact .some _ _ (beq'_refl _)
      case array.array =>
        subst ho
        simp only
        split
        · exact wrap_same (defaultPos_same ih _) fun a b hab => by simpa [BEq', Value.beq, SameValues] using hab
        · exact .panic
      case map.map => exact .some _ _ (beq'_refl _)
      case scalar.scalar =>
        subst ho
        exact .some _ _ (beq'_refl _)
      case opaque.opaque n m =>
        have hd : EqHash.value.option.eq n.defaultValue m.defaultValue = true := by
          simp [WireNode.eh, WireOpaque.eh, EqHash.of, EqHash.and] at hn
          exact hn.2.2
        simp only
        generalize n.defaultValue = p at hd ⊢
        generalize m.defaultValue = q at hd ⊢
        cases p <;> cases q <;> simp [EqHash.option] at hd
        · exact .none
        · exact .some _ _ hd

theorem hasPos_same {f f' : WireId → Option (Ends Bool)} (h : ∀ i, f i = f' i) (is : List WireId) :
    wireHasPos f is = wireHasPos f' is := by
  rw [show f = f' from funext h]

theorem hasNamed_same {f : WireId → Option (Ends Bool)} : ∀ ds ds' : List (Option WireNamed),
    ds.map (Option.map WireNamed.key) = ds'.map (Option.map WireNamed.key) →
    wireHasNamed f ds = wireHasNamed f ds'
  | [], [], _ => rfl
  | none :: _, none :: _, _ => rfl
  | some d :: ds, some d' :: ds', hd => by
    simp only [List.map_cons, Option.map_some, List.cons.injEq, Option.some.injEq, WireNamed.key,
      Prod.mk.injEq] at hd
    obtain ⟨⟨hn, hi⟩, hr⟩ := hd
    simp only [wireHasNamed, ← hi, hasNamed_same ds ds' hr]
  | [], _ :: _, h => by simp at h
  | _ :: _, [], h => by simp at h
  | none :: _, some _ :: _, h => by simp at h
  | some _ :: _, none :: _, h => by simp at h

theorem has_same {x y : WireDescriptor} (h : wireGraphEh.eq x.graph y.graph = true) :
    ∀ fuel i, wireHas x fuel i = wireHas y fuel i
  | 0, i => rfl
  | fuel + 1, i => by
    have ih : wireHas x fuel = wireHas y fuel := funext (has_same h fuel)
    have hn := node_same h i
    simp only [wireHas]
    generalize x.node i = a at hn ⊢
    generalize y.node i = b at hn ⊢
    cases a <;> cases b <;> simp [EqHash.option] at hn
    · rfl
    · rename_i a b
      have ho := ((Splits.node.iff _ _).mp hn).1
      cases a <;> cases b <;> simp [WireNode.outline] at ho
      case struct.struct => simp only [ih, ho.2.2.1, hasNamed_same _ _ (fieldTypes_same ho.2.1)]
      case tupleStruct.tupleStruct => simp only [ih, ids_same ho.2.1]
      case tuple.tuple => simp only [ih, ids_same ho.2.1]
      case enum.enum n m =>
        have hvs := ho.2.1
        cases hnv : n.variants <;> cases hmv : m.variants <;> simp [hnv, hmv] at hvs
        · simp only [hnv, hmv]
        · rename_i v vs w ws
          have hv := hvs.1
          simp only [hnv, hmv, ih]
          cases v <;> cases w <;> simp [WireVariant.outline] at hv
          · simp only [wireHasVariant, hv.2.2.1, hasNamed_same _ _ (fieldTypes_same hv.2.1)]
          · simp only [wireHasVariant, ids_same hv.2.1]
          · rfl
      case list.list => rfl
      case array.array => subst ho; simp only [ih]
      case map.map => rfl
      case scalar.scalar => rfl
      case opaque.opaque n m =>
        have := ho.2.2
        simp only
        generalize n.defaultValue = p at this ⊢
        generalize m.defaultValue = q at this ⊢
        cases p <;> cases q <;> simp at this ⊢

end Mirror
