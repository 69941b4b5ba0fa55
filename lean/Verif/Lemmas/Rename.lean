import Verif.Spec.Rename
import Verif.Model.Default
import Verif.Lemmas.WireDefault
import Verif.Lemmas.NodeId

set_option linter.unusedSimpArgs false

/-! # Type graphs with other ids answer alike -/

namespace Mirror

variable {r : Ty → Ty} {P : Ty → Prop} {g g' : TypeGraph}

/-- `g'` is `g` with other ids, as far as the types in `P` go, which refer only to each other. -/
structure Renames (r : Ty → Ty) (P : Ty → Prop) (g g' : TypeGraph) : Prop where
  node : ∀ i, P i → g'.node (r i) = (g.node i).map (·.rename r)
  closed : ∀ i n, P i → g.node i = some n → ∀ j ∈ n.ids, P j

theorem namedTypes_rename (names : List String) (fields : List (String × Ty)) :
    namedTypes names (fields.map fun p => (p.1, r p.2)) =
      (namedTypes names fields).map fun p => (p.1, p.2.map r) := by
  simp [namedTypes, bmGet_map_val, Function.comp_def]

theorem bmGet_snd_mem {k : String} {fields : List (String × Ty)} {t : Ty}
    (h : bmGet strCmp k fields = some t) : t ∈ fields.map (·.2) := by
  induction fields with
  | nil => cases h
  | cons p l ih =>
    simp only [bmGet] at h
    split at h
    · cases h; simp
    · exact List.mem_cons_of_mem _ (ih h)

theorem namedTypes_snd_mem {names : List String} {fields : List (String × Ty)} {n : String} {t : Ty}
    (h : (n, some t) ∈ namedTypes names fields) : t ∈ fields.map (·.2) := by
  obtain ⟨k, _, he⟩ := List.mem_map.mp h
  simp only [Prod.mk.injEq] at he
  exact bmGet_snd_mem he.2

theorem defaultPos_rename {f f' : Ty → Option (Option Value)} :
    ∀ ts : List Ty, (∀ t ∈ ts, f' (r t) = f t) → defaultPos f' (ts.map r) = defaultPos f ts := by
  intro ts
  induction ts with
  | nil => intro _; rfl
  | cons t ts ih =>
    intro h
    simp only [List.map_cons, defaultPos]
    rw [h t (by simp), ih fun u hu => h u (by simp [hu])]

theorem defaultNamed_rename {f f' : Ty → Option (Option Value)} :
    ∀ ts : List (String × Option Ty), (∀ n t, (n, some t) ∈ ts → f' (r t) = f t) →
      defaultNamed f' (ts.map fun p => (p.1, p.2.map r)) = defaultNamed f ts := by
  intro ts
  induction ts with
  | nil => intro _; rfl
  | cons p ts ih =>
    intro h
    obtain ⟨n, o⟩ := p
    cases o with
    | none => rfl
    | some t =>
      simp only [List.map_cons, Option.map_some, defaultNamed]
      rw [h n t (by simp), ih fun n u hu => h n u (by simp [hu])]

theorem hasPos_rename {f f' : Ty → Option Bool} :
    ∀ ts : List Ty, (∀ t ∈ ts, f' (r t) = f t) → hasPos f' (ts.map r) = hasPos f ts := by
  intro ts
  induction ts with
  | nil => intro _; rfl
  | cons t ts ih =>
    intro h
    simp only [List.map_cons, hasPos]
    rw [h t (by simp), ih fun u hu => h u (by simp [hu])]

theorem hasNamed_rename {f f' : Ty → Option Bool} :
    ∀ ts : List (String × Option Ty), (∀ n t, (n, some t) ∈ ts → f' (r t) = f t) →
      hasNamed f' (ts.map fun p => (p.1, p.2.map r)) = hasNamed f ts := by
  intro ts
  induction ts with
  | nil => intro _; rfl
  | cons p ts ih =>
    intro h
    obtain ⟨n, o⟩ := p
    cases o with
    | none => rfl
    | some t =>
      simp only [List.map_cons, Option.map_some, hasNamed]
      rw [h n t (by simp), ih fun n u hu => h n u (by simp [hu])]

theorem defaultVariant_rename {f f' : Ty → Option (Option Value)} {v : VariantNode}
    (h : ∀ t ∈ v.ids, f' (r t) = f t) : defaultVariant f' (v.rename r) = defaultVariant f v := by
  cases v with
  | struct n names fields =>
    simp only [defaultVariant, VariantNode.rename, namedTypes_rename]
    rw [defaultNamed_rename _ fun n t ht => h t (namedTypes_snd_mem ht)]
  | tuple n fields =>
    simp only [defaultVariant, VariantNode.rename]
    rw [defaultPos_rename fields h]
  | unit n => rfl

theorem hasVariant_rename {f f' : Ty → Option Bool} {v : VariantNode}
    (h : ∀ t ∈ v.ids, f' (r t) = f t) : hasVariant f' (v.rename r) = hasVariant f v := by
  cases v with
  | struct n names fields =>
    simp only [hasVariant, VariantNode.rename, namedTypes_rename]
    rw [hasNamed_rename _ fun n t ht => h t (namedTypes_snd_mem ht)]
  | tuple n fields =>
    simp only [hasVariant, VariantNode.rename]
    rw [hasPos_rename fields h]
  | unit n => rfl

theorem default_rename (hr : Renames r P g g') : ∀ fuel i, P i →
    defaultValue g' fuel (r i) = defaultValue g fuel i := by
  intro fuel
  induction fuel with
  | zero => intro i _; rfl
  | succ fuel ih =>
    intro i hi
    simp only [defaultValue]
    rw [hr.node i hi]
    cases hn : g.node i with
    | none => rfl
    | some n =>
      have hc : ∀ j ∈ n.ids, defaultValue g' fuel (r j) = defaultValue g fuel j :=
        fun j hj => ih j (hr.closed i n hi hn j hj)
      cases n with
      | struct names fields =>
        simp only [Option.map_some, TypeNode.rename, namedTypes_rename]
        rw [defaultNamed_rename _ fun n t ht => hc t (namedTypes_snd_mem ht)]
      | tupleStruct fields =>
        simp only [Option.map_some, TypeNode.rename]
        rw [defaultPos_rename fields hc]
      | tuple fields =>
        simp only [Option.map_some, TypeNode.rename]
        rw [defaultPos_rename fields hc]
      | enum vs =>
        cases vs with
        | nil => rfl
        | cons v vs =>
          simp only [Option.map_some, TypeNode.rename, List.map_cons]
          exact defaultVariant_rename fun t ht => hc t (by simp [TypeNode.ids, ht])
      | list t => rfl
      | array t n =>
        simp only [Option.map_some, TypeNode.rename]
        rw [← defaultPos_rename (r := r) (f := defaultValue g fuel) (f' := defaultValue g' fuel)
          (List.replicate n t) (fun u hu => hc u (by
            rw [(List.mem_replicate.mp hu).2]; simp [TypeNode.ids])), List.map_replicate]
      | map k v => rfl
      | scalar k => rfl
      | «opaque» => rfl

theorem has_rename (hr : Renames r P g g') : ∀ fuel i, P i →
    hasDefault g' fuel (r i) = hasDefault g fuel i := by
  intro fuel
  induction fuel with
  | zero => intro i _; rfl
  | succ fuel ih =>
    intro i hi
    simp only [hasDefault]
    rw [hr.node i hi]
    cases hn : g.node i with
    | none => rfl
    | some n =>
      have hc : ∀ j ∈ n.ids, hasDefault g' fuel (r j) = hasDefault g fuel j :=
        fun j hj => ih j (hr.closed i n hi hn j hj)
      cases n with
      | struct names fields =>
        simp only [Option.map_some, TypeNode.rename, namedTypes_rename]
        rw [hasNamed_rename _ fun n t ht => hc t (namedTypes_snd_mem ht)]
      | tupleStruct fields =>
        simp only [Option.map_some, TypeNode.rename]
        rw [hasPos_rename fields hc]
      | tuple fields =>
        simp only [Option.map_some, TypeNode.rename]
        rw [hasPos_rename fields hc]
      | enum vs =>
        cases vs with
        | nil => rfl
        | cons v vs =>
          simp only [Option.map_some, TypeNode.rename, List.map_cons]
          exact hasVariant_rename fun t ht => hc t (by simp [TypeNode.ids, ht])
      | list t => rfl
      | array t n => exact hc t (by simp [TypeNode.ids])
      | map k v => rfl
      | scalar k => rfl
      | «opaque» => rfl

/-! ## Paths -/

/-- An answer that refers to types in `P` only. -/
def TypeAt.Within (P : Ty → Prop) (g : TypeGraph) : TypeAt → Prop
  | .ty id n => P id ∧ g.node id = some n
  | .variant v => ∀ j ∈ v.ids, P j

theorem newOpt_rename (hr : Renames r P g g') {o : Option Ty} (ho : ∀ t, o = some t → P t) :
    TypeAt.newOpt g' (o.map r) = (TypeAt.newOpt g o).map (Option.map (TypeAt.rename r)) ∧
    ∀ x, TypeAt.newOpt g o = some (some x) → x.Within P g := by
  cases o with
  | none => exact ⟨rfl, nofun⟩
  | some t =>
    have hP := ho t rfl
    simp only [TypeAt.newOpt, TypeAt.new, Option.map_some, hr.node t hP]
    cases hn : g.node t with
    | none => exact ⟨rfl, nofun⟩
    | some n =>
      refine ⟨rfl, ?_⟩
      rintro x h
      cases h
      exact ⟨hP, hn⟩

theorem VariantNode.rename_name (v : VariantNode) : (v.rename r).name = v.name := by
  cases v <;> rfl

theorem atKey_rename (hr : Renames r P g g') {ta : TypeAt} (ht : ta.Within P g) (k : Key) :
    (ta.rename r).atKey g' k = (ta.atKey g k).map (Option.map (TypeAt.rename r)) ∧
    ∀ x, ta.atKey g k = some (some x) → x.Within P g := by
  have hnone : (some none : Option (Option TypeAt)) = (some none).map (Option.map (TypeAt.rename r)) ∧
      ∀ x, (some none : Option (Option TypeAt)) = some (some x) → x.Within P g := ⟨rfl, nofun⟩
  have hnamed : ∀ (fields : List (String × Ty)) (n : String), (∀ j ∈ fields.map (·.2), P j) →
      TypeAt.newOpt g' (namedType (fields.map fun p => (p.1, r p.2)) n) =
        (TypeAt.newOpt g (namedType fields n)).map (Option.map (TypeAt.rename r)) ∧
      ∀ x, TypeAt.newOpt g (namedType fields n) = some (some x) → x.Within P g := by
    intro fields n h
    have : namedType (fields.map fun p => (p.1, r p.2)) n = (namedType fields n).map r := bmGet_map_val _ _ _
    rw [this]
    exact newOpt_rename hr fun t ht => h t (bmGet_snd_mem ht)
  have hpos : ∀ (fields : List Ty) (i : Nat), (∀ j ∈ fields, P j) →
      TypeAt.newOpt g' (fields.map r)[i]? =
        (TypeAt.newOpt g fields[i]?).map (Option.map (TypeAt.rename r)) ∧
      ∀ x, TypeAt.newOpt g fields[i]? = some (some x) → x.Within P g := by
    intro fields i h
    rw [List.getElem?_map]
    exact newOpt_rename hr fun t ht => h t (List.mem_of_getElem? ht)
  have hone : ∀ t, P t → TypeAt.newOpt g' (some (r t)) =
        (TypeAt.newOpt g (some t)).map (Option.map (TypeAt.rename r)) ∧
      ∀ x, TypeAt.newOpt g (some t) = some (some x) → x.Within P g :=
    fun t h => newOpt_rename hr (o := some t) (by rintro u ⟨⟩; exact h)
  cases ta with
  | ty id n =>
    obtain ⟨hP, hn⟩ := ht
    have hc := hr.closed id n hP hn
    cases k with
    | named s =>
      cases n <;> try exact hnone
      exact hnamed _ s hc
    | numbered i =>
      cases n <;> try exact hnone
      · exact hpos _ i hc
      · exact hpos _ i hc
    | get v =>
      cases n <;> try exact hnone
      · simp only [TypeAt.rename, TypeNode.rename, TypeAt.atKey]
        split
        · exact hone _ (hc _ (by simp [TypeNode.ids]))
        · exact hnone
      · simp only [TypeAt.rename, TypeNode.rename, TypeAt.atKey]
        split
        · exact hone _ (hc _ (by simp [TypeNode.ids]))
        · exact hnone
      · exact hone _ (hc _ (by simp [TypeNode.ids]))
    | «variant» v =>
      cases n <;> try exact hnone
      next vs =>
      simp only [TypeAt.rename, TypeNode.rename, TypeAt.atKey, Option.map_some, findVariant]
      have : (vs.map (·.rename r)).find? (fun w => decide (w.name = v)) =
          (vs.find? fun w => decide (w.name = v)).map (·.rename r) := by
        rw [List.find?_map]
        simp [Function.comp_def, VariantNode.rename_name]
      rw [this]
      refine ⟨by simp [Option.map_map, Function.comp_def, TypeAt.rename], fun x hx => ?_⟩
      simp only [Option.some.injEq, Option.map_eq_some_iff] at hx
      obtain ⟨w, hw, rfl⟩ := hx
      exact fun j hj => hc j (List.mem_flatMap.mpr ⟨w, List.mem_of_find?_eq_some hw, hj⟩)
  | «variant» w =>
    cases k with
    | named s =>
      cases w <;> try exact hnone
      exact hnamed _ s ht
    | numbered i =>
      cases w <;> try exact hnone
      exact hpos _ i ht
    | get v => exact hnone
    | «variant» v =>
      simp only [TypeAt.rename, TypeAt.atKey, VariantNode.rename_name]
      split
      · exact ⟨rfl, by rintro x ⟨⟩; exact ht⟩
      · exact hnone

theorem typeAtGo_rename (hr : Renames r P g g') : ∀ (p : List Key) {ta : TypeAt}, ta.Within P g →
    typeAtGo g' (ta.rename r) p = (typeAtGo g ta p).map (Option.map (TypeAt.rename r)) ∧
    ∀ x, typeAtGo g ta p = some (some x) → x.Within P g := by
  intro p
  induction p with
  | nil => intro ta _; exact ⟨rfl, nofun⟩
  | cons k p ih =>
    intro ta ht
    obtain ⟨h1, h2⟩ := atKey_rename hr ht k
    have e (g : TypeGraph) (ta : TypeAt) : typeAtGo g ta (k :: p) = match ta.atKey g k with
      | none => none
      | some none => some none
      | some (some y) => if p.isEmpty then some (some y) else typeAtGo g y p := by
      rw [typeAtGo]
      cases p <;> rfl
    rw [e, e, h1]
    cases hk : ta.atKey g k with
    | none => exact ⟨rfl, nofun⟩
    | some o =>
      cases o with
      | none => exact ⟨rfl, nofun⟩
      | some y =>
        cases p with
        | nil => exact ⟨rfl, by rintro x ⟨⟩; exact h2 _ hk⟩
        | cons k' p' => exact ih (h2 _ hk)

theorem typeAt_rename {d d' : TypeDescriptor} (hr : Renames r P d.graph d'.graph) (hroot : d'.root = r d.root)
    (hP : P d.root) (p : KeyPath) :
    d'.typeAt p = (d.typeAt p).map (Option.map (TypeAt.rename r)) ∧
    ∀ x, d.typeAt p = some (some x) → x.Within P d.graph := by
  simp only [TypeDescriptor.typeAt, TypeAt.new, hroot, hr.node _ hP]
  cases hn : d.graph.node d.root with
  | none => exact ⟨rfl, nofun⟩
  | some n =>
    have hw : (TypeAt.ty d.root n).Within P d.graph := ⟨hP, hn⟩
    simp only [Option.map_some, TypeAt.typeAt]
    split
    · exact ⟨rfl, by rintro x ⟨⟩; exact hw⟩
    · exact typeAtGo_rename hr p hw

end Mirror
