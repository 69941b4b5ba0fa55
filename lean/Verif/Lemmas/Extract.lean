import Verif.Model.Extract
import Verif.Props.TypeInfo

set_option linter.unusedSimpArgs false

/-! # Lemmas about graphs that agree on a part -/

namespace Mirror

variable {E : Env}

/-- Two graphs hold the same nodes for a set of ids that is closed under following ids. -/
structure GAgree (P : Ty → Prop) (g g' : TypeGraph) : Prop where
  node : ∀ i, P i → g.node i = g'.node i
  closed : ∀ i n, P i → g.node i = some n → ∀ j ∈ n.ids, P j

variable {P : Ty → Prop} {g g' : TypeGraph}

/-- All ids of a result of `type_at`. -/
def TypeAt.ids : TypeAt → List Ty
  | .ty _ n => n.ids
  | .variant v => v.ids

theorem newOpt_agree (h : GAgree P g g') {i : Option Ty} (hi : ∀ t, i = some t → P t) :
    TypeAt.newOpt g i = TypeAt.newOpt g' i ∧
    ∀ x, TypeAt.newOpt g i = some (some x) → ∀ j ∈ x.ids, P j := by
  cases i with
  | none => exact ⟨rfl, by simp [TypeAt.newOpt]⟩
  | some t =>
    have ht := hi t rfl
    refine ⟨by simp only [TypeAt.newOpt, TypeAt.new, h.node t ht], ?_⟩
    intro x hx j hj
    simp only [TypeAt.newOpt, TypeAt.new, Option.map_map, Option.map_eq_some_iff] at hx
    obtain ⟨n, hn, e⟩ := hx
    simp only [Function.comp, Option.some.injEq] at e
    subst e
    exact h.closed t n ht hn j hj

theorem namedType_mem_snd {fields : List (String × Ty)} {n t} (h : namedType fields n = some t) :
    t ∈ fields.map (·.2) := by
  obtain ⟨p, hp, e⟩ := bmGet_mem h
  exact List.mem_map.mpr ⟨_, hp, by simp⟩

theorem atKey_agree (h : GAgree P g g') {ta : TypeAt} (hta : ∀ j ∈ ta.ids, P j) (k : Key) :
    ta.atKey g k = ta.atKey g' k ∧ ∀ x, ta.atKey g k = some (some x) → ∀ j ∈ x.ids, P j := by
  cases k with
  | named n =>
    simp only [TypeAt.atKey]
    split
    · exact newOpt_agree h fun t ht => hta _ (namedType_mem_snd ht)
    · exact newOpt_agree h fun t ht => hta _ (namedType_mem_snd ht)
    · exact ⟨rfl, by simp⟩
  | numbered i =>
    simp only [TypeAt.atKey]
    split
    · exact newOpt_agree h fun t ht => hta _ (List.mem_of_getElem? ht)
    · exact newOpt_agree h fun t ht => hta _ (List.mem_of_getElem? ht)
    · exact newOpt_agree h fun t ht => hta _ (List.mem_of_getElem? ht)
    · exact ⟨rfl, by simp⟩
  | get v =>
    simp only [TypeAt.atKey]
    split
    · exact newOpt_agree h fun t ht => hta _ (by cases ht; simp [TypeAt.ids, TypeNode.ids])
    · split
      · exact newOpt_agree h fun t ht => hta _ (by cases ht; simp [TypeAt.ids, TypeNode.ids])
      · exact ⟨rfl, by simp⟩
    · split
      · exact newOpt_agree h fun t ht => hta _ (by cases ht; simp [TypeAt.ids, TypeNode.ids])
      · exact ⟨rfl, by simp⟩
    · exact ⟨rfl, by simp⟩
  | «variant» v =>
    refine ⟨rfl, ?_⟩
    simp only [TypeAt.atKey]
    split
    · intro x hx j hj
      simp only [Option.some.injEq, Option.map_eq_some_iff] at hx
      obtain ⟨w, hw, rfl⟩ := hx
      exact hta j (List.mem_flatMap.mpr ⟨w, List.mem_of_find?_eq_some hw, hj⟩)
    · intro x hx j hj
      split at hx
      · simp only [Option.some.injEq] at hx
        subst hx
        exact hta j hj
      · simp at hx
    · simp

theorem typeAtGo_agree (h : GAgree P g g') : ∀ (p : List Key) (ta : TypeAt), (∀ j ∈ ta.ids, P j) →
    typeAtGo g ta p = typeAtGo g' ta p
  | [], _, _ => rfl
  | k :: r, ta, hta => by
    obtain ⟨h1, h2⟩ := atKey_agree h hta k
    rw [typeAtGo, typeAtGo, ← h1]
    cases hx : ta.atKey g k with
    | none => rfl
    | some y =>
      cases y with
      | none => rfl
      | some x =>
        cases r with
        | nil => rfl
        | cons k' r' => exact typeAtGo_agree h (k' :: r') x (h2 x hx)

theorem typeAt_agree (h : GAgree P g g') {i : Ty} (hi : P i) (p : KeyPath) :
    TypeDescriptor.typeAt ⟨i, g⟩ p = TypeDescriptor.typeAt ⟨i, g'⟩ p := by
  simp only [TypeDescriptor.typeAt, TypeAt.new, ← h.node i hi]
  cases hn : g.node i with
  | none => rfl
  | some n =>
    simp only [Option.map_some, TypeAt.typeAt]
    split
    · rfl
    · exact typeAtGo_agree h p _ fun j hj => h.closed i n hi hn j hj

theorem defaultPos_congr {f f' : Ty → Option (Option Value)} : ∀ (ts : List Ty),
    (∀ t ∈ ts, f t = f' t) → defaultPos f ts = defaultPos f' ts
  | [], _ => rfl
  | t :: ts, h => by
    rw [defaultPos, defaultPos, h t (by simp), defaultPos_congr ts fun u hu => h u (by simp [hu])]

theorem defaultNamed_congr {f f' : Ty → Option (Option Value)} : ∀ (ts : List (String × Option Ty)),
    (∀ n t, (n, some t) ∈ ts → f t = f' t) → defaultNamed f ts = defaultNamed f' ts
  | [], _ => rfl
  | (n, none) :: ts, h => rfl
  | (n, some t) :: ts, h => by
    rw [defaultNamed, defaultNamed, h n t (by simp),
      defaultNamed_congr ts fun m u hu => h m u (by simp [hu])]

theorem hasPos_congr {f f' : Ty → Option Bool} : ∀ (ts : List Ty),
    (∀ t ∈ ts, f t = f' t) → hasPos f ts = hasPos f' ts
  | [], _ => rfl
  | t :: ts, h => by
    rw [hasPos, hasPos, h t (by simp), hasPos_congr ts fun u hu => h u (by simp [hu])]

theorem hasNamed_congr {f f' : Ty → Option Bool} : ∀ (ts : List (String × Option Ty)),
    (∀ n t, (n, some t) ∈ ts → f t = f' t) → hasNamed f ts = hasNamed f' ts
  | [], _ => rfl
  | (n, none) :: ts, h => rfl
  | (n, some t) :: ts, h => by
    rw [hasNamed, hasNamed, h n t (by simp), hasNamed_congr ts fun m u hu => h m u (by simp [hu])]

theorem namedTypes_mem {names : List String} {fields : List (String × Ty)} {n t}
    (h : (n, some t) ∈ namedTypes names fields) : t ∈ fields.map (·.2) := by
  obtain ⟨m, _, e⟩ := List.mem_map.mp h
  simp only [Prod.mk.injEq] at e
  exact namedType_mem_snd e.2

theorem default_agree (h : GAgree P g g') : ∀ (fuel : Nat) (i : Ty), P i →
    defaultValue g fuel i = defaultValue g' fuel i
  | 0, _, _ => rfl
  | fuel + 1, i, hi => by
    have ih := default_agree h fuel
    rw [defaultValue, defaultValue, ← h.node i hi]
    cases hn : g.node i with
    | none => rfl
    | some n =>
      have hc := h.closed i n hi hn
      cases n with
      | struct names fields =>
        simp only
        rw [defaultNamed_congr _ fun m t ht => ih t (hc t (namedTypes_mem ht))]
      | tupleStruct fields =>
        simp only
        rw [defaultPos_congr fields fun t ht => ih t (hc t ht)]
      | tuple fields =>
        simp only
        rw [defaultPos_congr fields fun t ht => ih t (hc t ht)]
      | enum vs =>
        cases vs with
        | nil => rfl
        | cons v vs =>
          have hv : ∀ t ∈ v.ids, P t := fun t ht => hc t (by simp [TypeNode.ids, ht])
          cases v with
          | struct n names fields =>
            simp only [defaultVariant]
            rw [defaultNamed_congr _ fun m t ht => ih t (hv t (namedTypes_mem ht))]
          | tuple n fields =>
            simp only [defaultVariant]
            rw [defaultPos_congr fields fun t ht => ih t (hv t ht)]
          | unit n => rfl
      | list t => rfl
      | array t n =>
        simp only
        rw [defaultPos_congr _ fun u hu => ih u (hc u (by
          rw [List.eq_of_mem_replicate hu]; simp [TypeNode.ids]))]
      | map k v => rfl
      | scalar k => rfl
      | «opaque» => rfl

theorem hasDefault_agree (h : GAgree P g g') : ∀ (fuel : Nat) (i : Ty), P i →
    hasDefault g fuel i = hasDefault g' fuel i
  | 0, _, _ => rfl
  | fuel + 1, i, hi => by
    have ih := hasDefault_agree h fuel
    rw [hasDefault, hasDefault, ← h.node i hi]
    cases hn : g.node i with
    | none => rfl
    | some n =>
      have hc := h.closed i n hi hn
      cases n with
      | struct names fields => exact hasNamed_congr _ fun m t ht => ih t (hc t (namedTypes_mem ht))
      | tupleStruct fields => exact hasPos_congr _ fun t ht => ih t (hc t ht)
      | tuple fields => exact hasPos_congr _ fun t ht => ih t (hc t ht)
      | enum vs =>
        cases vs with
        | nil => rfl
        | cons v vs =>
          have hv : ∀ t ∈ v.ids, P t := fun t ht => hc t (by simp [TypeNode.ids, ht])
          cases v with
          | struct n names fields => exact hasNamed_congr _ fun m t ht => ih t (hv t (namedTypes_mem ht))
          | tuple n fields => exact hasPos_congr _ fun t ht => ih t (hv t ht)
          | unit n => rfl
      | list t => rfl
      | array t n => exact ih t (hc t (by simp [TypeNode.ids]))
      | map k v => rfl
      | scalar k => rfl
      | «opaque» => rfl

theorem typeFmt_agree (h : GAgree P g g') {nm : Ty → Except PrintErr String} {t : Option Ty}
    (ht : ∀ i, t = some i → P i) : typeFmt nm g t = typeFmt nm g' t := by
  cases t with
  | none => rfl
  | some i => simp only [typeFmt, h.node i (ht i rfl)]

theorem namedLines_agree (h : GAgree P g g') {nm : Ty → Except PrintErr String} {tab : String} :
    ∀ (l : List (String × Option Ty)), (∀ n t, (n, some t) ∈ l → P t) →
      namedLines nm g tab l = namedLines nm g' tab l
  | [], _ => rfl
  | (n, t) :: rest, hl => by
    rw [namedLines, namedLines, typeFmt_agree h (t := t) fun i hi => hl n i (by simp [hi]),
      namedLines_agree h rest fun m u hu => hl m u (by simp [hu])]

theorem unnamedItems_agree (h : GAgree P g g') {nm : Ty → Except PrintErr String} :
    ∀ (l : List Ty), (∀ t ∈ l, P t) → unnamedItems nm g l = unnamedItems nm g' l
  | [], _ => rfl
  | [t], hl => typeFmt_agree h (by rintro i ⟨⟩; exact hl _ (by simp))
  | t :: u :: rest, hl => by
    rw [unnamedItems, unnamedItems, typeFmt_agree h (t := some t) (by rintro i ⟨⟩; exact hl _ (by simp)),
      unnamedItems_agree h (u :: rest) fun v hv => hl v (by simp [List.mem_cons.mp hv])]

theorem variantText_agree (h : GAgree P g g') {nm : Ty → Except PrintErr String} {v : VariantNode}
    (hv : ∀ t ∈ v.ids, P t) : variantText nm g v = variantText nm g' v := by
  cases v with
  | struct n names fields =>
    rw [variantText, variantText, namedLines_agree h _ fun m t ht => hv t (namedTypes_mem ht)]
  | tuple n fields => rw [variantText, variantText, unnamedItems_agree h fields fun t ht => hv t ht]
  | unit n => rfl

theorem variantsText_agree (h : GAgree P g g') {nm : Ty → Except PrintErr String} :
    ∀ (vs : List VariantNode), (∀ v ∈ vs, ∀ t ∈ v.ids, P t) → variantsText nm g vs = variantsText nm g' vs
  | [], _ => rfl
  | v :: vs, hv => by
    rw [variantsText, variantsText, variantText_agree h (hv v (by simp)),
      variantsText_agree h vs fun w hw => hv w (by simp [hw])]

theorem pretty_agree (h : GAgree P g g') (nm : Ty → Except PrintErr String) {i : Ty} (hi : P i) :
    prettyRoot nm g i = prettyRoot nm g' i := by
  rw [prettyRoot, prettyRoot, ← h.node i hi]
  cases hn : g.node i with
  | none => rfl
  | some n =>
    have hc := h.closed i n hi hn
    cases n with
    | struct names fields =>
      simp only
      rw [namedLines_agree h _ fun m t ht => hc t (namedTypes_mem ht)]
    | tupleStruct fields =>
      simp only
      rw [unnamedItems_agree h fields fun t ht => hc t ht]
    | tuple fields =>
      simp only
      rw [unnamedItems_agree h fields fun t ht => hc t ht]
    | enum vs =>
      simp only
      rw [variantsText_agree h vs fun v hv t ht => hc t (List.mem_flatMap.mpr ⟨v, hv, ht⟩)]
    | list t =>
      simp only
      rw [typeFmt_agree h (t := some t) (by rintro i ⟨⟩; exact hc _ (by simp [TypeNode.ids]))]
    | array t n =>
      simp only
      rw [typeFmt_agree h (t := some t) (by rintro i ⟨⟩; exact hc _ (by simp [TypeNode.ids]))]
    | map k v =>
      simp only
      rw [typeFmt_agree h (t := some k) (by rintro i ⟨⟩; exact hc _ (by simp [TypeNode.ids])),
        typeFmt_agree h (t := some v) (by rintro i ⟨⟩; exact hc _ (by simp [TypeNode.ids]))]
    | scalar k => rfl
    | «opaque» => rfl

theorem Nav.trans {r i j : Ty} (h : Nav g r i) (h' : Nav g i j) : Nav g r j := by
  induction h' with
  | root => exact h
  | step a n b _ hn hb ih => exact .step _ _ _ ih hn hb

theorem nav_reach (hD : DeclsOK E) {fuel t d} (h : describe E fuel t = some d) {i : Ty}
    (hi : Nav d.graph d.root i) : ∃ u, t.Reach E u ∧ i = u.unbox := by
  obtain ⟨n, hn⟩ := descriptor_closed hD h hi
  exact (descriptor_describes hD h hi hn).2

/-- The ids navigation finds from the part `i` in the whole are those it finds in the descriptor of the
part. -/
theorem nav_part (hD : DeclsOK E) {fuel fuel' t d i e} (h : describe E fuel t = some d)
    (hi : Nav d.graph d.root i) (h' : describe E fuel' i = some e) (j : Ty) :
    Nav d.graph i j ↔ Nav e.graph i j := by
  have hr : e.root = i := by
    rw [descriptor_root hD h']
    obtain ⟨u, _, rfl⟩ := nav_reach hD h hi
    exact unbox_unbox u
  constructor
  · intro hj
    induction hj with
    | root => exact .root
    | step a n b ha hn hb ih =>
      exact .step _ _ _ ih (by
        rw [← descriptor_independent hD h h' (hi.trans ha) (hr ▸ ih)]; exact hn) hb
  · intro hj
    induction hj with
    | root => exact .root
    | step a n b ha hn hb ih =>
      exact .step _ _ _ ih (by
        rw [descriptor_independent hD h h' (hi.trans ih) (hr ▸ ha)]; exact hn) hb

theorem part_agree (hD : DeclsOK E) {fuel fuel' t d i e} (h : describe E fuel t = some d)
    (hi : Nav d.graph d.root i) (h' : describe E fuel' i = some e) :
    e.root = i ∧ GAgree (Nav d.graph i) d.graph e.graph := by
  have hr : e.root = i := by
    rw [descriptor_root hD h']
    obtain ⟨u, _, rfl⟩ := nav_reach hD h hi
    exact unbox_unbox u
  refine ⟨hr, fun j hj => ?_, fun j n hj hn k hk => .step _ _ _ hj hn hk⟩
  exact descriptor_independent hD h h' (hi.trans hj) (by
    rw [hr]; exact (nav_part hD h hi h' j).mp hj)

end Mirror
