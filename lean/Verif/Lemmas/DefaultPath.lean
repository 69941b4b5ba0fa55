import Verif.Lemmas.DefaultConv
import Verif.Model.TypeAtDefault
import Verif.Spec.DefaultPath

set_option linter.unusedSimpArgs false

/-!
# Defaults of parts
-/

namespace Mirror

theorem defaultNamed_mono {f f' : Ty → Option (Option Value)} {r}
    (hf : ∀ t r, f t = some r → f' t = some r) : ∀ (l : List (String × Option Ty)) ,
    defaultNamed f l = some r → defaultNamed f' l = some r := by
  intro l
  induction l generalizing r with
  | nil => exact id
  | cons a l ih =>
    obtain ⟨n, _ | t⟩ := a
    · exact id
    · intro h
      simp only [defaultNamed] at h ⊢
      rcases ht : f t with _ | _ | v <;> rw [ht] at h
      · cases h
      · rw [hf t _ ht]; exact h
      · rw [hf t _ ht]
        obtain ⟨o, ho, rfl⟩ := Option.map_eq_some_iff.mp h
        simp only [ih ho]; rfl

theorem defaultVariant_mono {f f' : Ty → Option (Option Value)} {r}
    (hf : ∀ t r, f t = some r → f' t = some r) (v : VariantNode)
    (h : defaultVariant f v = some r) : defaultVariant f' v = some r := by
  cases v with
  | struct n names fields =>
    obtain ⟨o, ho, rfl⟩ := Option.map_eq_some_iff.mp h
    simp only [defaultVariant, defaultNamed_mono hf _ ho]; rfl
  | tuple n fields =>
    obtain ⟨o, ho, rfl⟩ := Option.map_eq_some_iff.mp h
    simp only [defaultVariant, defaultPos_mono ho fun t _ r => hf t r]; rfl
  | unit n => exact h

theorem defaultValue_succ (g : TypeGraph) : ∀ (fuel : Nat) (id : Ty) (r),
    defaultValue g fuel id = some r → defaultValue g (fuel + 1) id = some r
  | 0, _, _, h => by cases h
  | fuel + 1, id, r, h => by
    have hf := defaultValue_succ g fuel
    rw [defaultValue] at h ⊢
    rcases hn : g.node id with _ | node <;> rw [hn] at h
    · cases h
    · cases node with
      | struct names fields =>
        obtain ⟨o, ho, rfl⟩ := Option.map_eq_some_iff.mp h
        simp only [defaultNamed_mono hf _ ho]; rfl
      | tupleStruct fields =>
        obtain ⟨o, ho, rfl⟩ := Option.map_eq_some_iff.mp h
        simp only [defaultPos_mono ho fun t _ r => hf t r]; rfl
      | tuple fields =>
        obtain ⟨o, ho, rfl⟩ := Option.map_eq_some_iff.mp h
        simp only [defaultPos_mono ho fun t _ r => hf t r]; rfl
      | enum vs =>
        cases vs with
        | nil => exact h
        | cons v vs => exact defaultVariant_mono hf v h
      | list el => exact h
      | array el len =>
        obtain ⟨o, ho, rfl⟩ := Option.map_eq_some_iff.mp h
        simp only [defaultPos_mono ho fun t _ r => hf t r]; rfl
      | map k v => exact h
      | scalar k => exact h
      | «opaque» => exact h

theorem defaultNamed_some {f : Ty → Option (Option Value)} {names : List String}
    {fields : List (String × Ty)} {l : List (String × Value)}
    (h : defaultNamed f (namedTypes names fields) = some (some l)) :
    l.map (·.1) = names ∧ ∀ p ∈ l, ∃ t, namedType fields p.1 = some t ∧ f t = some (some p.2) := by
  induction names generalizing l with
  | nil => simp [namedTypes, defaultNamed] at h; subst h; simp
  | cons n names ih =>
    simp only [namedTypes, List.map_cons] at h
    rcases hb : bmGet strCmp n fields with _ | t <;> rw [hb] at h
    · cases h
    · simp only [defaultNamed] at h
      rcases ht : f t with _ | _ | v <;> rw [ht] at h
      · cases h
      · cases h
      · obtain ⟨o, ho, h⟩ := Option.map_eq_some_iff.mp h
        obtain ⟨l', rfl, rfl⟩ := Option.map_eq_some_iff.mp h
        obtain ⟨h1, h2⟩ := ih ho
        refine ⟨by simp [h1], ?_⟩
        intro p hp
        rcases List.mem_cons.mp hp with rfl | hp
        · exact ⟨t, hb, ht⟩
        · exact h2 p hp

/-- The default of a record, read under a name. -/
theorem default_field {f : Ty → Option (Option Value)} {names : List String}
    {fields : List (String × Ty)} {l : List (String × Value)}
    (h : defaultNamed f (namedTypes names fields) = some (some l)) {n : String} {t : Ty}
    (ht : namedType fields n = some t) :
    (n ∉ names ∧ lookup n (visFields ((svOfList l).2.map fun p => (p.1, p.2.toObj))) = none) ∨
    (n ∈ names ∧ ∃ w, lookup n (visFields ((svOfList l).2.map fun p => (p.1, p.2.toObj))) = some w.toObj ∧
      f t = some (some w)) := by
  obtain ⟨h1, h2⟩ := defaultNamed_some h
  rw [toObj_visFields, svOfList_eq, lookup_map]
  rcases hl : lookup n (bmOfList strCmp l) with _ | w
  · rw [lookup_none_iff, mem_keys_bmOfList, h1] at hl
    exact .inl ⟨hl, rfl⟩
  · have hm := mem_bmOfList_str (lookup_mem hl)
    obtain ⟨t', ht', hf⟩ := h2 _ hm
    rw [ht] at ht'; cases ht'
    refine .inr ⟨?_, w, rfl, hf⟩
    rw [← h1]; exact List.mem_map.mpr ⟨_, hm, rfl⟩

theorem default_at {f : Ty → Option (Option Value)} {ts : List Ty} {vs : List Value}
    (h : defaultPos f ts = some (some vs)) {i : Nat} {t : Ty} (ht : ts[i]? = some t) :
    ∃ w, visAt (vs.map fun x => x.toObj) i = some w.toObj ∧ f t = some (some w) := by
  have h2 := defaultPos_some.mp h
  rw [toObj_visAt]
  have hi := (List.getElem?_eq_some_iff.mp ht).1
  have hi' : i < vs.length := by rw [← h2.length_eq]; exact hi
  refine ⟨vs[i], by simp [hi'], ?_⟩
  have := (List.forall₂_iff_get.mp h2).2 i hi hi'
  simp only [List.get_eq_getElem] at this
  rw [← (List.getElem?_eq_some_iff.mp ht).2]; exact this

/-- A view of a type carries the node of its id. -/
def TypeAt.Own (g : TypeGraph) : TypeAt → Prop
  | .ty id n => g.node id = some n
  | .variant _ => True

theorem TypeAt.new_own {g : TypeGraph} {id : Ty} {ta} (h : TypeAt.new g id = some ta) : ta.Own g := by
  obtain ⟨n, hn, rfl⟩ := Option.map_eq_some_iff.mp h
  exact hn

theorem TypeAt.newOpt_own {g : TypeGraph} {o : Option Ty} {ta}
    (h : TypeAt.newOpt g o = some (some ta)) :
    ∃ id node, o = some id ∧ ta = .ty id node ∧ g.node id = some node := by
  cases o with
  | none => cases h
  | some id =>
    obtain ⟨x, hx, he⟩ := Option.map_eq_some_iff.mp h
    cases he
    obtain ⟨n, hn, rfl⟩ := Option.map_eq_some_iff.mp hx
    exact ⟨id, n, rfl, rfl, hn⟩

/-- What the default of a type has under a key. -/
theorem default_step {E : Env} {g : TypeGraph} {fuel : Nat} {ta T : TypeAt} {v : Value} {k : Key}
    (ho : ta.Own g) (hv : ta.defaultValue g fuel = some (some v)) (hk : ta.atKey g k = some (some T)) :
    (¬ HoldsDefault ta k ∧ v.toObj.atKey E k = none) ∨
    (HoldsDefault ta k ∧ ∃ w, v.toObj.atKey E k = some w.toObj ∧
      T.defaultValue g fuel = some (some w) ∧ T.Own g) := by
  cases ta with
  | ty id node =>
    rw [TypeAt.Own] at ho
    rw [TypeAt.defaultValue] at hv
    cases fuel with
    | zero => cases hv
    | succ fuel =>
    have hS := defaultValue_succ g fuel
    rw [defaultValue, ho] at hv
    cases node with
    | struct names fields =>
      cases k <;> simp only [TypeAt.atKey] at hk <;> try (cases hk; done)
      case named n =>
      obtain ⟨id', node', ht, rfl, hn'⟩ := TypeAt.newOpt_own hk
      obtain ⟨o, ho', hv⟩ := Option.map_eq_some_iff.mp hv
      obtain ⟨l, rfl, rfl⟩ := Option.map_eq_some_iff.mp hv
      rcases default_field ho' ht with ⟨h1, h2⟩ | ⟨h1, w, h2, h3⟩
      · exact .inl ⟨h1, by simpa only [Value.toObj, Obj.atKey, Obj.kind, Obj.field] using h2⟩
      · exact .inr ⟨h1, w, by simpa only [Value.toObj, Obj.atKey, Obj.kind, Obj.field] using h2,
          hS _ _ h3, hn'⟩
    | tupleStruct fields =>
      cases k <;> simp only [TypeAt.atKey] at hk <;> try (cases hk; done)
      case numbered n =>
      obtain ⟨id', node', ht, rfl, hn'⟩ := TypeAt.newOpt_own hk
      obtain ⟨o, ho', hv⟩ := Option.map_eq_some_iff.mp hv
      obtain ⟨l, rfl, rfl⟩ := Option.map_eq_some_iff.mp hv
      obtain ⟨w, h2, h3⟩ := default_at ho' ht
      exact .inr ⟨trivial, w, by simpa only [Value.toObj, Obj.atKey, Obj.kind, Obj.fieldAt] using h2,
        hS _ _ h3, hn'⟩
    | tuple fields =>
      cases k <;> simp only [TypeAt.atKey] at hk <;> try (cases hk; done)
      case numbered n =>
      obtain ⟨id', node', ht, rfl, hn'⟩ := TypeAt.newOpt_own hk
      obtain ⟨o, ho', hv⟩ := Option.map_eq_some_iff.mp hv
      obtain ⟨l, rfl, rfl⟩ := Option.map_eq_some_iff.mp hv
      obtain ⟨w, h2, h3⟩ := default_at ho' ht
      exact .inr ⟨trivial, w, by simpa only [Value.toObj, Obj.atKey, Obj.kind, Obj.fieldAt] using h2,
        hS _ _ h3, hn'⟩
    | enum vs =>
      cases vs with
      | nil => cases hv
      | cons a vs =>
      cases k <;> simp only [TypeAt.atKey] at hk <;> try (cases hk; done)
      case «variant» n =>
      have hname : v.toObj.kind = .enum ∧ v.toObj.variantName = some a.name := by
        cases a with
        | struct m names fields =>
          obtain ⟨o, ho', hv⟩ := Option.map_eq_some_iff.mp hv
          obtain ⟨l, rfl, rfl⟩ := Option.map_eq_some_iff.mp hv
          simp [Value.toObj, Obj.kind, Obj.variantName, VariantNode.name]
        | tuple m fields =>
          obtain ⟨o, ho', hv⟩ := Option.map_eq_some_iff.mp hv
          obtain ⟨l, rfl, rfl⟩ := Option.map_eq_some_iff.mp hv
          simp [Value.toObj, Obj.kind, Obj.variantName, VariantNode.name]
        | unit m =>
          cases hv
          simp [Value.toObj, Obj.kind, Obj.variantName, VariantNode.name]
      simp only [Obj.atKey, hname.1, hname.2, HoldsDefault, List.head?_cons, Option.map_some,
        Option.some.injEq]
      simp only [Option.some.injEq, Option.map_eq_some_iff] at hk
      obtain ⟨b, hb, rfl⟩ := hk
      by_cases he : a.name = n
      · have : b = a := by
          simp only [findVariant, List.find?_cons, he, decide_true] at hb
          exact (Option.some.inj hb).symm
        subst this
        exact .inr ⟨he, v, by simp [he], defaultVariant_mono hS _ hv, trivial⟩
      · exact .inl ⟨he, by simp [he]⟩
    | list el =>
      cases k <;> simp only [TypeAt.atKey] at hk <;> try (cases hk; done)
      case get u =>
      cases hv
      refine .inl ⟨fun h => h, ?_⟩
      simp only [Value.toObj, Obj.atKey, Obj.kind]
      cases valueToUsize u <;> simp [Obj.fieldAt]
    | array el len =>
      cases k <;> simp only [TypeAt.atKey] at hk <;> try (cases hk; done)
      case get u =>
      obtain ⟨o, ho', hv⟩ := Option.map_eq_some_iff.mp hv
      obtain ⟨l, rfl, rfl⟩ := Option.map_eq_some_iff.mp hv
      split at hk
      · next hu =>
        obtain ⟨i, hi⟩ := Option.isSome_iff_exists.mp hu
        obtain ⟨id', node', ht, rfl, hn'⟩ := TypeAt.newOpt_own hk
        cases ht
        have hlen : l.length = len := by simpa using (defaultPos_some.mp ho').length_eq.symm
        simp only [HoldsDefault, Value.toObj, Obj.atKey, Obj.kind, hi, Option.bind_some, Obj.fieldAt,
          Option.some.injEq, exists_eq_left']
        by_cases hlt : i < len
        · obtain ⟨w, h2, h3⟩ := default_at ho' (i := i) (t := el) (by simp [hlt])
          rw [toObj_visAt] at h2
          exact .inr ⟨hlt, w, by simpa using h2, hS _ _ h3, hn'⟩
        · exact .inl ⟨hlt, by simp [hlen]; omega⟩
      · cases hk
    | map kt vt =>
      cases k <;> simp only [TypeAt.atKey] at hk <;> try (cases hk; done)
      case get u =>
      cases hv
      exact .inl ⟨fun h => h, by simp [Value.toObj, Obj.atKey, Obj.kind, Obj.mapGet, bmGet]⟩
    | scalar s => cases k <;> simp only [TypeAt.atKey] at hk <;> cases hk
    | «opaque» => cases hv
  | «variant» a =>
    rw [TypeAt.defaultValue] at hv
    have hvar : ∀ n, (TypeAt.variant a).atKey g (.variant n) = some (some T) →
        v.toObj.kind = .enum ∧ v.toObj.variantName = some a.name →
        (¬ HoldsDefault (.variant a) (.variant n) ∧ v.toObj.atKey E (.variant n) = none) ∨
        (HoldsDefault (.variant a) (.variant n) ∧ ∃ w, v.toObj.atKey E (.variant n) = some w.toObj ∧
          T.defaultValue g fuel = some (some w) ∧ T.Own g) := by
      intro n hk hname
      have e : (TypeAt.variant a).atKey g (.variant n) =
        some (if a.name = n then some (.variant a) else none) := by cases a <;> rfl
      rw [e] at hk
      by_cases he : a.name = n
      · rw [if_pos he] at hk; cases hk
        refine .inr ⟨by cases a <;> trivial, v, ?_, hv, trivial⟩
        simp [Obj.atKey, hname.1, hname.2, he]
      · rw [if_neg he] at hk; cases hk
    cases a with
    | struct m names fields =>
      obtain ⟨o, ho', hv⟩ := Option.map_eq_some_iff.mp hv
      obtain ⟨l, rfl, rfl⟩ := Option.map_eq_some_iff.mp hv
      cases k with
      | named n =>
        simp only [TypeAt.atKey] at hk
        obtain ⟨id', node', ht, rfl, hn'⟩ := TypeAt.newOpt_own hk
        rcases default_field ho' ht with ⟨h1, h2⟩ | ⟨h1, w, h2, h3⟩
        · exact .inl ⟨h1, by
            simpa only [Value.toObj, Obj.atKey, Obj.kind, Obj.variantKind, Obj.field] using h2⟩
        · exact .inr ⟨h1, w, by
            simpa only [Value.toObj, Obj.atKey, Obj.kind, Obj.variantKind, Obj.field] using h2, h3, hn'⟩
      | «variant» n => exact hvar n hk (by simp [Value.toObj, Obj.kind, Obj.variantName, VariantNode.name])
      | _ => cases hk
    | tuple m fields =>
      obtain ⟨o, ho', hv⟩ := Option.map_eq_some_iff.mp hv
      obtain ⟨l, rfl, rfl⟩ := Option.map_eq_some_iff.mp hv
      cases k with
      | numbered n =>
        simp only [TypeAt.atKey] at hk
        obtain ⟨id', node', ht, rfl, hn'⟩ := TypeAt.newOpt_own hk
        obtain ⟨w, h2, h3⟩ := default_at ho' ht
        exact .inr ⟨trivial, w, by
          simpa only [Value.toObj, Obj.atKey, Obj.kind, Obj.variantKind, Obj.fieldAt] using h2, h3, hn'⟩
      | «variant» n => exact hvar n hk (by simp [Value.toObj, Obj.kind, Obj.variantName, VariantNode.name])
      | _ => cases hk
    | unit m =>
      cases hv
      cases k with
      | «variant» n => exact hvar n hk (by simp [Value.toObj, Obj.kind, Obj.variantName, VariantNode.name])
      | _ => cases hk

/-- What the default of a type has at a path. -/
theorem default_path {E : Env} {g : TypeGraph} {fuel : Nat} {T : TypeAt} : ∀ (p : KeyPath) {ta : TypeAt}
    {v : Value}, ta.Own g → ta.defaultValue g fuel = some (some v) → ta.typeAt g p = some (some T) →
    ((∀ q k r S, p = q ++ k :: r → ta.typeAt g q = some (some S) → HoldsDefault S k) ∧
      ∃ w, atPath E v.toObj p = some w.toObj ∧ T.defaultValue g fuel = some (some w)) ∨
    ((∃ q k r S, p = q ++ k :: r ∧ ta.typeAt g q = some (some S) ∧ ¬ HoldsDefault S k) ∧
      atPath E v.toObj p = none)
  | [], ta, v, ho, hv, ht => by
    have : ta = T := by simpa [TypeAt.typeAt, KeyPath.isEmpty] using ht
    subst this
    exact .inl ⟨by simp, v, rfl, hv⟩
  | k :: p, ta, v, ho, hv, ht => by
    rw [typeAtGo_cons] at ht
    rcases hk : ta.atKey g k with _ | _ | S <;> rw [hk] at ht
    · cases ht
    · cases ht
    simp only [Option.bind_some] at ht
    have hnil : ta.typeAt g [] = some (some ta) := rfl
    rcases default_step (E := E) ho hv hk with ⟨h1, h2⟩ | ⟨h1, w, h2, h3, h4⟩
    · exact .inr ⟨⟨[], k, p, ta, rfl, hnil, h1⟩, by rw [atPath_cons, h2]; rfl⟩
    · rw [atPath_cons, h2, Option.bind_some]
      rcases default_path p h4 h3 ht with ⟨ih, ih'⟩ | ⟨⟨q, k', r, S', he, hS, hn⟩, ih'⟩
      · refine .inl ⟨?_, ih'⟩
        intro q k' r S' he hS
        cases q with
        | nil =>
          simp only [List.nil_append, List.cons.injEq] at he
          rw [hnil] at hS; cases hS
          rw [← he.1]; exact h1
        | cons a q =>
          simp only [List.cons_append, List.cons.injEq] at he
          rw [← he.1, typeAtGo_cons, hk] at hS
          exact ih q k' r S' he.2 hS
      · refine .inr ⟨⟨k :: q, k', r, S', by simp [he], ?_, hn⟩, ih'⟩
        rw [typeAtGo_cons, hk]; exact hS

theorem defaultValue_node {g : TypeGraph} {fuel : Nat} {t : Ty} {r} (h : defaultValue g fuel t = some r) :
    ∃ n, g.node t = some n := by
  cases fuel with
  | zero => cases h
  | succ fuel =>
    rw [defaultValue] at h
    cases hn : g.node t with
    | none => rw [hn] at h; cases h
    | some n => exact ⟨n, rfl⟩

theorem newOpt_default {g : TypeGraph} {fuel : Nat} {t : Ty} {r} (h : defaultValue g fuel t = some r) :
    ∃ T, TypeAt.newOpt g (some t) = some (some T) := by
  obtain ⟨n, hn⟩ := defaultValue_node h
  exact ⟨.ty t n, by simp [TypeAt.newOpt, TypeAt.new, hn]⟩

theorem default_field_back {f : Ty → Option (Option Value)} {names : List String}
    {fields : List (String × Ty)} {l : List (String × Value)}
    (h : defaultNamed f (namedTypes names fields) = some (some l)) {n : String} {x : Obj}
    (hx : lookup n (visFields ((svOfList l).2.map fun p => (p.1, p.2.toObj))) = some x) :
    ∃ t w, namedType fields n = some t ∧ f t = some (some w) := by
  obtain ⟨h1, h2⟩ := defaultNamed_some h
  rw [toObj_visFields, svOfList_eq, lookup_map] at hx
  obtain ⟨w, hl, rfl⟩ := Option.map_eq_some_iff.mp hx
  obtain ⟨t, ht, hf⟩ := h2 _ (mem_bmOfList_str (lookup_mem hl))
  exact ⟨t, w, ht, hf⟩

theorem default_at_back {f : Ty → Option (Option Value)} {ts : List Ty} {vs : List Value}
    (h : defaultPos f ts = some (some vs)) {i : Nat} {x : Obj}
    (hx : visAt (vs.map fun x => x.toObj) i = some x) :
    ∃ t w, ts[i]? = some t ∧ f t = some (some w) := by
  have h2 := defaultPos_some.mp h
  rw [toObj_visAt] at hx
  obtain ⟨w, hw, rfl⟩ := Option.map_eq_some_iff.mp hx
  have hi' := (List.getElem?_eq_some_iff.mp hw).1
  have hi : i < ts.length := by rw [h2.length_eq]; exact hi'
  refine ⟨ts[i], w, by simp [hi], ?_⟩
  have := (List.forall₂_iff_get.mp h2).2 i hi hi'
  simp only [List.get_eq_getElem] at this
  rw [this, (List.getElem?_eq_some_iff.mp hw).2]

/-- A key into the default of a variant is a key of the variant. -/
theorem default_variant_back {E : Env} {g : TypeGraph} {fuel : Nat} {a : VariantNode} {v : Value} {k : Key}
    {x : Obj} (hv : defaultVariant (defaultValue g fuel) a = some (some v))
    (hk : v.toObj.atKey E k = some x) : ∃ T, (TypeAt.variant a).atKey g k = some (some T) := by
  cases a with
  | struct m names fields =>
    obtain ⟨o, ho', hv⟩ := Option.map_eq_some_iff.mp hv
    obtain ⟨l, rfl, rfl⟩ := Option.map_eq_some_iff.mp hv
    cases k with
    | named n =>
      simp only [Value.toObj, Obj.atKey, Obj.kind, Obj.variantKind, Obj.field] at hk
      obtain ⟨t, w, ht, hf⟩ := default_field_back ho' hk
      simp only [TypeAt.atKey, ht]; exact newOpt_default hf
    | numbered n => simp [Value.toObj, Obj.atKey, Obj.kind, Obj.variantKind] at hk
    | get u => simp [Value.toObj, Obj.atKey, Obj.kind] at hk
    | «variant» n =>
      simp only [Value.toObj, Obj.atKey, Obj.kind, Obj.variantName] at hk
      split at hk
      · next h => cases h; exact ⟨_, by simp [TypeAt.atKey, VariantNode.name]; rfl⟩
      · cases hk
  | tuple m fields =>
    obtain ⟨o, ho', hv⟩ := Option.map_eq_some_iff.mp hv
    obtain ⟨l, rfl, rfl⟩ := Option.map_eq_some_iff.mp hv
    cases k with
    | named n => simp [Value.toObj, Obj.atKey, Obj.kind, Obj.variantKind] at hk
    | numbered n =>
      simp only [Value.toObj, Obj.atKey, Obj.kind, Obj.variantKind, Obj.fieldAt] at hk
      obtain ⟨t, w, ht, hf⟩ := default_at_back ho' hk
      simp only [TypeAt.atKey, ht]; exact newOpt_default hf
    | get u => simp [Value.toObj, Obj.atKey, Obj.kind] at hk
    | «variant» n =>
      simp only [Value.toObj, Obj.atKey, Obj.kind, Obj.variantName] at hk
      split at hk
      · next h => cases h; exact ⟨_, by simp [TypeAt.atKey, VariantNode.name]; rfl⟩
      · cases hk
  | unit m =>
    cases hv
    cases k with
    | named n => simp [Value.toObj, Obj.atKey, Obj.kind, Obj.variantKind] at hk
    | numbered n => simp [Value.toObj, Obj.atKey, Obj.kind, Obj.variantKind] at hk
    | get u => simp [Value.toObj, Obj.atKey, Obj.kind] at hk
    | «variant» n =>
      simp only [Value.toObj, Obj.atKey, Obj.kind, Obj.variantName] at hk
      split at hk
      · next h => cases h; exact ⟨_, by simp [TypeAt.atKey, VariantNode.name]; rfl⟩
      · cases hk

theorem default_variant_name {f : Ty → Option (Option Value)} {a : VariantNode} {v : Value}
    (hv : defaultVariant f a = some (some v)) :
    v.toObj.kind = .enum ∧ v.toObj.variantName = some a.name := by
  cases a with
  | struct m names fields =>
    obtain ⟨o, ho', hv⟩ := Option.map_eq_some_iff.mp hv
    obtain ⟨l, rfl, rfl⟩ := Option.map_eq_some_iff.mp hv
    simp [Value.toObj, Obj.kind, Obj.variantName, VariantNode.name]
  | tuple m fields =>
    obtain ⟨o, ho', hv⟩ := Option.map_eq_some_iff.mp hv
    obtain ⟨l, rfl, rfl⟩ := Option.map_eq_some_iff.mp hv
    simp [Value.toObj, Obj.kind, Obj.variantName, VariantNode.name]
  | unit m =>
    cases hv
    simp [Value.toObj, Obj.kind, Obj.variantName, VariantNode.name]

/-- A key into a default is a key of the type, or of the enum's first variant. -/
theorem default_step_back {E : Env} {g : TypeGraph} {fuel : Nat} {ta : TypeAt} {v : Value} {k : Key}
    {x : Obj} (ho : ta.Own g) (hv : ta.defaultValue g fuel = some (some v))
    (hk : v.toObj.atKey E k = some x) :
    (∃ T, ta.atKey g k = some (some T)) ∨
    (∃ n T₀ T, ta.atKey g (.variant n) = some (some T₀) ∧ T₀.atKey g k = some (some T) ∧
      v.toObj.atKey E (.variant n) = some v.toObj ∧ T₀.defaultValue g fuel = some (some v) ∧ T₀.Own g) := by
  cases ta with
  | «variant» a => exact .inl (default_variant_back hv hk)
  | ty id node =>
    rw [TypeAt.Own] at ho
    rw [TypeAt.defaultValue] at hv
    cases fuel with
    | zero => cases hv
    | succ fuel =>
    rw [defaultValue, ho] at hv
    cases node with
    | struct names fields =>
      obtain ⟨o, ho', hv⟩ := Option.map_eq_some_iff.mp hv
      obtain ⟨l, rfl, rfl⟩ := Option.map_eq_some_iff.mp hv
      cases k <;> simp only [Value.toObj, Obj.atKey, Obj.kind, Obj.field] at hk <;> try (cases hk; done)
      obtain ⟨t, w, ht, hf⟩ := default_field_back ho' hk
      simp only [TypeAt.atKey, ht]; exact .inl (newOpt_default hf)
    | tupleStruct fields =>
      obtain ⟨o, ho', hv⟩ := Option.map_eq_some_iff.mp hv
      obtain ⟨l, rfl, rfl⟩ := Option.map_eq_some_iff.mp hv
      cases k <;> simp only [Value.toObj, Obj.atKey, Obj.kind, Obj.fieldAt] at hk <;> try (cases hk; done)
      obtain ⟨t, w, ht, hf⟩ := default_at_back ho' hk
      simp only [TypeAt.atKey, ht]; exact .inl (newOpt_default hf)
    | tuple fields =>
      obtain ⟨o, ho', hv⟩ := Option.map_eq_some_iff.mp hv
      obtain ⟨l, rfl, rfl⟩ := Option.map_eq_some_iff.mp hv
      cases k <;> simp only [Value.toObj, Obj.atKey, Obj.kind, Obj.fieldAt] at hk <;> try (cases hk; done)
      obtain ⟨t, w, ht, hf⟩ := default_at_back ho' hk
      simp only [TypeAt.atKey, ht]; exact .inl (newOpt_default hf)
    | enum vs =>
      cases vs with
      | nil => cases hv
      | cons a vs =>
      obtain ⟨T, hT⟩ := default_variant_back hv hk
      obtain ⟨h1, h2⟩ := default_variant_name hv
      refine .inr ⟨a.name, .variant a, T, ?_, hT, by simp [Obj.atKey, h1, h2],
        defaultVariant_mono (defaultValue_succ g fuel) _ hv, trivial⟩
      simp [TypeAt.atKey, findVariant]
    | list el =>
      cases hv
      cases k <;> simp only [Value.toObj, Obj.atKey, Obj.kind, Obj.fieldAt] at hk <;> try (cases hk; done)
      next u => cases h : valueToUsize u <;> simp [h] at hk
    | array el len =>
      obtain ⟨o, ho', hv⟩ := Option.map_eq_some_iff.mp hv
      obtain ⟨l, rfl, rfl⟩ := Option.map_eq_some_iff.mp hv
      cases k <;> simp only [Value.toObj, Obj.atKey, Obj.kind, Obj.fieldAt] at hk <;> try (cases hk; done)
      next u =>
      cases hu : valueToUsize u with
      | none => simp [hu] at hk
      | some i =>
        simp only [hu, Option.bind_some] at hk
        obtain ⟨t, w, ht, hf⟩ := default_at_back ho' (i := i) (x := x)
          (by rw [toObj_visAt]; simpa using hk)
        have : t = el := List.eq_of_mem_replicate (List.mem_of_getElem? ht)
        subst this
        simp only [TypeAt.atKey, hu, Option.isSome_some, if_true]
        exact .inl (newOpt_default hf)
    | map kt vt =>
      cases hv
      cases k <;> simp [Value.toObj, Obj.atKey, Obj.kind, Obj.mapGet, bmGet] at hk
    | scalar s =>
      cases hv
      cases k <;> simp [Value.toObj, Obj.atKey, Obj.kind] at hk
    | «opaque» => cases hv

/-- Every path into a default, with variants put in, is a path of the type. -/
theorem default_path_back {E : Env} {g : TypeGraph} {fuel : Nat} {x : Obj} : ∀ (p : KeyPath) {ta : TypeAt}
    {v : Value}, ta.Own g → ta.defaultValue g fuel = some (some v) → atPath E v.toObj p = some x →
    ∃ q T, Spelled p q ∧ ta.typeAt g q = some (some T) ∧ atPath E v.toObj q = some x
  | [], ta, v, _, _, hx => ⟨[], ta, .nil, rfl, hx⟩
  | k :: p, ta, v, ho, hv, hx => by
    rw [atPath_cons] at hx
    obtain ⟨y, hy, hx⟩ := Option.bind_eq_some_iff.mp hx
    rcases default_step_back ho hv hy with ⟨T, hT⟩ | ⟨n, T₀, T, h0, hT, hn, hd, ho'⟩
    · rcases default_step (E := E) ho hv hT with ⟨_, h2⟩ | ⟨_, w, h2, h3, h4⟩
      · rw [h2] at hy; cases hy
      · rw [h2] at hy; cases hy
        obtain ⟨q, U, hs, hU, hq⟩ := default_path_back p h4 h3 hx
        exact ⟨k :: q, U, .same k hs, by rw [typeAtGo_cons, hT]; exact hU,
          by rw [atPath_cons, h2]; exact hq⟩
    · rcases default_step (E := E) ho' hd hT with ⟨_, h2⟩ | ⟨_, w, h2, h3, h4⟩
      · rw [h2] at hy; cases hy
      · rw [h2] at hy; cases hy
        obtain ⟨q, U, hs, hU, hq⟩ := default_path_back p h4 h3 hx
        refine ⟨.variant n :: k :: q, U, .put n (.same k hs), ?_, ?_⟩
        · rw [typeAtGo_cons, h0]
          show T₀.typeAt g (k :: q) = _
          rw [typeAtGo_cons, hT]; exact hU
        · rw [atPath_cons, hn, Option.bind_some, atPath_cons, h2]; exact hq

/-! ## `has_default_value` -/

theorem defaultPos_of_has {f : Ty → Option (Option Value)} {b : Ty → Option Bool}
    (hb : ∀ t, b t = some true → ∃ v, f t = some (some v)) : ∀ (ts : List Ty), hasPos b ts = some true →
    ∃ vs, defaultPos f ts = some (some vs)
  | [], _ => ⟨[], rfl⟩
  | t :: ts, h => by
    rw [hasPos] at h
    rcases ht : b t with _ | _ | _ <;> rw [ht] at h
    · cases h
    · cases h
    · obtain ⟨v, hv⟩ := hb t ht
      obtain ⟨vs, hvs⟩ := defaultPos_of_has hb ts h
      exact ⟨v :: vs, by rw [defaultPos, hv, hvs]; rfl⟩

theorem defaultNamed_of_has {f : Ty → Option (Option Value)} {b : Ty → Option Bool}
    (hb : ∀ t, b t = some true → ∃ v, f t = some (some v)) : ∀ (ts : List (String × Option Ty)),
    hasNamed b ts = some true → ∃ vs, defaultNamed f ts = some (some vs)
  | [], _ => ⟨[], rfl⟩
  | (_, none) :: _, h => by cases h
  | (n, some t) :: ts, h => by
    rw [hasNamed] at h
    rcases ht : b t with _ | _ | _ <;> rw [ht] at h
    · cases h
    · cases h
    · obtain ⟨v, hv⟩ := hb t ht
      obtain ⟨vs, hvs⟩ := defaultNamed_of_has hb ts h
      exact ⟨(n, v) :: vs, by rw [defaultNamed, hv, hvs]; rfl⟩

theorem defaultVariant_of_has {f : Ty → Option (Option Value)} {b : Ty → Option Bool}
    (hb : ∀ t, b t = some true → ∃ v, f t = some (some v)) (a : VariantNode)
    (h : hasVariant b a = some true) : ∃ v, defaultVariant f a = some (some v) := by
  cases a with
  | struct n names fields =>
    obtain ⟨vs, hvs⟩ := defaultNamed_of_has hb _ h
    exact ⟨_, by rw [defaultVariant, hvs]; rfl⟩
  | tuple n fields =>
    obtain ⟨vs, hvs⟩ := defaultPos_of_has hb _ h
    exact ⟨_, by rw [defaultVariant, hvs]; rfl⟩
  | unit n => exact ⟨_, rfl⟩

theorem defaultPos_replicate {f : Ty → Option (Option Value)} {t : Ty} {v : Value} (h : f t = some (some v)) :
    ∀ n, ∃ vs, defaultPos f (List.replicate n t) = some (some vs)
  | 0 => ⟨[], rfl⟩
  | n + 1 => by
    obtain ⟨vs, hvs⟩ := defaultPos_replicate h n
    exact ⟨v :: vs, by rw [List.replicate_succ, defaultPos, h, hvs]; rfl⟩

/-- In any graph, a type said to have a default has one. -/
theorem default_of_has (g : TypeGraph) : ∀ (fuel : Nat) (t : Ty), hasDefault g fuel t = some true →
    ∃ v, defaultValue g fuel t = some (some v)
  | 0, _, h => by cases h
  | fuel + 1, t, h => by
    have ih := default_of_has g fuel
    rw [hasDefault] at h
    rw [defaultValue]
    rcases hn : g.node t with _ | node <;> rw [hn] at h
    · cases h
    · cases node with
      | struct names fields =>
        obtain ⟨vs, hvs⟩ := defaultNamed_of_has ih _ h
        exact ⟨_, by simp only [hvs]; rfl⟩
      | tupleStruct fields =>
        obtain ⟨vs, hvs⟩ := defaultPos_of_has ih _ h
        exact ⟨_, by simp only [hvs]; rfl⟩
      | tuple fields =>
        obtain ⟨vs, hvs⟩ := defaultPos_of_has ih _ h
        exact ⟨_, by simp only [hvs]; rfl⟩
      | enum vs =>
        cases vs with
        | nil => cases h
        | cons a vs => exact defaultVariant_of_has ih a h
      | list el => exact ⟨_, rfl⟩
      | array el len =>
        obtain ⟨v, hv⟩ := ih el h
        obtain ⟨vs, hvs⟩ := defaultPos_replicate hv len
        exact ⟨_, by simp only [hvs]; rfl⟩
      | map k v => exact ⟨_, rfl⟩
      | scalar k => exact ⟨_, rfl⟩
      | «opaque» => cases h

end Mirror
