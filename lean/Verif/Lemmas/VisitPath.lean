import Verif.Spec.VisitPath
import Verif.Lemmas.VisitAny
import Verif.Lemmas.VisitCopy
import Verif.Lemmas.TypePath
import Verif.Props.TypePath

set_option linter.unusedSimpArgs false

/-!
# Leaves of a visit and leaves at paths
-/

namespace Mirror

variable {E : Env} {g : TypeGraph}

theorem visitsAll_iff {id : Ty} {x : Obj} {l : List Leaf} : VisitsAll ⟨id, g⟩ x l ↔ Walks g id x l := by
  constructor
  · intro h
    obtain ⟨l', hw⟩ := walks_of_ok h
    have := hw.run (List Leaf) Empty (fun a s => (none, s ++ [a])) []
    rw [runVisit_record] at this
    have h' : tryVisit (ε := Empty) g (fun a (s : List Leaf) => (none, s ++ [a])) id x [] = .ok l := h
    rw [h'] at this
    cases this
    exact hw
  · intro h
    have := h.run (List Leaf) Empty (fun a s => (none, s ++ [a])) []
    rw [runVisit_record] at this
    exact this

theorem typeAt_desc {id : Ty} {n : TypeNode} (h : g.node id = some n) (p : KeyPath) :
    (TypeDescriptor.mk id g).typeAt p = (TypeAt.ty id n).typeAt g p := by
  simp [TypeDescriptor.typeAt, TypeAt.new, h]

/-- The type found so far has been walked along. -/
def WalksAt (g : TypeGraph) : TypeAt → Obj → List Leaf → Prop
  | .ty id n, o, l => g.node id = some n ∧ Walks g id o l
  | .variant v, o, l => ∃ id vs, g.node id = some (.enum vs) ∧ findVariant vs v.name = some v ∧
      o.variantName = some v.name ∧ Walks g id o l

theorem Walks.node {id : Ty} {o : Obj} {l : List Leaf} (h : Walks g id o l) : ∃ n, g.node id = some n := by
  cases h with
  | scalar _ _ _ _ h => exact ⟨_, h⟩
  | «opaque» _ _ h => exact ⟨_, h⟩
  | parts _ _ _ _ _ h => exact ⟨_, h⟩

theorem walks_part {ps : List (Ty × Obj)} {ls : List (List Leaf)} {u : Ty} {y : Obj}
    (h : List.Forall₂ (fun (p : Ty × Obj) l => Walks g p.1 p.2 l) ps ls) (hm : (u, y) ∈ ps) :
    ∃ l', Walks g u y l' ∧ ∀ a ∈ l', a ∈ ls.flatten := by
  obtain ⟨i, hi⟩ := List.getElem?_of_mem hm
  obtain ⟨l', hl', hw⟩ := forall2_left h hi
  exact ⟨l', hw, fun a ha => List.mem_flatten.mpr ⟨l', List.mem_of_getElem? hl', ha⟩⟩

theorem newOpt_inv {t : Option Ty} {ta : TypeAt} (h : TypeAt.newOpt g t = some (some ta)) :
    ∃ u n, t = some u ∧ g.node u = some n ∧ ta = .ty u n := by
  cases t with
  | none => simp [TypeAt.newOpt] at h
  | some u =>
    simp only [TypeAt.newOpt, TypeAt.new, Option.map_map, Option.map_eq_some_iff] at h
    obtain ⟨n, hn, e⟩ := h
    simp at e
    exact ⟨u, n, rfl, hn, e.symm⟩

theorem askedNamed_mem {o : Obj} {names : List String} {fields : List (String × Ty)} {ps : List (Ty × Obj)}
    (h : AskedNamed o names fields ps) {m : String} {u : Ty} {y : Obj} (hm : m ∈ names)
    (hu : namedType fields m = some u) (hy : o.field m = some y) : (u, y) ∈ ps := by
  obtain ⟨i, hi⟩ := List.getElem?_of_mem hm
  obtain ⟨hlt, _⟩ := List.getElem?_eq_some_iff.mp hi
  obtain ⟨p, hp⟩ : ∃ p, ps[i]? = some p := ⟨_, List.getElem?_eq_getElem (by rw [h.1]; exact hlt)⟩
  obtain ⟨h1, h2⟩ := h.2 i m _ hi hp
  rw [hu] at h1; rw [hy] at h2
  rcases p with ⟨a, b⟩
  cases h1; cases h2
  exact List.mem_of_getElem? hp

theorem askedPos_mem {o : Obj} {fields : List Ty} {ps : List (Ty × Obj)} (h : AskedPos o fields ps) {i : Nat}
    {u : Ty} {y : Obj} (hu : fields[i]? = some u) (hy : o.fieldAt i = some y) : (u, y) ∈ ps := by
  rw [← h.1, List.getElem?_map, Option.map_eq_some_iff] at hu
  obtain ⟨p, hp, rfl⟩ := hu
  have h2 := h.2 i p hp
  rw [hy] at h2
  have : p = (p.1, y) := by
    rcases p with ⟨a, b⟩
    simp only [Option.some.injEq] at h2
    rw [h2]
  rw [← this]
  exact List.mem_of_getElem? hp

theorem findVariant_name {vs : List VariantNode} {n : String} {v : VariantNode} (h : findVariant vs n = some v) :
    v.name = n := by simpa using List.find?_some h

theorem findVariant_mem {vs : List VariantNode} {n : String} {v : VariantNode} (h : findVariant vs n = some v) :
    v ∈ vs := List.mem_of_find?_eq_some h

theorem field_kind_named {o y : Obj} {m : String} (hy : o.atKey E (.named m) = some y) : o.field m = some y := by
  simp only [Obj.atKey] at hy
  split at hy
  · exact hy
  · split at hy
    · exact hy
    · cases hy
  · cases hy

theorem field_kind_numbered {o y : Obj} {i : Nat} (hy : o.atKey E (.numbered i) = some y) :
    o.fieldAt i = some y := by
  simp only [Obj.atKey] at hy
  split at hy
  · exact hy
  · exact hy
  · split at hy
    · exact hy
    · cases hy
  · cases hy

theorem posIter_elems {o : Obj} (h : o.kind = .list ∨ o.kind = .array) (i : Nat) : o.posIter[i]? = o.fieldAt i := by
  cases o <;> simp [Obj.kind, Obj.posIter, Obj.fieldAt] at h ⊢

/-- A step of a path, taken in the type and in the value, leads to a part that is walked over. -/
theorem walks_step (hN : NamesListed g) {ta ta' : TypeAt} {o y : Obj} {l : List Leaf} {k : Key}
    (hw : WalksAt g ta o l) (hy : o.atKey E k = some y) (ht : ta.atKey g k = some (some ta')) :
    ∃ l', WalksAt g ta' y l' ∧ ∀ a ∈ l', a ∈ l := by
  have fin : ∀ {n : TypeNode} {ps : List (Ty × Obj)} {ls : List (List Leaf)} {t : Option Ty},
      List.Forall₂ (fun (p : Ty × Obj) l => Walks g p.1 p.2 l) ps ls → TypeAt.newOpt g t = some (some ta') →
      (∀ u, t = some u → (u, y) ∈ ps) → ∃ l', WalksAt g ta' y l' ∧ ∀ a ∈ l', a ∈ ls.flatten := by
    intro n ps ls t h1 h2 h3
    obtain ⟨u, m, rfl, hn, rfl⟩ := newOpt_inv h2
    obtain ⟨l', h4, h5⟩ := walks_part h1 (h3 u rfl)
    exact ⟨l', ⟨hn, h4⟩, h5⟩
  cases ta with
  | ty id n =>
    obtain ⟨hn, hw⟩ := hw
    by_cases hs : (∃ q, n = .scalar q) ∨ n = .opaque
    · exfalso
      rcases hs with ⟨q, rfl⟩ | rfl <;> cases k <;> simp [TypeAt.atKey] at ht
    · obtain ⟨ps, ls, hA, rfl, hF⟩ := hw.inv hn (fun q e => hs (.inl ⟨q, e⟩)) (fun e => hs (.inr e))
      cases k with
      | named m =>
        have hf := field_kind_named hy
        cases n <;> simp [TypeAt.atKey] at ht
        next names fields =>
        cases hA with
        | struct _ _ _ _ hA =>
          exact fin (n := .opaque) hF ht fun u hu => askedNamed_mem hA (hN.1 _ _ _ hn m u hu) hu hf
      | numbered i =>
        have hf := field_kind_numbered hy
        cases n <;> simp [TypeAt.atKey] at ht
        · cases hA with
          | tupleStruct _ _ _ hA => exact fin (n := .opaque) hF ht fun u hu => askedPos_mem hA hu hf
        · cases hA with
          | tuple _ _ _ hA => exact fin (n := .opaque) hF ht fun u hu => askedPos_mem hA hu hf
      | get v =>
        cases n <;> simp [TypeAt.atKey] at ht
        · cases hA with
          | list t hk _ =>
            split at ht
            case isFalse => cases ht
            refine fin (n := .opaque) hF ht fun u hu => ?_
            cases hu
            simp only [Obj.atKey, hk] at hy
            obtain ⟨i, _, hi⟩ := Option.bind_eq_some_iff.mp hy
            rw [← posIter_elems (.inl hk)] at hi
            exact List.mem_map.mpr ⟨y, List.mem_of_getElem? hi, rfl⟩
        · cases hA with
          | array t len hk _ =>
            split at ht
            case isFalse => cases ht
            refine fin (n := .opaque) hF ht fun u hu => ?_
            cases hu
            simp only [Obj.atKey, hk] at hy
            obtain ⟨i, _, hi⟩ := Option.bind_eq_some_iff.mp hy
            rw [← posIter_elems (.inr hk)] at hi
            exact List.mem_map.mpr ⟨y, List.mem_of_getElem? hi, rfl⟩
        · cases hA with
          | map kt vt hk _ _ =>
            refine fin (n := .opaque) hF ht fun u hu => ?_
            cases hu
            simp only [Obj.atKey, hk] at hy
            cases o <;> simp [Obj.kind] at hk
            simp only [Obj.mapGet] at hy
            obtain ⟨k', _, hg⟩ := Option.bind_eq_some_iff.mp hy
            obtain ⟨k'', hm, _⟩ := bmGet_mem hg
            exact List.mem_flatMap.mpr ⟨(k'', y), hm, by simp⟩
      | variant v =>
        cases n <;> simp [TypeAt.atKey] at ht
        next vs =>
        obtain ⟨w, hw', rfl⟩ := ht
        simp only [Obj.atKey] at hy
        split at hy
        · split at hy <;> cases hy
          next hv =>
          have := findVariant_name hw'
          subst this
          exact ⟨_, ⟨id, vs, hn, hw', hv, hw⟩, fun a h => h⟩
        · cases hy
  | variant v =>
    obtain ⟨id, vs, hn, hf, hv, hw⟩ := hw
    have hw0 := hw
    obtain ⟨ps, ls, hA, rfl, hF⟩ := hw.inv hn (by simp) (by simp)
    cases k with
    | named m =>
      have hfm := field_kind_named hy
      cases v <;> simp [TypeAt.atKey] at ht
      next vn names fields =>
      cases hA with
      | enumS _ n' _ _ _ _ h1 h2 h3 =>
        rw [hv] at h1; cases h1; rw [hf] at h2; cases h2
        exact fin (n := .opaque) hF ht fun u hu =>
          askedNamed_mem h3 (hN.2 _ _ _ _ _ hn (findVariant_mem hf) m u hu) hu hfm
      | enumT _ n' _ _ _ h1 h2 h3 => rw [hv] at h1; cases h1; rw [hf] at h2; cases h2
      | enumU _ n' _ h1 h2 => rw [hv] at h1; cases h1; rw [hf] at h2; cases h2
    | numbered i =>
      have hfm := field_kind_numbered hy
      cases v <;> simp [TypeAt.atKey] at ht
      next vn fields =>
      cases hA with
      | enumS _ n' _ _ _ _ h1 h2 h3 => rw [hv] at h1; cases h1; rw [hf] at h2; cases h2
      | enumT _ n' _ _ _ h1 h2 h3 =>
        rw [hv] at h1; cases h1; rw [hf] at h2; cases h2
        exact fin (n := .opaque) hF ht fun u hu => askedPos_mem h3 hu hfm
      | enumU _ n' _ h1 h2 => rw [hv] at h1; cases h1; rw [hf] at h2; cases h2
    | get v' => cases v <;> simp [TypeAt.atKey] at ht
    | variant v' =>
      have e : (TypeAt.variant v).atKey g (.variant v') =
        some (if v.name = v' then some (.variant v) else none) := by cases v <;> rfl
      rw [e] at ht
      split at ht <;> cases ht
      simp only [Obj.atKey] at hy
      split at hy
      · split at hy <;> cases hy
        exact ⟨_, ⟨id, vs, hn, hf, hv, hw0⟩, fun a h => h⟩
      · cases hy

theorem walks_path (hN : NamesListed g) (p : KeyPath) : ∀ {ta ta' : TypeAt} {o y : Obj} {l : List Leaf},
    WalksAt g ta o l → atPath E o p = some y → ta.typeAt g p = some (some ta') →
    ∃ l', WalksAt g ta' y l' ∧ ∀ a ∈ l', a ∈ l := by
  induction p with
  | nil =>
    intro ta ta' o y l h hy ht
    simp only [atPath_nil, Option.some.injEq] at hy
    simp only [TypeAt.typeAt, KeyPath.isEmpty, List.isEmpty_nil, if_true, Option.some.injEq] at ht
    subst hy ht
    exact ⟨l, h, fun a h => h⟩
  | cons k p ih =>
    intro ta ta' o y l h hy ht
    rw [atPath_cons] at hy
    obtain ⟨x, hx, hy⟩ := Option.bind_eq_some_iff.mp hy
    rw [typeAtGo_cons] at ht
    obtain ⟨r, hr, ht⟩ := Option.bind_eq_some_iff.mp ht
    cases r with
    | none => simp at ht
    | some tx =>
      obtain ⟨l', h1, h2⟩ := walks_step hN h hx hr
      obtain ⟨l'', h3, h4⟩ := ih h1 hy ht
      exact ⟨l'', h3, fun a ha => h2 a (h4 a ha)⟩

/-- Leaves at paths are walked over. -/
theorem leafAt_walked (hN : NamesListed g) {id : Ty} {x : Obj} {l : List Leaf} (hw : Walks g id x l) {p : KeyPath}
    {a : Leaf} (h : LeafAt E ⟨id, g⟩ x p a) : a ∈ l := by
  obtain ⟨n, hn⟩ := hw.node
  obtain ⟨u, m, y, ht, hy, ha⟩ := h
  rw [typeAt_desc hn] at ht
  obtain ⟨l', ⟨hm, hl'⟩, hsub⟩ := walks_path hN p (ta := .ty id n) ⟨hn, hw⟩ hy ht
  apply hsub
  rcases ha with ⟨k, s, rfl, hs, rfl⟩ | ⟨rfl, rfl⟩
  · cases hl' with
    | scalar _ k' _ s' h1 h2 => rw [hs] at h2; cases h2; simp
    | «opaque» _ _ h1 => rw [hm] at h1; cases h1
    | parts _ _ _ _ _ h1 hA => rw [hm] at h1; cases h1; cases hA
  · cases hl' with
    | scalar _ k' _ s' h1 h2 => rw [hm] at h1; cases h1
    | «opaque» _ _ h1 => simp
    | parts _ _ _ _ _ h1 hA => rw [hm] at h1; cases h1; cases hA

theorem names_listed {fds : List FieldDef} (hnd : (fds.map (·.name)).Nodup) {names fields}
    (hf : namedTypes names fields = (fds.filter fun fd => !fd.skip).map fun fd => (fd.name, some fd.ty.unbox))
    (hlen : fields.length = (fds.filter fun fd => !fd.skip).length) (hso : BMSorted strCmp fields)
    {n : String} {u : Ty} (h : namedType fields n = some u) : n ∈ names := by
  obtain ⟨fd, hfd, rfl, _⟩ := (namedType_iff hnd hf hlen hso).mp h
  have : (fd.name, some fd.ty.unbox) ∈ namedTypes names fields := by
    rw [hf]; exact List.mem_map.mpr ⟨fd, hfd, rfl⟩
  obtain ⟨m, hm, e⟩ := List.mem_map.mp this
  have e1 : m = fd.name := congrArg Prod.fst e
  rw [← e1]; exact hm

theorem namesListed_of_ok (hD : DeclsOK E) (hG : GraphOK E g) : NamesListed g := by
  constructor
  · intro id names fields hn m u hu
    have := (hG _ _ hn).1
    cases this with
    | struct n fds c _ _ hdecl hf hlen hso => exact names_listed (hD.struct_names _ _ _ hdecl) hf hlen hso hu
  · intro id vs v names fields hn hv m u hu
    have := (hG _ _ hn).1
    cases this with
    | enum n vds c _ hdecl hl hvs =>
      obtain ⟨i, hi⟩ := List.getElem?_of_mem hv
      obtain ⟨hlt, _⟩ := List.getElem?_eq_some_iff.mp hi
      obtain ⟨vd, hvd⟩ : ∃ vd, vds[i]? = some vd := ⟨_, List.getElem?_eq_getElem (by rw [← hl]; exact hlt)⟩
      have hdv := hvs i _ _ hvd hi
      cases hdv with
      | struct _ fds _ _ hf hlen hso =>
        exact names_listed (hD.variant_fields _ _ _ _ _ hdecl (List.mem_of_getElem? hvd)) hf hlen hso hu

/-- What holds for a part found at a path holds for the whole. -/
theorem reached_lift {id u : Ty} {n m : TypeNode} {x y : Obj} {q : KeyPath} {a : Leaf} (hn : g.node id = some n)
    (hm : g.node u = some m) (ht : (TypeAt.ty id n).typeAt g q = some (some (.ty u m)))
    (hy : atPath E x q = some y)
    (h : (∃ p, LeafAt E ⟨u, g⟩ y p a) ∨ InMapEntry E ⟨u, g⟩ y a) :
    (∃ p, LeafAt E ⟨id, g⟩ x p a) ∨ InMapEntry E ⟨id, g⟩ x a := by
  have hT : ∀ p, (TypeDescriptor.mk id g).typeAt (q ++ p) = (TypeDescriptor.mk u g).typeAt p := by
    intro p
    rw [typeAt_desc hn, typeAt_desc hm, type_at_append, ht]
    rfl
  have hA : ∀ p, atPath E x (q ++ p) = atPath E y p := by
    intro p
    rw [atPath_append, hy]
    rfl
  rcases h with ⟨p, w, k, z, h1, h2, h3⟩ | ⟨p, w, kt, vt, z, k, v, h1, h2, h3⟩
  · exact .inl ⟨q ++ p, w, k, z, by rw [hT]; exact h1, by rw [hA]; exact h2, h3⟩
  · exact .inr ⟨q ++ p, w, kt, vt, z, k, v, by rw [hT]; exact h1, by rw [hA]; exact h2, h3⟩

theorem Indexable.at {x y : Obj} {q : KeyPath} (h : Indexable E x) (hy : atPath E x q = some y) : Indexable E y := by
  intro p z hz
  exact h (q ++ p) z (by rw [atPath_append, hy]; exact hz)

theorem typeAt_one {ta ta' : TypeAt} {k : Key} (h : ta.atKey g k = some (some ta')) :
    ta.typeAt g [k] = some (some ta') := by
  rw [typeAtGo_cons, h]; rfl

theorem typeAt_two {ta ta' ta'' : TypeAt} {k k' : Key} (h : ta.atKey g k = some (some ta'))
    (h' : ta'.atKey g k' = some (some ta'')) : ta.typeAt g [k, k'] = some (some ta'') := by
  rw [typeAtGo_cons, h]
  exact typeAt_one h'

theorem atPath_one {o x : Obj} {k : Key} (h : o.atKey E k = some x) : atPath E o [k] = some x := by
  rw [atPath_cons, h]; rfl

theorem atPath_two {o x y : Obj} {k k' : Key} (h : o.atKey E k = some x) (h' : x.atKey E k' = some y) :
    atPath E o [k, k'] = some y := by
  rw [atPath_cons, h]; exact atPath_one h'

/-- A part that is asked for is found at a path of one or two keys, of the type it is asked for, unless it belongs
to an entry of a map. -/
theorem asked_reached (hD : DeclsOK E) (hG : GraphOK E g) {id : Ty} {n : TypeNode} {x : Obj}
    {ps : List (Ty × Obj)} (hn : g.node id = some n) (hA : AskedOf g x n ps) (hx : HasTy E id x)
    (hI : x.posIter.length ≤ usizeSize) {u : Ty} {y : Obj} (hp : (u, y) ∈ ps) {m : TypeNode}
    (hm : g.node u = some m) :
    (∃ q, (TypeAt.ty id n).typeAt g q = some (some (.ty u m)) ∧ atPath E x q = some y ∧ HasTy E u y) ∨
      ∃ kt vt k v, n = .map kt vt ∧ (k, v) ∈ x.mapIter ∧ ((u = kt ∧ y = k) ∨
        (u = vt ∧ y = v ∧ ∀ w : Value, x.mapGet E w.toObj ≠ some v)) := by
  have hta : TA E g id (.ty id n) x := .ty _ _ _ hn (.refl) hx
  have hdyn : ∀ id' n', TypeAt.ty id n = .ty id' n' → ¬ id'.Dyn := by
    rintro _ _ ⟨⟩ hd
    have := (hG _ _ hn).1
    rcases hd with rfl | rfl | rfl | rfl | rfl <;> cases this <;> exact absurd rfl hA.node.2
  have hnew : TypeAt.newOpt g (some u) = some (some (.ty u m)) := newOpt_some hm
  have one : ∀ k, (TypeAt.ty id n).atKey g k = some (some (.ty u m)) → x.atKey E k = some y →
      (∀ i, k = .numbered i → ∀ j < i, (x.fieldAt j).isSome = true) → x.kind ≠ .enum →
      (∃ q, (TypeAt.ty id n).typeAt g q = some (some (.ty u m)) ∧ atPath E x q = some y ∧ HasTy E u y) := by
    intro k h1 h2 h3 h4
    obtain ⟨ta', h5, h6⟩ := ta_step hD hG hta h2 h3 hdyn fun _ _ _ h => absurd h h4
    rw [h1] at h5; cases h5
    cases h6 with
    | ty _ _ _ _ _ hy => exact ⟨[k], typeAt_one h1, atPath_one h2, hy⟩
  have two : ∀ vn v k, x.kind = .enum → x.variantName = some vn →
      (TypeAt.ty id n).atKey g (.variant vn) = some (some (.variant v)) →
      (TypeAt.variant v).atKey g k = some (some (.ty u m)) → x.atKey E k = some y →
      (∀ i, k = .numbered i → ∀ j < i, (x.fieldAt j).isSome = true) →
      (∃ q, (TypeAt.ty id n).typeAt g q = some (some (.ty u m)) ∧ atPath E x q = some y ∧ HasTy E u y) := by
    intro vn v k h1 h2 h3 h4 h5 h6
    have h7 : x.atKey E (.variant vn) = some x := by simp [Obj.atKey, h1, h2]
    obtain ⟨ta', h8, h9⟩ := ta_step hD hG hta h7 (by simp) hdyn fun _ _ _ _ => ⟨_, rfl⟩
    rw [h3] at h8; cases h8
    obtain ⟨ta', h10, h11⟩ := ta_step hD hG h9 h5 h6 (by simp) (by simp)
    rw [h4] at h10; cases h10
    cases h11 with
    | ty _ _ _ _ _ hy => exact ⟨[.variant vn, k], typeAt_two h3 h4, atPath_two h7 h5, hy⟩
  have named : ∀ {names : List String} {fields : List (String × Ty)}, AskedNamed x names fields ps →
      ∃ m', namedType fields m' = some u ∧ x.field m' = some y := by
    intro names fields h
    obtain ⟨i, hi⟩ := List.getElem?_of_mem hp
    obtain ⟨hlt, _⟩ := List.getElem?_eq_some_iff.mp hi
    obtain ⟨m', hm'⟩ : ∃ m', names[i]? = some m' := ⟨_, List.getElem?_eq_getElem (by rw [← h.1]; exact hlt)⟩
    exact ⟨m', h.2 i _ _ hm' hi⟩
  have pos : ∀ {fields : List Ty}, AskedPos x fields ps →
      ∃ i, fields[i]? = some u ∧ x.fieldAt i = some y ∧ ∀ j < i, (x.fieldAt j).isSome = true := by
    intro fields h
    obtain ⟨i, hi⟩ := List.getElem?_of_mem hp
    refine ⟨i, by rw [← h.1, List.getElem?_map, hi]; rfl, h.2 i _ hi, fun j hj => ?_⟩
    obtain ⟨hlt, _⟩ := List.getElem?_eq_some_iff.mp hi
    rw [h.2 j _ (List.getElem?_eq_getElem (by omega))]
    rfl
  have elem : ∀ {t : Ty}, (x.kind = .list ∨ x.kind = .array) → ps = x.posIter.map (fun z => (t, z)) →
      t = u ∧ ∃ w, (valueToUsize w).isSome = true ∧ x.atKey E (.get w) = some y := by
    intro t hk e
    rw [e] at hp
    obtain ⟨z, hz, e⟩ := List.mem_map.mp hp
    cases e
    obtain ⟨i, hi⟩ := List.getElem?_of_mem hz
    obtain ⟨hlt, _⟩ := List.getElem?_eq_some_iff.mp hi
    have hv : valueToUsize (.scalar (.int .usize i)) = some i := by
      simp only [valueToUsize, Option.some.injEq]
      rw [Int.emod_eq_of_lt (by omega) (by have : i < usizeSize := by omega
                                           exact_mod_cast this)]
      rfl
    refine ⟨rfl, .scalar (.int .usize i), by rw [hv]; rfl, ?_⟩
    rw [posIter_elems hk] at hi
    rcases hk with hk | hk <;> simp only [Obj.atKey, hk, hv, Option.bind_some] <;> exact hi
  cases hA with
  | struct names fields _ hk h =>
    obtain ⟨m', h1, h2⟩ := named h
    exact .inl (one (.named m') (by simp only [TypeAt.atKey, h1]; exact hnew) (by simp only [Obj.atKey, hk]; exact h2)
      (by simp) (by simp [hk]))
  | tupleStruct fields _ hk h =>
    obtain ⟨i, h1, h2, h3⟩ := pos h
    exact .inl (one (.numbered i) (by simp only [TypeAt.atKey, h1]; exact hnew)
      (by simp only [Obj.atKey, hk]; exact h2) (by rintro _ ⟨⟩; exact h3) (by simp [hk]))
  | tuple fields _ hk h =>
    obtain ⟨i, h1, h2, h3⟩ := pos h
    exact .inl (one (.numbered i) (by simp only [TypeAt.atKey, h1]; exact hnew)
      (by simp only [Obj.atKey, hk]; exact h2) (by rintro _ ⟨⟩; exact h3) (by simp [hk]))
  | enumS vs vn vn' names fields _ hv hf h =>
    obtain ⟨m', h1, h2⟩ := named h
    have hk : x.kind = .enum := by cases x <;> simp [Obj.variantName] at hv <;> rfl
    have hvk : x.variantKind = some .struct := by
      cases x <;> simp [Obj.field, Obj.variantName] at h2 hv <;> rfl
    exact .inl (two vn (.struct vn' names fields) (.named m') hk hv (by simp only [TypeAt.atKey, hf, Option.map_some])
      (by simp only [TypeAt.atKey, h1]; exact hnew) (by simp only [Obj.atKey, hk, hvk]; exact h2) (by simp))
  | enumT vs vn vn' fields _ hv hf h =>
    obtain ⟨i, h1, h2, h3⟩ := pos h
    have hk : x.kind = .enum := by cases x <;> simp [Obj.variantName] at hv <;> rfl
    have hvk : x.variantKind = some .tuple := by
      have h8 : x.atKey E (.variant vn) = some x := by simp [Obj.atKey, hk, hv]
      obtain ⟨ta', h9, h10⟩ := ta_step hD hG hta h8 (by simp) hdyn fun _ _ _ _ => ⟨_, rfl⟩
      simp only [TypeAt.atKey, hf, Option.map_some, Option.some.injEq] at h9
      subst h9
      have := h10.isA hD
      cases this with
      | variant _ _ _ _ _ h => exact h
    exact .inl (two vn (.tuple vn' fields) (.numbered i) hk hv (by simp only [TypeAt.atKey, hf, Option.map_some])
      (by simp only [TypeAt.atKey, h1]; exact hnew) (by simp only [Obj.atKey, hk, hvk]; exact h2)
      (by rintro _ ⟨⟩; exact h3))
  | enumU => simp at hp
  | list t hk _ =>
    obtain ⟨rfl, w, h1, h2⟩ := elem (.inl hk) rfl
    exact .inl (one (.get w) (by simp only [TypeAt.atKey, h1, if_true]; exact hnew) h2 (by simp) (by simp [hk]))
  | array t len hk _ =>
    obtain ⟨rfl, w, h1, h2⟩ := elem (.inr hk) rfl
    exact .inl (one (.get w) (by simp only [TypeAt.atKey, h1, if_true]; exact hnew) h2 (by simp) (by simp [hk]))
  | map kt vt hk _ _ =>
    obtain ⟨⟨k, v⟩, hkv, h⟩ := List.mem_flatMap.mp hp
    simp only [List.mem_cons, List.not_mem_nil, or_false, Prod.mk.injEq] at h
    rcases h with ⟨rfl, rfl⟩ | ⟨rfl, rfl⟩
    · exact .inr ⟨_, _, _, _, rfl, hkv, .inl ⟨rfl, rfl⟩⟩
    · by_cases hw : ∃ w : Value, x.mapGet E w.toObj = some y
      · obtain ⟨w, hw⟩ := hw
        exact .inl (one (.get w) (by simp only [TypeAt.atKey]; exact hnew) (by simp only [Obj.atKey, hk]; exact hw)
          (by simp) (by simp [hk]))
      · exact .inr ⟨_, _, _, _, rfl, hkv, .inr ⟨rfl, rfl, fun w h => hw ⟨w, h⟩⟩⟩

/-- Leaves walked over are at paths, or belong to entries of maps. -/
theorem walked_reached (hD : DeclsOK E) (hG : GraphOK E g) {id : Ty} {x : Obj} {l : List Leaf}
    (hw : Walks g id x l) : HasTy E id x → Indexable E x → ∀ a ∈ l,
      (∃ p, LeafAt E ⟨id, g⟩ x p a) ∨ InMapEntry E ⟨id, g⟩ x a := by
  induction hw with
  | scalar id k o s hn hs =>
    intro _ _ a ha
    simp only [List.mem_singleton] at ha; subst ha
    exact .inl ⟨[], id, _, o, by rw [typeAt_desc hn]; rfl, rfl, .inl ⟨k, s, rfl, hs, rfl⟩⟩
  | «opaque» id o hn =>
    intro _ _ a ha
    simp only [List.mem_singleton] at ha; subst ha
    exact .inl ⟨[], id, _, o, by rw [typeAt_desc hn]; rfl, rfl, .inr ⟨rfl, rfl⟩⟩
  | parts id o node ps ls hn hA hl hw ih =>
    intro hx hI a ha
    obtain ⟨l', hl', ha⟩ := List.mem_flatten.mp ha
    obtain ⟨i, hi⟩ := List.getElem?_of_mem hl'
    obtain ⟨hlt, _⟩ := List.getElem?_eq_some_iff.mp hi
    obtain ⟨⟨u, y⟩, hp⟩ : ∃ p, ps[i]? = some p := ⟨_, List.getElem?_eq_getElem (by rw [← hl]; exact hlt)⟩
    have hwp := hw i _ _ hp hi
    obtain ⟨m, hm⟩ := hwp.node
    rcases asked_reached hD hG hn hA hx (hI [] _ rfl) (List.mem_of_getElem? hp) hm with
      ⟨q, h1, h2, h3⟩ | ⟨kt, vt, k, v, rfl, hkv, h⟩
    · exact reached_lift hn hm h1 h2 (ih i _ _ hp hi h3 (hI.at h2) a ha)
    · right
      refine ⟨[], id, kt, vt, o, k, v, by rw [typeAt_desc hn]; rfl, rfl, hkv, ?_⟩
      rcases h with ⟨rfl, rfl⟩ | ⟨rfl, rfl, hno⟩
      · exact .inl ⟨l', visitsAll_iff.mpr hwp, ha⟩
      · exact .inr ⟨hno, l', visitsAll_iff.mpr hwp, ha⟩

/-- Leaves of the entries of a map found at a path are walked over. -/
theorem inMap_walked (hN : NamesListed g) {id : Ty} {x : Obj} {l : List Leaf} (hw : Walks g id x l) {a : Leaf}
    (h : InMapEntry E ⟨id, g⟩ x a) : a ∈ l := by
  obtain ⟨n, hn⟩ := hw.node
  obtain ⟨p, w, kt, vt, y, k, v, h1, h2, h3, h4⟩ := h
  rw [typeAt_desc hn] at h1
  obtain ⟨l', ⟨hm, hl'⟩, hsub⟩ := walks_path hN p (ta := .ty id n) ⟨hn, hw⟩ h2 h1
  apply hsub
  obtain ⟨ps, ls, hA, rfl, hF⟩ := hl'.inv hm (by simp) (by simp)
  cases hA with
  | map _ _ hk _ _ =>
    rcases h4 with ⟨lk, hk', ha⟩ | ⟨_, lv, hv', ha⟩
    · obtain ⟨l'', h5, h6⟩ := walks_part hF (u := kt) (y := k) (List.mem_flatMap.mpr ⟨_, h3, by simp⟩)
      have := Walks.unique h5 (visitsAll_iff.mp hk')
      subst this
      exact h6 a ha
    · obtain ⟨l'', h5, h6⟩ := walks_part hF (u := vt) (y := v) (List.mem_flatMap.mpr ⟨_, h3, by simp⟩)
      have := Walks.unique h5 (visitsAll_iff.mp hv')
      subst this
      exact h6 a ha

end Mirror
