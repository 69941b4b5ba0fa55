import Verif.Lemmas.PatchSelf
import Mathlib.Data.Fintype.EquivFin
import Mathlib.Data.List.Nodup

set_option linter.unusedSimpArgs false

/-!
# `reflect_eq`: one characterisation for all kinds, totality, symmetry, transitivity
-/

namespace Mirror

theorem eqAll_true (l : List (Option Bool)) : eqAll l = some true ↔ ∀ x ∈ l, x = some true := by
  induction l with
  | nil => simp [eqAll]
  | cons x r ih =>
    match x with
    | none => simp [eqAll]
    | some false => simp [eqAll]
    | some true => simp [eqAll, ih]

theorem eqAll_isSome {l : List (Option Bool)} (h : ∀ x ∈ l, x.isSome = true) :
    (eqAll l).isSome = true := by
  induction l with
  | nil => rfl
  | cons x r ih =>
    match x with
    | none => simp at h
    | some false => rfl
    | some true => exact ih fun y hy => h y (by simp [hy])

/-- The entries of a map. -/
def Obj.entries : Obj → List (Obj × Obj)
  | .map _ _ kvs => kvs
  | _ => []

/-- One step of `reflect_eq`, with `R` for the comparison of parts. -/
structure EqBody (E : Env) (R : Obj → Obj → Prop) (a b : Obj) : Prop where
  kind : a.kind = b.kind
  shown : a.kind ≠ .opaque
  vname : a.variantName = b.variantName
  vkind : a.variantKind = b.variantKind
  len : a.fieldsLen = b.fieldsLen
  scalar : ∀ s s', a.asScalar = some s → b.asScalar = some s' → s.eqv s' = true
  named : ∀ p ∈ a.namedIter, ∃ y, b.field p.1 = some y ∧ R p.2 y
  pos : ∀ (i : Nat) x y, a.posIter[i]? = some x → b.posIter[i]? = some y → R x y
  entries : ∀ p ∈ a.entries, ∃ y, b.mapGet E p.1 = some y ∧ R p.2 y

theorem zip_forall {α β} {xs : List α} {ys : List β} {R : α → β → Prop} :
    (∀ p ∈ xs.zip ys, R p.1 p.2) ↔ ∀ (i : Nat) x y, xs[i]? = some x → ys[i]? = some y → R x y := by
  constructor
  · intro h i x y hx hy
    refine h (x, y) (List.mem_of_getElem? (i := i) ?_)
    simp [List.getElem?_zip_eq_some, hx, hy]
  · intro h p hp
    obtain ⟨i, hi⟩ := List.getElem?_of_mem hp
    rw [List.getElem?_zip_eq_some] at hi
    exact h i _ _ hi.1 hi.2

theorem eqNamed_true {E : Env} {b : Obj} (l : List (String × Obj)) :
    eqAll (l.attach.map fun p => match b.field p.1.1 with
      | none => some false
      | some y => reflectEq E p.1.2 y) = some true ↔
    ∀ p ∈ l, ∃ y, b.field p.1 = some y ∧ reflectEq E p.2 y = some true := by
  rw [eqAll_true]
  have e : ∀ p : String × Obj, (match b.field p.1 with
      | none => some false
      | some y => reflectEq E p.2 y) = some true ↔
      ∃ y, b.field p.1 = some y ∧ reflectEq E p.2 y = some true := by
    intro p; cases b.field p.1 <;> simp
  constructor
  · intro h p hp
    exact (e p).mp (h _ (List.mem_map.mpr ⟨⟨p, hp⟩, List.mem_attach _ _, rfl⟩))
  · intro h x hx
    obtain ⟨p, _, rfl⟩ := List.mem_map.mp hx
    exact (e p.1).mpr (h p.1 p.2)

theorem eqZip_true {E : Env} (xs ys : List Obj) :
    eqAll ((xs.zip ys).attach.map fun p => reflectEq E p.1.1 p.1.2) = some true ↔
    ∀ (i : Nat) x y, xs[i]? = some x → ys[i]? = some y → reflectEq E x y = some true := by
  rw [eqAll_true, ← zip_forall]
  constructor
  · intro h p hp
    exact h _ (List.mem_map.mpr ⟨⟨p, hp⟩, List.mem_attach _ _, rfl⟩)
  · intro h x hx
    obtain ⟨p, _, rfl⟩ := List.mem_map.mp hx
    exact h p.1 p.2

theorem eqEntries_true {E : Env} {b : Obj} (l : List (Obj × Obj)) :
    eqAll (l.map fun p => match b.mapGet E p.1 with
      | none => some false
      | some y => reflectEq E p.2 y) = some true ↔
    ∀ p ∈ l, ∃ y, b.mapGet E p.1 = some y ∧ reflectEq E p.2 y = some true := by
  rw [eqAll_true]
  simp only [List.mem_map, forall_exists_index, and_imp, forall_apply_eq_imp_iff₂]
  refine forall_congr' fun p => forall_congr' fun _ => ?_
  cases b.mapGet E p.1 <;> simp

theorem kind_cases (b : Obj) : b.kind = .opaque ↔ b.isHidden = true := by
  cases b <;> simp [Obj.kind, Obj.isHidden]

theorem asScalar_some {b : Obj} (h : b.kind = .scalar) : ∃ s, b.asScalar = some s := by
  cases b <;> simp [Obj.kind] at h <;> simp [Obj.asScalar]

theorem asScalar_none {b : Obj} (h : b.kind ≠ .scalar) : b.asScalar = none := by
  cases b <;> simp [Obj.kind] at h <;> simp [Obj.asScalar]

theorem scalar_kind {b : Obj} {s : Scalar} (h : b.asScalar = some s) : b.kind = .scalar := by
  cases b <;> simp [Obj.asScalar] at h <;> rfl

theorem scalar_facts {b : Obj} (h : b.kind = .scalar) :
    b.variantName = none ∧ b.variantKind = none ∧ b.fieldsLen = 0 := by
  cases b <;> simp [Obj.kind] at h <;> exact ⟨rfl, rfl, rfl⟩

theorem scalar_nil {b : Obj} (h : b.kind = .scalar) :
    b.namedIter = [] ∧ b.posIter = [] ∧ b.entries = [] := by
  cases b <;> simp [Obj.kind] at h <;> exact ⟨rfl, rfl, rfl⟩

theorem nonenum_facts {b : Obj} (h : b.kind ≠ .enum) :
    b.variantName = none ∧ b.variantKind = none := by
  cases b <;> simp [Obj.kind] at h <;> exact ⟨rfl, rfl⟩

theorem pos_nil {b : Obj} (h : b.variantKind = some .struct) : b.posIter = [] := by
  cases b <;> simp [Obj.variantKind] at h <;> rfl

theorem reflectEq_iff {E : Env} (a b : Obj) :
    reflectEq E a b = some true ↔ EqBody E (fun x y => reflectEq E x y = some true) a b := by
  have nonScalar : ∀ {c : Obj}, c.kind ≠ .scalar → ∀ s s', c.asScalar = some s →
      b.asScalar = some s' → s.eqv s' = true := by
    intro c h s s' hs _
    rw [asScalar_none h] at hs; cases hs
  have off : ∀ {k : Kind} {o : Option Bool}, (if b.kind = k then o else
      if b.kind = .opaque then none else some false) = some true ↔ b.kind = k ∧ o = some true := by
    intro k o
    by_cases h : b.kind = k
    · simp [h]
    · rw [if_neg h]
      refine ⟨fun hh => ?_, fun hh => absurd hh.1 h⟩
      split at hh <;> cases hh
  have ne : ∀ {k : Kind}, k ≠ .enum → b.kind = k → b.variantName = none ∧ b.variantKind = none :=
    fun h hb => nonenum_facts (hb ▸ h)
  have sc : ∀ {c : Obj} {s : Scalar}, c.asScalar = some s → c.kind = .scalar →
      ((match b.asScalar with
        | some s' => some (s.eqv s')
        | none => if b.kind = .opaque then none else some false) = some true ↔
      EqBody E (fun x y => reflectEq E x y = some true) c b) := by
    intro c s hs hc
    constructor
    · intro h
      split at h
      · next s' hs' =>
        have hb := scalar_kind hs'
        obtain ⟨c1, c2, c3⟩ := scalar_facts hc
        obtain ⟨b1, b2, b3⟩ := scalar_facts hb
        refine ⟨by rw [hc, hb], by rw [hc]; decide, by rw [c1, b1], by rw [c2, b2], by rw [c3, b3], ?_, ?_,
          ?_, ?_⟩
        · intro t t' ht ht'
          rw [hs] at ht; rw [hs'] at ht'
          cases ht; cases ht'; simpa using h
        · simp [(scalar_nil hc).1]
        · simp [(scalar_nil hc).2.1]
        · simp [(scalar_nil hc).2.2]
      · split at h <;> simp at h
    · intro h
      obtain ⟨s', hs'⟩ := asScalar_some (h.kind ▸ hc)
      rw [hs']
      simpa using h.scalar s s' hs hs'
  cases a with
  | hidden d =>
    rw [reflectEq]
    simp only [reduceCtorEq, false_iff]
    exact fun h => h.shown rfl
  | scalar s => rw [reflectEq]; exact sc rfl rfl
  | nonzero k n => rw [reflectEq]; exact sc rfl rfl
  | struct tag fs =>
    rw [reflectEq, off]
    constructor
    · rintro ⟨hk, h⟩
      split at h
      · next hl =>
        replace h := (eqNamed_true _).mp h
        obtain ⟨n1, n2⟩ := ne (by simp) hk
        exact ⟨by rw [hk]; rfl, by simp [Obj.kind], by rw [n1]; rfl, by rw [n2]; rfl, hl,
          nonScalar (by simp [Obj.kind]), h, by simp [Obj.posIter], by simp [Obj.entries]⟩
      · simp at h
    · intro h
      refine ⟨h.kind.symm, ?_⟩
      rw [if_pos h.len]
      exact (eqNamed_true _).mpr h.named
  | tupleStruct tag fs =>
    rw [reflectEq, off]
    constructor
    · rintro ⟨hk, h⟩
      split at h
      · next hl =>
        replace h := (eqZip_true _ _).mp h
        obtain ⟨n1, n2⟩ := ne (by simp) hk
        exact ⟨by rw [hk]; rfl, by simp [Obj.kind], by rw [n1]; rfl, by rw [n2]; rfl, hl,
          nonScalar (by simp [Obj.kind]), by simp [Obj.namedIter], h, by simp [Obj.entries]⟩
      · simp at h
    · intro h
      refine ⟨h.kind.symm, ?_⟩
      rw [if_pos h.len]
      exact (eqZip_true _ _).mpr h.pos
  | tuple tag fs =>
    rw [reflectEq, off]
    constructor
    · rintro ⟨hk, h⟩
      split at h
      · next hl =>
        replace h := (eqZip_true _ _).mp h
        obtain ⟨n1, n2⟩ := ne (by simp) hk
        exact ⟨by rw [hk]; rfl, by simp [Obj.kind], by rw [n1]; rfl, by rw [n2]; rfl, hl,
          nonScalar (by simp [Obj.kind]), by simp [Obj.namedIter], h, by simp [Obj.entries]⟩
      · simp at h
    · intro h
      refine ⟨h.kind.symm, ?_⟩
      rw [if_pos h.len]
      exact (eqZip_true _ _).mpr h.pos
  | vec t fs =>
    rw [reflectEq, off]
    constructor
    · rintro ⟨hk, h⟩
      split at h
      · next hl =>
        replace h := (eqZip_true _ _).mp h
        obtain ⟨n1, n2⟩ := ne (by simp) hk
        exact ⟨by rw [hk]; rfl, by simp [Obj.kind], by rw [n1]; rfl, by rw [n2]; rfl, hl,
          nonScalar (by simp [Obj.kind]), by simp [Obj.namedIter], h, by simp [Obj.entries]⟩
      · simp at h
    · intro h
      refine ⟨h.kind.symm, ?_⟩
      rw [if_pos (by exact h.len)]
      exact (eqZip_true _ _).mpr h.pos
  | array t fs =>
    rw [reflectEq, off]
    constructor
    · rintro ⟨hk, h⟩
      split at h
      · next hl =>
        replace h := (eqZip_true _ _).mp h
        obtain ⟨n1, n2⟩ := ne (by simp) hk
        exact ⟨by rw [hk]; rfl, by simp [Obj.kind], by rw [n1]; rfl, by rw [n2]; rfl, hl,
          nonScalar (by simp [Obj.kind]), by simp [Obj.namedIter], h, by simp [Obj.entries]⟩
      · simp at h
    · intro h
      refine ⟨h.kind.symm, ?_⟩
      rw [if_pos (by exact h.len)]
      exact (eqZip_true _ _).mpr h.pos
  | map kt vt kvs =>
    rw [reflectEq, off]
    constructor
    · rintro ⟨hk, h⟩
      split at h
      · next hl =>
        replace h := (eqEntries_true _).mp h
        obtain ⟨n1, n2⟩ := ne (by simp) hk
        exact ⟨by rw [hk]; rfl, by simp [Obj.kind], by rw [n1]; rfl, by rw [n2]; rfl, hl,
          nonScalar (by simp [Obj.kind]), by simp [Obj.namedIter], by simp [Obj.posIter], h⟩
      · simp at h
    · intro h
      refine ⟨h.kind.symm, ?_⟩
      rw [if_pos (by exact h.len)]
      exact (eqEntries_true _).mpr h.entries
  | enumS tag vn fs =>
    rw [reflectEq, off]
    constructor
    · rintro ⟨hk, h⟩
      split at h
      · next hl =>
        split at h
        · next hvk =>
          replace h := (eqNamed_true _).mp h
          exact ⟨by rw [hk]; rfl, by simp [Obj.kind], hl.1.symm, hvk.symm, hl.2,
            nonScalar (by simp [Obj.kind]), h, by simp [Obj.posIter], by simp [Obj.entries]⟩
        · simp at h
      · simp at h
    · intro h
      refine ⟨h.kind.symm, ?_⟩
      rw [if_pos ⟨h.vname.symm, h.len⟩, if_pos (by exact h.vkind.symm)]
      exact (eqNamed_true _).mpr h.named
  | enumT tag vn fs =>
    rw [reflectEq, off]
    constructor
    · rintro ⟨hk, h⟩
      split at h
      · next hl =>
        split at h
        · next hvk =>
          replace h := (eqZip_true _ _).mp h
          exact ⟨by rw [hk]; rfl, by simp [Obj.kind], hl.1.symm, hvk.symm, hl.2,
            nonScalar (by simp [Obj.kind]), by simp [Obj.namedIter], h, by simp [Obj.entries]⟩
        · simp at h
      · simp at h
    · intro h
      refine ⟨h.kind.symm, ?_⟩
      rw [if_pos ⟨h.vname.symm, h.len⟩, if_pos (by exact h.vkind.symm)]
      exact (eqZip_true _ _).mpr h.pos
  | enumU tag vn =>
    rw [reflectEq, off]
    constructor
    · rintro ⟨hk, h⟩
      split at h
      · next hl =>
        have hvk : b.variantKind = some .unit := by simpa using h
        exact ⟨by rw [hk]; rfl, by simp [Obj.kind], hl.1.symm, hvk.symm, hl.2,
          nonScalar (by simp [Obj.kind]), by simp [Obj.namedIter], by simp [Obj.posIter],
          by simp [Obj.entries]⟩
      · simp at h
    · intro h
      refine ⟨h.kind.symm, ?_⟩
      rw [if_pos ⟨h.vname.symm, h.len⟩]
      rw [decide_eq_true (by exact h.vkind.symm)]

/-! ## Totality -/

theorem OK_mapGet {E : Env} {b key y : Obj} (hb : b.OK E) (h : b.mapGet E key = some y) : y.OK E := by
  cases b <;> simp only [Obj.mapGet, reduceCtorEq] at h
  obtain ⟨k, _, h⟩ := Option.bind_eq_some_iff.mp h
  obtain ⟨k', hm, _⟩ := bmGet_mem h
  exact (map_entry_ok hb hm).2

theorem reflectEq_total {E : Env} {a : Obj} (ha : a.OK E) : ∀ {b : Obj}, b.OK E →
    (reflectEq E a b).isSome = true := by
  induction a using Obj.ind with
  | h a ih =>
    intro b hb
    have hop : b.kind ≠ .opaque := fun h => by
      have := (kind_cases b).mp h; rw [hb.not_hidden] at this; cases this
    have named : ∀ {l : List (String × Obj)}, (∀ p ∈ l, p.2.OK E ∧ sizeOf p.2 < sizeOf a) →
        (eqAll (l.attach.map fun p => match b.field p.1.1 with
          | none => some false
          | some y => reflectEq E p.1.2 y)).isSome = true := by
      intro l h
      apply eqAll_isSome
      intro x hx
      obtain ⟨p, _, rfl⟩ := List.mem_map.mp hx
      have := h p.1 p.2
      cases hf : b.field p.1.1 with
      | none => rfl
      | some y => exact ih _ this.2 this.1 (OK_field hb hf)
    have zip : ∀ {xs : List Obj}, (∀ x ∈ xs, x.OK E ∧ sizeOf x < sizeOf a) →
        (eqAll ((xs.zip b.posIter).attach.map fun p => reflectEq E p.1.1 p.1.2)).isSome = true := by
      intro xs h
      apply eqAll_isSome
      intro x hx
      obtain ⟨p, _, rfl⟩ := List.mem_map.mp hx
      have hz := List.of_mem_zip (a := p.1.1) (b := p.1.2) p.2
      have := h _ hz.1
      exact ih _ this.2 this.1 (OK_posIter hb hz.2)
    have nI : ∀ p ∈ a.namedIter, p.2.OK E ∧ sizeOf p.2 < sizeOf a := fun p hp =>
      ⟨OK_namedIter ha hp, Obj.namedIter_size hp⟩
    have pI : ∀ x ∈ a.posIter, x.OK E ∧ sizeOf x < sizeOf a := by
      intro x hx
      refine ⟨OK_posIter ha hx, ?_⟩
      cases a <;> simp only [Obj.posIter, List.not_mem_nil] at hx
      case vec => have := List.sizeOf_lt_of_mem hx; simp; omega
      case array => have := List.sizeOf_lt_of_mem hx; simp; omega
      all_goals
        have := List.sizeOf_lt_of_mem ((List.takeWhile_prefix _).subset hx); simp; omega
    cases a with
    | hidden d => have := ha.not_hidden; simp [Obj.isHidden] at this
    | scalar s => rw [reflectEq]; split <;> simp [hop]
    | nonzero k n => rw [reflectEq]; split <;> simp [hop]
    | struct tag fs =>
      rw [reflectEq]; split
      · split
        · exact named nI
        · rfl
      · simp [hop]
    | tupleStruct tag fs =>
      rw [reflectEq]; split
      · split
        · exact zip pI
        · rfl
      · simp [hop]
    | tuple tag fs =>
      rw [reflectEq]; split
      · split
        · exact zip pI
        · rfl
      · simp [hop]
    | vec t fs =>
      rw [reflectEq]; split
      · split
        · exact zip pI
        · rfl
      · simp [hop]
    | array t fs =>
      rw [reflectEq]; split
      · split
        · exact zip pI
        · rfl
      · simp [hop]
    | enumS tag vn fs =>
      rw [reflectEq]; split
      · split
        · split
          · exact named nI
          · rfl
        · rfl
      · simp [hop]
    | enumT tag vn fs =>
      rw [reflectEq]; split
      · split
        · split
          · exact zip pI
          · rfl
        · rfl
      · simp [hop]
    | enumU tag vn =>
      rw [reflectEq]; split
      · split <;> rfl
      · simp [hop]
    | map kt vt kvs =>
      rw [reflectEq]; split
      · split
        · apply eqAll_isSome
          intro x hx
          obtain ⟨p, hp, rfl⟩ := List.mem_map.mp hx
          have hs := sizeOf_snd_lt_of_mem hp
          cases hf : b.mapGet E p.1 with
          | none => rfl
          | some y =>
            exact ih p.2 (by simp; omega) (map_entry_ok ha hp).2 (OK_mapGet hb hf)
        · rfl
      · simp [hop]

/-! ## Scalars -/

theorem Scalar.eqv_symm {s t : Scalar} (h : s.eqv t = true) : t.eqv s = true := by
  cases s <;> cases t <;> simp_all [Scalar.eqv, f32Eq, f64Eq]

theorem Scalar.eqv_trans {s t u : Scalar} (h : s.eqv t = true) (h' : t.eqv u = true) :
    s.eqv u = true := by
  cases s <;> cases t <;> simp [Scalar.eqv, f32Eq, f64Eq] at h <;> cases u <;>
    simp_all [Scalar.eqv, f32Eq, f64Eq]

theorem Scalar.eqv_refl {s : Scalar} (h : s.isNaN = false) : s.eqv s = true := by
  cases s <;> simp_all [Scalar.eqv, f32Eq, f64Eq, Scalar.isNaN]

/-! ## Objects whose iterators reach everything -/

/-- `fields()` yields every field that `field` finds, each once, as many as `fields_len` says. -/
structure Obj.Regular (o : Obj) : Prop where
  nodup : (o.namedIter.map (·.1)).Nodup
  field_iff : ∀ n x, o.field n = some x ↔ (n, x) ∈ o.namedIter
  named_len : o.kind = .struct ∨ o.variantKind = some .struct → o.namedIter.length = o.fieldsLen
  pos_len : o.posIter ≠ [] ∨ o.kind = .tupleStruct ∨ o.kind = .tuple ∨ o.kind = .list ∨
    o.kind = .array ∨ o.variantKind = some .tuple → o.posIter.length = o.fieldsLen

theorem takeWhile_eq_filter {α} {q : α → Bool} {l : List α}
    (h : ∀ (i j : Nat) x y, l[i]? = some x → l[j]? = some y → q x = false → q y = true → j < i) :
    l.takeWhile q = l.filter q := by
  induction l with
  | nil => rfl
  | cons a r ih =>
    cases ha : q a with
    | true =>
      rw [List.takeWhile_cons_of_pos ha, List.filter_cons_of_pos ha]
      congr 1
      apply ih
      intro i j x y hi hj hx hy
      have := h (i + 1) (j + 1) x y (by simpa using hi) (by simpa using hj) hx hy
      omega
    | false =>
      rw [List.takeWhile_cons_of_neg (by simp [ha]), List.filter_cons_of_neg (by simp [ha])]
      symm
      rw [List.filter_eq_nil_iff]
      intro y hy hq
      obtain ⟨j, hj⟩ := List.getElem?_of_mem hy
      have := h 0 (j + 1) a y rfl (by simpa using hj) ha hq
      omega

theorem HiddenLast.takeWhile {fs : List Obj} (h : HiddenLast fs) :
    fs.takeWhile (fun x => !x.isHidden) = fs.filter fun x => !x.isHidden :=
  takeWhile_eq_filter fun i j x y hi hj hx hy =>
    h i j x y hi hj (by simpa using hx) (by simpa using hy)

theorem lookup_iff {α} {l : List (String × α)} (h : (l.map (·.1)).Nodup) {n : String} {x : α} :
    lookup n l = some x ↔ (n, x) ∈ l :=
  ⟨lookup_mem, lookup_of_mem_nodup h⟩

theorem mem_dynIter {fs : List (String × Obj)} {ns : List String}
    (h : ∀ n ∈ ns, n ∈ fs.map (·.1)) {n : String} {x : Obj} :
    (n, x) ∈ dynIter fs ns ↔ n ∈ ns ∧ lookup n fs = some x := by
  induction ns with
  | nil => simp [dynIter]
  | cons m ns ih =>
    have ih := ih fun n hn => h n (by simp [hn])
    simp only [dynIter]
    cases hl : lookup m fs with
    | none => exact absurd (h m (by simp)) (lookup_none_iff.mp hl)
    | some y =>
      simp only [List.mem_cons, Prod.mk.injEq, ih]
      constructor
      · rintro (⟨rfl, rfl⟩ | ⟨h1, h2⟩)
        · exact ⟨.inl rfl, hl⟩
        · exact ⟨.inr h1, h2⟩
      · rintro ⟨rfl | h1, h2⟩
        · rw [hl] at h2; cases h2; exact .inl ⟨rfl, rfl⟩
        · exact .inr ⟨h1, h2⟩

theorem visFields_nodup {fs : List (String × Obj)} (h : (fs.map (·.1)).Nodup) :
    ((visFields fs).map (·.1)).Nodup :=
  h.sublist (List.filter_sublist.map _)

theorem visFields_all {fs : List (String × Obj)} (h : ∀ p ∈ fs, p.2.isHidden = false) :
    visFields fs = fs := by
  rw [visFields, List.filter_eq_self]
  intro p hp; simp [h p hp]

theorem dynIter_regular {fs : List (String × Obj)} {ns : List String} (hn : ns.Nodup)
    (h : ∀ n, n ∈ ns ↔ n ∈ fs.map (·.1)) (hv : ∀ p ∈ fs, p.2.isHidden = false) :
    ((dynIter fs ns).map (·.1)).Nodup ∧
    (∀ n x, lookup n (visFields fs) = some x ↔ (n, x) ∈ dynIter fs ns) ∧
    (dynIter fs ns).length = ns.length := by
  have h' : ∀ n ∈ ns, n ∈ fs.map (·.1) := fun n hn => (h n).mp hn
  refine ⟨by rw [dynIter_names h']; exact hn, ?_, ?_⟩
  · intro n x
    rw [visFields_all hv, mem_dynIter h']
    refine ⟨fun hl => ⟨(h n).mpr ?_, hl⟩, fun hl => hl.2⟩
    exact List.mem_map.mpr ⟨_, lookup_mem hl, rfl⟩
  · have := congrArg List.length (dynIter_names h')
    simpa using this

/-- Entries of dynamic records are exactly the listed names. -/
theorem OK.dyn_names {E : Env} (hO : OrdLaws E) {o : Obj} (h : o.OK E) :
    (∀ ns fs, o = .struct (.dyn ns) fs → ∀ n, n ∈ ns ↔ n ∈ fs.map (·.1)) ∧
    (∀ ns v fs, o = .enumS (.dyn ns) v fs → ∀ n, n ∈ ns ↔ n ∈ fs.map (·.1)) := by
  have toObjKeys : ∀ fs : List (String × Value),
      (fs.map fun p => (p.1, p.2.toObj)).map (·.1) = fs.map (·.1) := by
    intro fs; simp [Function.comp_def]
  constructor
  · rintro ns fs rfl
    cases OK.typed hO h rfl with
    | structValue ns' fs' _ hw ho =>
      rw [Value.toObj] at ho; cases ho
      cases hw with
      | struct _ _ h _ _ => rw [toObjKeys]; exact h
  · rintro ns v fs rfl
    cases OK.typed hO h rfl with
    | enumValueS v ns' fs' _ hw ho =>
      rw [Value.toObj] at ho; cases ho
      cases hw with
      | enumS _ _ _ h _ _ => rw [toObjKeys]; exact h
    | enumValueT v fs' _ hw ho => rw [Value.toObj] at ho; cases ho
    | enumValueU v _ ho => rw [Value.toObj] at ho; cases ho

theorem OK.namedHiddenLast {E : Env} (hO : OrdLaws E) (hS : SkipsLastAll E) {n vn : String}
    {fs : List (String × Obj)} (h : (Obj.enumS (.derived n) vn fs).OK E) :
    fs.takeWhile (fun p => !p.2.isHidden) = visFields fs := by
  cases OK.typed hO h rfl with
  | enumS _ vds c _ fds _ hd hv h2 h3 h4 =>
    apply takeWhile_eq_filter
    intro i j x y hi hj hx hy
    have al : ∀ {i : Nat} {p : String × Obj}, fs[i]? = some p → ∃ fd, fds[i]? = some fd := by
      intro i p hp
      have hl := congrArg List.length h2
      simp only [List.length_map] at hl
      have := (List.getElem?_eq_some_iff.mp hp).1
      exact ⟨_, List.getElem?_eq_getElem (hl ▸ this)⟩
    obtain ⟨fi, hfi⟩ := al hi
    obtain ⟨fj, hfj⟩ := al hj
    refine hS.2 n vds c vn fds hd hv i j fi fj hfi hfj ?_ ?_
    · cases hsk : fi.skip with
      | true => rfl
      | false => simp [(h4 i fi x hfi hi hsk).not_hidden] at hx
    · cases hsk : fj.skip with
      | false => rfl
      | true => simp [h3 j fj y hfj hj hsk] at hy

theorem regular {E : Env} (hD : DeclsOK E) (hO : OrdLaws E) (hS : SkipsLastAll E) {o : Obj}
    (h : o.OK E) (hn : o.NamesNodup) : o.Regular := by
  have nn := OK.named_nodup hD hO h
  have hl := OK.hiddenLast hO hS.1 h
  have dn := OK.dyn_names hO h
  have hv := h.dynVis
  have hh := hn.here
  have noNamed : ∀ {o : Obj}, o.namedIter = [] → (∀ n, o.field n = none) → o.kind ≠ .struct →
      o.variantKind ≠ some .struct → o.posIter.length = o.fieldsLen → o.Regular := by
    intro o h1 h2 h3 h4 h5
    exact ⟨by simp [h1], by simp [h1, h2], by rintro (h | h); exacts [absurd h h3, absurd h h4],
      fun _ => h5⟩
  have noPos : ∀ {o : Obj}, o.posIter = [] → (o.kind = .map ∨ o.kind = .scalar ∨ o.kind = .opaque) →
      o.Regular := by
    intro o h1 h2
    cases o <;> simp [Obj.kind] at h2 <;>
      exact ⟨by simp [Obj.namedIter], by simp [Obj.namedIter, Obj.field],
        by simp [Obj.kind, Obj.variantKind], by simp [Obj.kind, Obj.variantKind, Obj.posIter]⟩
  cases o with
  | hidden d => exact noPos rfl (.inr (.inr rfl))
  | scalar s => exact noPos rfl (.inr (.inl rfl))
  | nonzero k n => exact noPos rfl (.inr (.inl rfl))
  | map kt vt kvs => exact noPos rfl (.inl rfl)
  | struct tag fs =>
    cases tag with
    | derived n =>
      have nd := visFields_nodup (nn.1 _ _ rfl)
      exact ⟨nd, fun n x => lookup_iff nd, fun _ => rfl,
        by simp [Obj.kind, Obj.variantKind, Obj.posIter]⟩
    | dyn ns =>
      obtain ⟨h1, h2, h3⟩ := dynIter_regular (hh.1 _ _ rfl) (dn.1 _ _ rfl) hv
      exact ⟨h1, h2, fun _ => h3, by simp [Obj.kind, Obj.variantKind, Obj.posIter]⟩
  | enumS tag v fs =>
    cases tag with
    | derived n =>
      have nd := visFields_nodup (nn.2 _ _ _ rfl)
      have e : (Obj.enumS (.derived n) v fs).namedIter = visFields fs :=
        OK.namedHiddenLast hO hS h
      exact ⟨by rw [e]; exact nd, fun n x => by rw [e]; exact lookup_iff nd,
        fun _ => by rw [e]; rfl, by simp [Obj.kind, Obj.variantKind, Obj.posIter]⟩
    | dyn ns =>
      obtain ⟨h1, h2, h3⟩ := dynIter_regular (hh.2 _ _ _ rfl) (dn.2 _ _ _ rfl) hv
      exact ⟨h1, h2, fun _ => h3, by simp [Obj.kind, Obj.variantKind, Obj.posIter]⟩
  | enumU tag v => exact noNamed rfl (fun _ => rfl) (by simp [Obj.kind]) (by simp [Obj.variantKind]) rfl
  | vec t xs => exact noNamed rfl (fun _ => rfl) (by simp [Obj.kind]) (by simp [Obj.variantKind]) rfl
  | array t xs => exact noNamed rfl (fun _ => rfl) (by simp [Obj.kind]) (by simp [Obj.variantKind]) rfl
  | tupleStruct tag fs =>
    exact noNamed rfl (fun _ => rfl) (by simp [Obj.kind]) (by simp [Obj.variantKind])
      (congrArg List.length (hl.1 _ _ rfl).takeWhile)
  | tuple tag fs =>
    exact noNamed rfl (fun _ => rfl) (by simp [Obj.kind]) (by simp [Obj.variantKind])
      (congrArg List.length (hl.2.1 _ _ rfl).takeWhile)
  | enumT tag v fs =>
    exact noNamed rfl (fun _ => rfl) (by simp [Obj.kind]) (by simp [Obj.variantKind])
      (congrArg List.length (hl.2.2 _ _ _ rfl).takeWhile)

/-! ## Map lookups -/

theorem bmGet_iff {κ α : Type} {P : κ → Prop} {cmp : κ → κ → Ordering} (hc : CmpOn P cmp)
    {l : List (κ × α)} (hl : ∀ p ∈ l, P p.1) (hs : BMSorted cmp l) {k : κ} (hk : P k) {v : α} :
    bmGet cmp k l = some v ↔ ∃ k', (k', v) ∈ l ∧ cmp k k' = .eq := by
  refine ⟨bmGet_mem, ?_⟩
  rintro ⟨k', hm, he⟩
  induction l with
  | nil => simp at hm
  | cons p r ih =>
    obtain ⟨k₀, v₀⟩ := p
    obtain ⟨h1, h2⟩ := List.pairwise_cons.mp hs
    simp only [bmGet]
    rcases List.mem_cons.mp hm with hp | hm'
    · cases hp; rw [if_pos he]
    · have hne : cmp k k₀ ≠ .eq := by
        intro h
        have := h1 _ hm'
        have e := hc.eq_trans k k₀ k' hk (hl _ List.mem_cons_self) (hl _ hm) h
        rw [he, this] at e; cases e
      rw [if_neg hne]
      exact ih (fun p hp => hl p (by simp [hp])) h2 hm'

theorem OK.map_inv {E : Env} (hO : OrdLaws E) {kt vt : Ty} {kvs : List (Obj × Obj)}
    (h : (Obj.map kt vt kvs).OK E) : BMSorted (E.kcmp kt) kvs ∧ (∀ p ∈ kvs, HasTy E kt p.1) ∧
      ∀ p ∈ kvs, HasTy E vt p.2 := by
  cases OK.typed hO h rfl with
  | map _ _ _ h1 h2 h3 => exact ⟨h1, h2, h3⟩

theorem mapGet_iff {E : Env} (hO : OrdLaws E) {kt vt : Ty} {kvs : List (Obj × Obj)}
    (h : (Obj.map kt vt kvs).OK E) {key y : Obj} (hk : key.OK E) :
    (Obj.map kt vt kvs).mapGet E key = some y ↔
      ∃ k, (k, y) ∈ kvs ∧ ∃ k', fromReflect E kt key = some k' ∧ E.kcmp kt k' k = .eq := by
  obtain ⟨h1, h2, h3⟩ := OK.map_inv hO h
  rw [Obj.mapGet, Option.bind_eq_some_iff]
  constructor
  · rintro ⟨k', hk', hg⟩
    obtain ⟨k, hm, he⟩ := bmGet_mem hg
    exact ⟨k, hm, k', hk', he⟩
  · rintro ⟨k, hm, k', hk', he⟩
    exact ⟨k', hk', (bmGet_iff (hO.cmpOn kt) h2 h1 (fromReflect_sound hO kt key hk hk')).mpr
      ⟨k, hm, he⟩⟩

theorem mapGet_value {E : Env} (hO : OrdLaws E) {K : Ty → Prop} (hV : KeysByValue E K) {kt vt : Ty}
    {kvs : List (Obj × Obj)} (h : (Obj.map kt vt kvs).OK E) (hK : K kt) {u : Ty} {key y : Obj}
    (hu : K u) (hk : HasTy E u key) :
    (Obj.map kt vt kvs).mapGet E key = some y ↔
      ∃ k, (k, y) ∈ kvs ∧ Value.cmp key.toValue k.toValue = .eq := by
  obtain ⟨h1, h2, h3⟩ := OK.map_inv hO h
  rw [mapGet_iff hO h ⟨u, hk⟩]
  constructor
  · rintro ⟨k, hm, hk'⟩
    exact ⟨k, hm, (hV kt u k key hK hu (h2 _ hm) hk).mp hk'⟩
  · rintro ⟨k, hm, he⟩
    exact ⟨k, hm, (hV kt u k key hK hu (h2 _ hm) hk).mpr he⟩

/-- Two lists of the same length without repetitions, each entry of the first related to some entry
of the second, injectively: then every entry of the second is related to one of the first. -/
theorem pigeonhole {α β : Type} {l : List α} {m : List β} (hl : l.length = m.length)
    {R : α → β → Prop} (h : ∀ x ∈ l, ∃ y ∈ m, R x y)
    (inj : ∀ (i j : Nat) x x' y, l[i]? = some x → l[j]? = some x' → y ∈ m → R x y → R x' y → i = j) :
    ∀ y ∈ m, ∃ x ∈ l, R x y := by
  have h' : ∀ i : Fin l.length, ∃ j : Fin l.length, R l[i] (m[j]'(hl ▸ j.2)) := by
    intro i
    obtain ⟨y, hy, hR⟩ := h l[i] (List.getElem_mem _)
    obtain ⟨j, hj, rfl⟩ := List.getElem_of_mem hy
    exact ⟨⟨j, hl ▸ hj⟩, hR⟩
  choose f hf using h'
  have finj : Function.Injective f := by
    intro i j hij
    have hi := hf i
    have hj := hf j
    rw [← hij] at hj
    have := inj i j _ _ _ (List.getElem?_eq_getElem i.2) (List.getElem?_eq_getElem j.2)
      (List.getElem_mem _) hi hj
    exact Fin.ext this
  have fsurj := Finite.injective_iff_surjective.mp finj
  intro y hy
  obtain ⟨j, hj, rfl⟩ := List.getElem_of_mem hy
  obtain ⟨i, hi⟩ := fsurj ⟨j, hl ▸ hj⟩
  refine ⟨l[i], List.getElem_mem _, ?_⟩
  have := hf i
  simpa [hi] using this

/-! ## Symmetry -/

/-- The assumptions under which `reflect_eq` behaves like an equivalence relation. -/
structure Fine (E : Env) (K : Ty → Prop) (o : Obj) : Prop where
  ok : o.OK E
  names : o.NamesNodup
  keys : o.KeyTypes K

theorem Fine.parts {E : Env} {K : Ty → Prop} {o x : Obj} (h : Fine E K o) (hx : x ∈ o.parts) :
    Fine E K x :=
  ⟨h.ok.parts hx, h.names.parts hx, h.keys.parts hx⟩

theorem named_isNamed {o : Obj} {p : String × Obj} (h : p ∈ o.namedIter) :
    o.kind = .struct ∨ o.variantKind = some .struct := by
  cases o <;> simp [Obj.namedIter] at h <;> simp [Obj.kind, Obj.variantKind]

theorem entries_isMap {o : Obj} {p : Obj × Obj} (h : p ∈ o.entries) :
    ∃ kt vt kvs, o = .map kt vt kvs := by
  cases o <;> simp [Obj.entries] at h
  exact ⟨_, _, _, rfl⟩

theorem kind_map {o : Obj} (h : o.kind = .map) : ∃ kt vt kvs, o = .map kt vt kvs := by
  cases o <;> simp [Obj.kind] at h
  exact ⟨_, _, _, rfl⟩

theorem Obj.mapGet_parts {E : Env} {o key y : Obj} (h : o.mapGet E key = some y) : y ∈ o.parts := by
  cases o <;> simp only [Obj.mapGet, reduceCtorEq] at h
  obtain ⟨k, _, h⟩ := Option.bind_eq_some_iff.mp h
  obtain ⟨k', hm, _⟩ := bmGet_mem h
  exact map_snd_parts hm _ _

theorem Obj.parts_size {o x : Obj} (h : x ∈ o.parts) : sizeOf x < sizeOf o := by
  cases o <;> simp only [Obj.parts, List.not_mem_nil] at h
  case struct tag fs =>
    obtain ⟨p, hp, rfl⟩ := List.mem_map.mp h
    have := sizeOf_snd_lt_of_mem (List.mem_filter.mp hp).1; simp; omega
  case enumS tag v fs =>
    obtain ⟨p, hp, rfl⟩ := List.mem_map.mp h
    have := sizeOf_snd_lt_of_mem (List.mem_filter.mp hp).1; simp; omega
  case vec => have := List.sizeOf_lt_of_mem h; simp; omega
  case array => have := List.sizeOf_lt_of_mem h; simp; omega
  case map =>
    rcases List.mem_append.mp h with h | h <;> obtain ⟨p, hp, rfl⟩ := List.mem_map.mp h
    · have := sizeOf_fst_lt_of_mem hp; simp; omega
    · have := sizeOf_snd_lt_of_mem hp; simp; omega
  all_goals
    have := List.sizeOf_lt_of_mem (List.mem_filter.mp h).1; simp; omega

theorem EqBody.symm {E : Env} (hD : DeclsOK E) (hO : OrdLaws E) (hS : SkipsLastAll E)
    {K : Ty → Prop} (hV : KeysByValue E K) {R R' : Obj → Obj → Prop} {a b : Obj}
    (ha : Fine E K a) (hb : Fine E K b)
    (hR : ∀ x ∈ a.parts, ∀ y ∈ b.parts, R x y → R' y x) (h : EqBody E R a b) : EqBody E R' b a := by
  have ra := regular hD hO hS ha.ok ha.names
  have rb := regular hD hO hS hb.ok hb.names
  refine ⟨h.kind.symm, h.kind ▸ h.shown, h.vname.symm, h.vkind.symm, h.len.symm,
    fun s s' hs hs' => Scalar.eqv_symm (h.scalar s' s hs' hs), ?_, ?_, ?_⟩
  · intro p hp
    have kb := named_isNamed hp
    have ka : a.kind = .struct ∨ a.variantKind = some .struct := by
      rw [h.kind, h.vkind]; exact kb
    obtain ⟨x, hx, hn, hRx⟩ := pigeonhole (l := a.namedIter) (m := b.namedIter)
      (R := fun x y => x.1 = y.1 ∧ R x.2 y.2)
      (by rw [ra.named_len ka, rb.named_len kb, h.len])
      (fun x hx => by
        obtain ⟨y, hy, hR⟩ := h.named x hx
        exact ⟨(x.1, y), (rb.field_iff _ _).mp hy, rfl, hR⟩)
      (fun i j x x' y hi hj _ h1 h2 => by
        have e : x.1 = x'.1 := h1.1.trans h2.1.symm
        have h1 : (a.namedIter.map (·.1))[i]? = some x.1 := by simp [hi]
        have h2 : (a.namedIter.map (·.1))[j]? = some x.1 := by simp [hj, e]
        obtain ⟨li, ei⟩ := List.getElem?_eq_some_iff.mp h1
        obtain ⟨lj, ej⟩ := List.getElem?_eq_some_iff.mp h2
        exact (List.Nodup.getElem_inj_iff ra.nodup).mp (ei.trans ej.symm)) p hp
    refine ⟨x.2, (ra.field_iff _ _).mpr (hn ▸ hx), hR _ ?_ _ ?_ hRx⟩
    · exact Obj.namedIter_parts ha.ok.dynVis hx
    · exact Obj.namedIter_parts hb.ok.dynVis hp
  · intro i x y hx hy
    exact hR _ (Obj.posIter_parts (List.mem_of_getElem? hy)) _
      (Obj.posIter_parts (List.mem_of_getElem? hx)) (h.pos i y x hy hx)
  · intro p hp
    obtain ⟨kt, vt, m, rfl⟩ := entries_isMap hp
    obtain ⟨kt', vt', l, rfl⟩ := kind_map (o := a) (by rw [h.kind]; rfl)
    have Ka := ha.keys.here _ _ _ rfl
    have Kb := hb.keys.here _ _ _ rfl
    obtain ⟨a1, a2, a3⟩ := OK.map_inv hO ha.ok
    obtain ⟨b1, b2, b3⟩ := OK.map_inv hO hb.ok
    obtain ⟨x, hx, hn, hRx⟩ := pigeonhole (l := l) (m := m)
      (R := fun x y => Value.cmp x.1.toValue y.1.toValue = .eq ∧ R x.2 y.2) h.len
      (fun x hx => by
        obtain ⟨y, hy, hR⟩ := h.entries x hx
        obtain ⟨k, hm, he⟩ := (mapGet_value hO hV hb.ok Kb Ka (a2 x hx)).mp hy
        exact ⟨(k, y), hm, he, hR⟩)
      (fun i j x x' y hi hj _ h1 h2 => by
        have hxm := List.mem_of_getElem? hi
        have hxm' := List.mem_of_getElem? hj
        have e : Value.cmp x.1.toValue x'.1.toValue = .eq := by
          rw [valueCmpOn.eq_trans _ _ x'.1.toValue trivial trivial trivial h1.1]
          exact valueCmpOn.eq_symm trivial trivial h2.1
        have g := (mapGet_value hO hV ha.ok Ka Ka (a2 _ hxm)).mpr ⟨x'.1, hxm', e⟩
        obtain ⟨k, hk, k', hk', ek⟩ := (mapGet_iff hO ha.ok ⟨_, a2 _ hxm⟩).mp g
        obtain ⟨k2, hk2, ek2⟩ := (hV _ _ _ _ Ka Ka (a2 _ hxm) (a2 _ hxm)).mpr (Value.cmp_self _)
        rw [hk'] at hk2; cases hk2
        have tk' := fromReflect_sound hO _ _ ⟨_, a2 _ hxm⟩ hk'
        obtain ⟨k3, hk3, ek3⟩ := (hV _ _ _ _ Ka Ka (a2 _ hxm') (a2 _ hxm)).mpr e
        rw [hk'] at hk3; cases hk3
        have : E.kcmp kt' x.1 x'.1 = .eq := by
          rw [(hO.cmpOn kt').eq_trans _ _ x'.1 (a2 _ hxm) tk' (a2 _ hxm')
            ((hO.cmpOn kt').eq_symm tk' (a2 _ hxm) ek2)]
          exact ek3
        obtain ⟨li, ei⟩ := List.getElem?_eq_some_iff.mp hi
        obtain ⟨lj, ej⟩ := List.getElem?_eq_some_iff.mp hj
        have pw := List.pairwise_iff_getElem.mp a1
        rcases Nat.lt_trichotomy i j with hlt | heq | hgt
        · have := pw i j li lj hlt
          simp_all
        · exact heq
        · have := pw j i lj li hgt
          have sw := (hO.cmpOn kt').eq_symm (a2 _ hxm) (a2 _ hxm') ‹E.kcmp kt' x.1 x'.1 = .eq›
          simp_all) p hp
    refine ⟨x.2, (mapGet_value hO hV ha.ok Ka Kb (b2 p hp)).mpr
      ⟨x.1, hx, valueCmpOn.eq_symm trivial trivial hn⟩, hR _ ?_ _ ?_ hRx⟩
    · exact map_snd_parts hx _ _
    · exact map_snd_parts hp _ _

theorem reflectEq_true_symm {E : Env} (hD : DeclsOK E) (hO : OrdLaws E) (hS : SkipsLastAll E)
    {K : Ty → Prop} (hV : KeysByValue E K) {a : Obj} : ∀ {b : Obj}, Fine E K a → Fine E K b →
    reflectEq E a b = some true → reflectEq E b a = some true := by
  induction a using Obj.ind with
  | h a ih =>
    intro b ha hb h
    rw [reflectEq_iff] at h ⊢
    refine h.symm hD hO hS hV ha hb ?_
    intro x hx y hy
    exact ih x (Obj.parts_size hx) (ha.parts hx) (hb.parts hy)

end Mirror
