import Verif.Lemmas.Containers
import Verif.Lemmas.Demo

set_option linter.unusedSimpArgs false

/-!
# C26: field iterators
-/

namespace Mirror

/-- The lists used elsewhere in the model are what repeated `next` calls yield. -/
theorem C26_model_lists (o : Obj) :
    (o.kind = .struct ∨ o.variantKind = some .struct →
      Yields FieldIter.nextNamed o.iter o.namedIter) ∧
    (o.kind = .tupleStruct ∨ o.kind = .tuple ∨ o.kind = .list ∨ o.kind = .array ∨
      o.variantKind = some .tuple → Yields FieldIter.nextPos o.iter o.posIter) :=
  ⟨nextNamed_yields, nextPos_yields⟩

theorem some_of_lt {α} {l : List α} {n k : Nat} (hl : l.length = k) (h : n < k) :
    ∃ x, l[n]? = some x := ⟨_, List.getElem?_eq_getElem (hl ▸ h)⟩

/-- C26 for structs (derived or `StructValue`): call number `n` of `next` yields the name and value
at index `n` while `n < fields_len`, and `None` from then on. -/
theorem C26_struct_fields (E : Env) (hO : OrdLaws E) (T : Ty) (x : Obj) (hx : HasTy E T x)
    (hk : x.kind = .struct) (n : Nat) :
    (n < x.fieldsLen → ∃ name y, x.nameAt n = some name ∧ x.fieldAt n = some y ∧
      nthNext FieldIter.nextNamed x.iter n = some (name, y)) ∧
    (x.fieldsLen ≤ n → nthNext FieldIter.nextNamed x.iter n = none) := by
  have hl := (named_length_iff hO ⟨T, hx⟩ (.inl hk)).1.mpr (by cases x <;> simp [Obj.kind] at hk; trivial)
  have hy := nextNamed_yields (.inl hk) n
  constructor
  · intro hn
    obtain ⟨p, hp⟩ := some_of_lt hl hn
    have := namedIter_at (.inl hk) (o := x) (i := n) (by omega)
    rw [hp] at this
    cases hnm : x.nameAt n <;> cases hf : x.fieldAt n <;> simp [hnm, hf] at this
    exact ⟨_, _, rfl, rfl, by rw [hy, hp, this]⟩
  · intro hn; rw [hy]; exact List.getElem?_eq_none (by omega)

/-- C26 for tuple structs, tuples, arrays and lists: call number `n` of `next` yields `field_at(n)`
(`get(n)`) while `n < fields_len`, and `None` from then on. Missing for the full property: tuple
structs with a skipped field before a reflected one, for which it fails, see `C26_every_field_iff`. -/
theorem C26_positional_fields_partial (x : Obj) (hg : x.GapFree)
    (hk : x.kind = .tupleStruct ∨ x.kind = .tuple ∨ x.kind = .list ∨ x.kind = .array) (n : Nat) :
    (n < x.fieldsLen → ∃ y, x.fieldAt n = some y ∧ nthNext FieldIter.nextPos x.iter n = some y) ∧
    (x.fieldsLen ≤ n → nthNext FieldIter.nextPos x.iter n = none) := by
  have hk' : x.kind = .tupleStruct ∨ x.kind = .tuple ∨ x.kind = .list ∨ x.kind = .array ∨
      x.variantKind = some .tuple := by
    rcases hk with h | h | h | h <;> simp [h]
  have hl := pos_length hg hk'
  have hy := nextPos_yields hk' n
  constructor
  · intro hn
    obtain ⟨y, hp⟩ := some_of_lt hl hn
    exact ⟨y, by rw [posIter_fieldAt hk' (by omega), hp], by rw [hy, hp]⟩
  · intro hn; rw [hy]; exact List.getElem?_eq_none (by omega)

/-- C26 for tuples, lists and arrays, without any condition on the declarations. -/
theorem C26_plain_positional (E : Env) (T : Ty) (x : Obj) (hx : HasTy E T x)
    (hk : x.kind = .tuple ∨ x.kind = .list ∨ x.kind = .array) (n : Nat) :
    (n < x.fieldsLen → ∃ y, x.fieldAt n = some y ∧ nthNext FieldIter.nextPos x.iter n = some y) ∧
    (x.fieldsLen ≤ n → nthNext FieldIter.nextPos x.iter n = none) := by
  have hk' : x.kind = .tupleStruct ∨ x.kind = .tuple ∨ x.kind = .list ∨ x.kind = .array ∨
      x.variantKind = some .tuple := by
    rcases hk with h | h | h <;> simp [h]
  have hl : x.posIter.length = x.fieldsLen := by
    cases x <;> simp [Obj.kind] at hk <;> simp only [Obj.posIter, Obj.fieldsLen]
    next tag fs =>
      have all : ∀ y ∈ fs, y.isHidden = false := tuple_visible hx
      exact congrArg List.length (hiddenLast_of_vis all).takeWhile
  have hy := nextPos_yields hk' n
  constructor
  · intro hn
    obtain ⟨y, hp⟩ := some_of_lt hl hn
    exact ⟨y, by rw [posIter_fieldAt hk' (by omega), hp], by rw [hy, hp]⟩
  · intro hn; rw [hy]; exact List.getElem?_eq_none (by omega)

/-- C26 for enums: call number `n` of `next` on the fields of the active variant. Missing for the full
property: variants with a skipped field before a reflected one, see `C26_every_field_iff`. -/
theorem C26_variant_fields_partial (E : Env) (hO : OrdLaws E) (T : Ty) (x : Obj)
    (hx : HasTy E T x) (hg : x.GapFree) (hk : x.kind = .enum) (n : Nat) :
    (n < x.fieldsLen → ∃ y, x.fieldAt n = some y ∧
      ((x.variantKind = some .struct ∧ ∃ name, x.nameAt n = some name ∧
          nthNext FieldIter.nextVariant x.iter n = some (.struct name y)) ∨
        (x.variantKind = some .tuple ∧ nthNext FieldIter.nextVariant x.iter n = some (.tuple y)))) ∧
    (x.fieldsLen ≤ n → nthNext FieldIter.nextVariant x.iter n = none) := by
  have hy := nextVariant_yields x n
  simp only [Obj.variantIter] at hy
  have hcases : x.variantKind = some .struct ∨ x.variantKind = some .tuple ∨
      (x.variantKind = some .unit ∧ x.fieldsLen = 0) := by
    cases x <;> simp [Obj.kind] at hk <;> simp [Obj.variantKind, Obj.fieldsLen]
  rcases hcases with h | h | ⟨h, h0⟩
  · simp only [h] at hy
    have hl := (named_length_iff hO ⟨T, hx⟩ (.inr h)).1.mpr hg
    constructor
    · intro hn
      obtain ⟨p, hp⟩ := some_of_lt hl hn
      have := namedIter_at (.inr h) (o := x) (i := n) (by omega)
      rw [hp] at this
      cases hnm : x.nameAt n <;> cases hf : x.fieldAt n <;> simp [hnm, hf] at this
      exact ⟨_, rfl, .inl ⟨h, _, rfl, by rw [hy, List.getElem?_map, hp, this]; rfl⟩⟩
    · intro hn; rw [hy]; exact List.getElem?_eq_none (by simp; omega)
  · simp only [h] at hy
    have hl := pos_length hg (by simp [h])
    constructor
    · intro hn
      obtain ⟨y, hp⟩ := some_of_lt hl hn
      exact ⟨y, by rw [posIter_fieldAt (by simp [h]) (by omega), hp],
        .inr ⟨h, by rw [hy, List.getElem?_map, hp]; rfl⟩⟩
    · intro hn; rw [hy]; exact List.getElem?_eq_none (by simp; omega)
  · simp only [h] at hy
    exact ⟨fun hn => by omega, fun _ => by simp [hy]⟩

/-- C26: every field of a derived struct is yielded, and by exactly one of the calls. -/
theorem C26_each_field_once (E : Env) (hD : DeclsOK E) (hO : OrdLaws E) (T : Ty) (n : String)
    (fs : List (String × Obj)) (hx : HasTy E T (.struct (.derived n) fs)) (name : String) (y : Obj)
    (hf : (Obj.struct (.derived n) fs).field name = some y) :
    ∃ i, ∀ j, nthNext FieldIter.nextNamed (Obj.struct (.derived n) fs).iter j = some (name, y) ↔
      j = i := by
  have nd : ((visFields fs).map (·.1)).Nodup := visFields_nodup ((OK.named_nodup hD hO ⟨T, hx⟩).1 _ _ rfl)
  have hm : (name, y) ∈ visFields fs := lookup_mem hf
  obtain ⟨i, hi⟩ := List.getElem?_of_mem hm
  have hy := fun j => nextNamed_yields (o := .struct (.derived n) fs) (.inl rfl) j
  refine ⟨i, fun j => ?_⟩
  rw [hy j]
  show (visFields fs)[j]? = _ ↔ _
  constructor
  · intro hj
    have h1 : ((visFields fs).map (·.1))[i]? = some name := by rw [List.getElem?_map, hi]; rfl
    have h2 : ((visFields fs).map (·.1))[j]? = some name := by rw [List.getElem?_map, hj]; rfl
    have li := (List.getElem?_eq_some_iff.mp h1).1
    have lj := (List.getElem?_eq_some_iff.mp h2).1
    exact (List.Nodup.getElem_inj_iff nd (hi := lj) (hj := li)).mp (by
      rw [(List.getElem?_eq_some_iff.mp h2).2, (List.getElem?_eq_some_iff.mp h1).2])
  · rintro rfl; exact hi

/-- C26 fails: the reported `len` never decreases, it is the total number of fields however many items
have been taken already. -/
theorem C26_len_is_total (o : Obj) (n : Nat) :
    (iterAfter FieldIter.nextNamed n o.iter).len = o.fieldsLen ∧
    (iterAfter FieldIter.nextPos n o.iter).len = o.fieldsLen := by
  have h1 : ∀ n (it : FieldIter), (iterAfter FieldIter.nextNamed n it).obj = it.obj := by
    intro n
    induction n with
    | zero => intro it; rfl
    | succ n ih =>
      intro it
      simp only [iterAfter, ih, FieldIter.nextNamed]
      split
      · rfl
      · split <;> rfl
  have h2 : ∀ n (it : FieldIter), (iterAfter FieldIter.nextPos n it).obj = it.obj := by
    intro n
    induction n with
    | zero => intro it; rfl
    | succ n ih =>
      intro it
      simp only [iterAfter, ih, FieldIter.nextPos]
      split <;> rfl
  simp only [FieldIter.len, h1, h2]
  exact ⟨rfl, rfl⟩

/-- C26 fails: as soon as one item of a struct has been taken, `len` is not the number of items that
remain (the number of further calls that yield something). -/
theorem C26_len_wrong (E : Env) (hO : OrdLaws E) (T : Ty) (x : Obj) (hx : HasTy E T x)
    (hk : x.kind = .struct) (n : Nat) (hn : 0 < n) (hl : n ≤ x.fieldsLen) :
    nthNext FieldIter.nextNamed (iterAfter FieldIter.nextNamed n x.iter)
      ((iterAfter FieldIter.nextNamed n x.iter).len - 1) = none := by
  rw [(C26_len_is_total x n).1]
  have : nthNext FieldIter.nextNamed (iterAfter FieldIter.nextNamed n x.iter) (x.fieldsLen - 1) =
      nthNext FieldIter.nextNamed x.iter (n + (x.fieldsLen - 1)) := by
    simp only [nthNext, iterAfter_add]
  rw [this]
  exact (C26_struct_fields E hO T x hx hk _).2 (by omega)

/-- C26 fails with gaps: if there is nothing at index `i` (a skipped field of a tuple struct or enum
variant), iteration yields nothing from call `i` on, whatever fields follow. -/
theorem C26_stops_at_gap (o : Obj) (i n : Nat)
    (hk : o.kind = .tupleStruct ∨ o.variantKind = some .tuple) (h : o.fieldAt i = none) (hn : i ≤ n) :
    nthNext FieldIter.nextPos o.iter n = none := by
  have hk' : o.kind = .tupleStruct ∨ o.kind = .tuple ∨ o.kind = .list ∨ o.kind = .array ∨
      o.variantKind = some .tuple := by rcases hk with h | h <;> simp [h]
  rw [nextPos_yields hk' n]
  apply List.getElem?_eq_none
  apply Decidable.byContradiction
  intro hlt
  have hi : i < o.posIter.length := by omega
  have := posIter_fieldAt hk' (o := o) (i := i) (by omega)
  rw [h, List.getElem?_eq_getElem hi] at this
  cases this

theorem complete_iff {α : Type} {l : List α} {m : Nat} (h : l.length ≤ m) :
    (∀ n, n < m → l[n]?.isSome = true) ↔ l.length = m := by
  constructor
  · intro hs
    apply Decidable.byContradiction
    intro hne
    have := hs l.length (by omega)
    simp at this
  · intro he n hn
    simp [he, hn]

/-- C26, exactly when it holds: the iterator over the fields of a value of any type yields as many items as
`fields_len` says if and only if no skipped field stands before a reflected one in this tuple struct or enum
variant. -/
theorem C26_every_field_iff (E : Env) (hO : OrdLaws E) (T : Ty) (x : Obj) (hx : HasTy E T x) :
    ((x.kind = .tupleStruct ∨ x.kind = .tuple ∨ x.kind = .list ∨ x.kind = .array) →
      ((∀ n, n < x.fieldsLen → (nthNext FieldIter.nextPos x.iter n).isSome = true) ↔ x.GapFree)) ∧
    (x.kind = .enum →
      ((∀ n, n < x.fieldsLen → (nthNext FieldIter.nextVariant x.iter n).isSome = true) ↔ x.GapFree)) := by
  constructor
  · intro hk
    have hk' : x.kind = .tupleStruct ∨ x.kind = .tuple ∨ x.kind = .list ∨ x.kind = .array ∨
        x.variantKind = some .tuple := by
      rcases hk with h | h | h | h <;> simp [h]
    obtain ⟨h1, h2⟩ := pos_length_iff hk'
    simp only [nextPos_yields hk' _]
    rw [complete_iff h2, h1]
  · intro hk
    have hy := nextVariant_yields x
    simp only [hy _]
    cases hv : x.variantKind with
    | none => cases x <;> simp [Obj.kind] at hk <;> simp [Obj.variantKind] at hv
    | some k =>
      cases k with
      | struct =>
        obtain ⟨h1, h2⟩ := named_length_iff hO ⟨T, hx⟩ (.inr hv)
        simp only [Obj.variantIter, hv]
        rw [complete_iff (by simpa using h2), List.length_map, h1]
      | tuple =>
        obtain ⟨h1, h2⟩ := pos_length_iff (o := x) (by simp [hv])
        simp only [Obj.variantIter, hv]
        rw [complete_iff (by simpa using h2), List.length_map, h1]
      | unit =>
        cases x <;> simp [Obj.kind] at hk <;> simp [Obj.variantKind] at hv
        exact iff_of_true (by simp [Obj.fieldsLen]) trivial

/-- C26: whatever is yielded, it is the field at that index, with its name; nothing else is ever yielded, with or
without gaps. -/
theorem C26_yields_fields (x : Obj) (n : Nat) (y : Obj) :
    ((x.kind = .tupleStruct ∨ x.kind = .tuple ∨ x.kind = .list ∨ x.kind = .array) →
      nthNext FieldIter.nextPos x.iter n = some y → x.fieldAt n = some y) ∧
    (∀ name, x.kind = .struct → nthNext FieldIter.nextNamed x.iter n = some (name, y) →
      x.fieldAt n = some y ∧ x.nameAt n = some name) := by
  constructor
  · intro hk h
    have hk' : x.kind = .tupleStruct ∨ x.kind = .tuple ∨ x.kind = .list ∨ x.kind = .array ∨
        x.variantKind = some .tuple := by
      rcases hk with h | h | h | h <;> simp [h]
    rw [nextPos_yields hk' n] at h
    rw [posIter_fieldAt hk' (by have := (List.getElem?_eq_some_iff.mp h).1; omega), h]
  · intro name hk h
    rw [nextNamed_yields (.inl hk) n] at h
    have := namedIter_at (.inl hk) (o := x) (i := n) (by have := (List.getElem?_eq_some_iff.mp h).1; omega)
    rw [h] at this
    cases hnm : x.nameAt n <;> cases hf : x.fieldAt n <;> simp [hnm, hf] at this
    obtain ⟨rfl, rfl⟩ := this
    exact ⟨rfl, rfl⟩

/-- `struct Bad(#[reflect(skip)] _, u8)` with its second field at index 1: `fields()` is empty. -/
example : (Obj.tupleStruct (.derived "Bad") [.hidden 0, .scalar (.int .u8 1)]).fieldAt 0 = none ∧
    (Obj.tupleStruct (.derived "Bad") [.hidden 0, .scalar (.int .u8 1)]).fieldAt 1 =
      some (.scalar (.int .u8 1)) ∧
    (Obj.tupleStruct (.derived "Bad") [.hidden 0, .scalar (.int .u8 1)]).fieldsLen = 1 := by
  simp [Obj.fieldAt, visAt, Obj.isHidden, Obj.fieldsLen]

/-- It has a gap; `Shape` values do not. -/
example : ¬ (Obj.tupleStruct (.derived "Bad") [.hidden 0, .scalar (.int .u8 1)]).GapFree ∧ demoShape.GapFree := by
  constructor
  · intro h
    obtain ⟨y, hy, hh⟩ := h 0 1 (by decide) _ rfl rfl
    simp at hy; subst hy; simp [Obj.isHidden] at hh
  · intro i j hij x hx _
    have hl := (List.getElem?_eq_some_iff.mp hx).1
    have hi : i = 0 := by simp at hl; omega
    subst hi
    exact ⟨_, rfl, rfl⟩

/-- `Secret { a, hidden (skip), b }` yields two fields. -/
example : demoSecret.kind = .struct ∧ demoSecret.fieldsLen = 2 ∧ 0 < 1 ∧
    HasTy demoEnv (.named "Secret") demoSecret :=
  ⟨rfl, by simp [demoSecret, Obj.fieldsLen, visFields, Obj.isHidden], by decide, demoSecret_hasTy⟩

example : demoShape.kind = .enum ∧ demoShape.variantKind = some .tuple ∧ demoShape.fieldsLen = 2 :=
  ⟨rfl, rfl, by simp [demoShape, Obj.fieldsLen, Obj.isHidden]⟩

end Mirror
