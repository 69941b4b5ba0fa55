import Verif.Lemmas.Path

set_option linter.unusedSimpArgs false

/-!
# Objects as lists of parts

`o.kids` are the parts of `o`, `o.withKids cs` is `o` with other parts, and `keyIdx E o k` is the position of
the part that the key `k` selects. A step of `at_mut` overwrites the part at that position and no other.
-/

namespace Mirror

/-- The parts of an object, in order. -/
def Obj.kids : Obj → List Obj
  | .struct _ fs => fs.map (·.2)
  | .enumS _ _ fs => fs.map (·.2)
  | .tupleStruct _ fs => fs
  | .tuple _ fs => fs
  | .enumT _ _ fs => fs
  | .vec _ xs => xs
  | .array _ xs => xs
  | .map _ _ kvs => kvs.map (·.2)
  | _ => []

/-- The object with other parts. -/
def Obj.withKids (o : Obj) (cs : List Obj) : Obj :=
  match o with
  | .struct tag fs => .struct tag ((fs.map (·.1)).zip cs)
  | .enumS tag v fs => .enumS tag v ((fs.map (·.1)).zip cs)
  | .tupleStruct tag _ => .tupleStruct tag cs
  | .tuple tag _ => .tuple tag cs
  | .enumT tag v _ => .enumT tag v cs
  | .vec t _ => .vec t cs
  | .array t _ => .array t cs
  | .map kt vt kvs => .map kt vt ((kvs.map (·.1)).zip cs)
  | o => o

/-- The position of the first visible part with a given name. -/
def nameIdx (n : String) : List (String × Bool) → Option Nat
  | [] => none
  | (m, h) :: r => if m = n ∧ h = false then some 0 else (nameIdx n r).map (· + 1)

/-- The position of the first key that compares equal. -/
def cmpIdx (cmp : Obj → Obj → Ordering) (a : Obj) : List Obj → Option Nat
  | [] => none
  | b :: r => if cmp a b = .eq then some 0 else (cmpIdx cmp a r).map (· + 1)

/-- The position of the part that a key selects. -/
def keyIdx (E : Env) (o : Obj) (k : Key) : Option Nat :=
  match o, k with
  | .struct _ fs, .named n => nameIdx n ((fs.map (·.1)).zip ((fs.map (·.2)).map (·.isHidden)))
  | .enumS _ _ fs, .named n => nameIdx n ((fs.map (·.1)).zip ((fs.map (·.2)).map (·.isHidden)))
  | .tupleStruct _ fs, .numbered i => if (fs.map (·.isHidden))[i]? = some false then some i else none
  | .tuple _ fs, .numbered i => if (fs.map (·.isHidden))[i]? = some false then some i else none
  | .enumT _ _ fs, .numbered i => if (fs.map (·.isHidden))[i]? = some false then some i else none
  | .vec _ xs, .get v => (valueToUsize v).bind fun i => if i < (xs.map (·.isHidden)).length then some i else none
  | .array _ xs, .get v => (valueToUsize v).bind fun i => if i < (xs.map (·.isHidden)).length then some i else none
  | .map kt _ kvs, .get v => (fromReflect E kt v.toObj).bind fun a => cmpIdx (E.kcmp kt) a (kvs.map (·.1))
  | _, _ => none

theorem zip_fst_snd {α β} (l : List (α × β)) : (l.map (·.1)).zip (l.map (·.2)) = l := by
  induction l with
  | nil => rfl
  | cons p r ih => simp [ih]

theorem zip_set {α} {fs : List (α × Obj)} {i : Nat} {n : α} {x : Obj} (h : fs[i]? = some (n, x)) (z : Obj) :
    fs.set i (n, z) = (fs.map (·.1)).zip ((fs.map (·.2)).set i z) := by
  induction fs generalizing i with
  | nil => simp at h
  | cons p r ih =>
    cases i with
    | zero =>
      simp only [List.getElem?_cons_zero, Option.some.injEq] at h
      subst h
      simp [zip_fst_snd]
    | succ i =>
      simp only [List.getElem?_cons_succ] at h
      simp [ih h]

theorem placeNamed_idx {n : String} {fs : List (String × Obj)} :
    (placeNamed n fs = none → nameIdx n ((fs.map (·.1)).zip ((fs.map (·.2)).map (·.isHidden))) = none) ∧
    ∀ q, placeNamed n fs = some q → ∃ i,
      nameIdx n ((fs.map (·.1)).zip ((fs.map (·.2)).map (·.isHidden))) = some i ∧
      fs[i]? = some (n, q.1) ∧ ∀ z, q.2 z = fs.set i (n, z) := by
  induction fs with
  | nil => exact ⟨fun _ => rfl, fun q h => by cases h⟩
  | cons p r ih =>
    obtain ⟨m, x⟩ := p
    simp only [placeNamed, List.map_cons, List.zip_cons_cons, nameIdx]
    by_cases hc : m = n ∧ x.isHidden = false
    · simp only [if_pos hc]
      refine ⟨fun h => (by cases h), fun q h => ?_⟩
      cases h
      exact ⟨0, rfl, by simp [hc.1], fun z => by simp [hc.1]⟩
    · simp only [if_neg hc]
      cases hr : placeNamed n r with
      | none =>
        refine ⟨fun _ => by rw [ih.1 hr]; rfl, fun q h => by cases h⟩
      | some q' =>
        refine ⟨fun h => (by cases h), fun q h => ?_⟩
        cases h
        obtain ⟨i, h1, h2, h3⟩ := ih.2 q' hr
        exact ⟨i + 1, by rw [h1]; rfl, by simpa using h2, fun z => by simp [h3]⟩

theorem placeKey_idx {cmp : Obj → Obj → Ordering} {a : Obj} {kvs : List (Obj × Obj)} :
    (placeKey cmp a kvs = none → cmpIdx cmp a (kvs.map (·.1)) = none) ∧
    ∀ q, placeKey cmp a kvs = some q → ∃ i k', cmpIdx cmp a (kvs.map (·.1)) = some i ∧
      kvs[i]? = some (k', q.1) ∧ ∀ z, q.2 z = kvs.set i (k', z) := by
  induction kvs with
  | nil => exact ⟨fun _ => rfl, fun q h => by cases h⟩
  | cons p r ih =>
    obtain ⟨m, x⟩ := p
    simp only [placeKey, List.map_cons, cmpIdx]
    by_cases hc : cmp a m = .eq
    · simp only [if_pos hc]
      refine ⟨fun h => (by cases h), fun q h => ?_⟩
      cases h
      exact ⟨0, m, rfl, by simp, fun z => by simp⟩
    · simp only [if_neg hc]
      cases hr : placeKey cmp a r with
      | none => exact ⟨fun _ => by rw [ih.1 hr]; rfl, fun q h => by cases h⟩
      | some q' =>
        refine ⟨fun h => (by cases h), fun q h => ?_⟩
        cases h
        obtain ⟨i, k', h1, h2, h3⟩ := ih.2 q' hr
        exact ⟨i + 1, k', by rw [h1]; rfl, by simpa using h2, fun z => by simp [h3]⟩

theorem placeAt_idx {i : Nat} {fs : List Obj} :
    (placeAt i fs = none → (fs.map (·.isHidden))[i]? ≠ some false) ∧
    ∀ q, placeAt i fs = some q → (fs.map (·.isHidden))[i]? = some false ∧
      fs[i]? = some q.1 ∧ ∀ z, q.2 z = fs.set i z := by
  constructor
  · intro h hh
    have := placeAt_get i fs
    rw [h] at this
    simp only [List.getElem?_map] at hh
    obtain ⟨x, hx, hxh⟩ := Option.map_eq_some_iff.mp hh
    simp [visAt, hx, hxh] at this
  · intro q h
    obtain ⟨h1, h2⟩ := placeAt_vis h
    exact ⟨by simp [h1, h2], h1, fun z => (placeAt_put h z).1⟩

theorem placeIdx_idx {i : Nat} {fs : List Obj} :
    (placeIdx i fs = none → ¬ i < fs.length) ∧
    ∀ q, placeIdx i fs = some q → i < fs.length ∧ fs[i]? = some q.1 ∧ ∀ z, q.2 z = fs.set i z := by
  constructor
  · intro h hi
    have := placeIdx_get i fs
    rw [h] at this
    simp [List.getElem?_eq_getElem hi] at this
  · intro q h
    exact ⟨(placeIdx_put h q.1).2, placeIdx_vis h, fun z => (placeIdx_put h z).1⟩

/-- A step that selects nothing. -/
theorem kid_none {E : Env} {o : Obj} {k : Key} (hk : k.sort ≠ 3) (h : o.atKeyMut E k = none) :
    keyIdx E o k = none := by
  cases k with
  | variant v => exact absurd rfl hk
  | named n =>
    cases o <;> simp only [Obj.atKeyMut, Obj.kindMut, Obj.kind, Obj.variantKind, Obj.fieldMut,
      Option.map_eq_none_iff] at h <;> simp only [keyIdx]
    · exact placeNamed_idx.1 h
    · exact placeNamed_idx.1 h
  | numbered n =>
    cases o <;> simp only [Obj.atKeyMut, Obj.kindMut, Obj.kind, Obj.variantKind, Obj.fieldAtMut,
      Option.map_eq_none_iff] at h <;> simp only [keyIdx]
    all_goals exact if_neg (placeAt_idx.1 h)
  | get v =>
    cases o <;> simp only [Obj.atKeyMut, Obj.kindMut, Obj.kind, Obj.variantKind, Obj.fieldAtMut, Obj.mapGetMut,
      Option.map_eq_none_iff] at h <;> simp only [keyIdx]
    · cases hv : valueToUsize v with
      | none => rfl
      | some i =>
        rw [hv] at h
        simp only [Option.bind_some, Option.map_eq_none_iff] at h
        simp [placeIdx_idx.1 h]
    · cases hv : valueToUsize v with
      | none => rfl
      | some i =>
        rw [hv] at h
        simp only [Option.bind_some, Option.map_eq_none_iff] at h
        simp [placeIdx_idx.1 h]
    · next kt vt kvs =>
      cases hf : fromReflect E kt v.toObj with
      | none => rfl
      | some a =>
        rw [hf] at h
        simp only [Option.map_eq_none_iff] at h
        exact placeKey_idx.1 h

/-- A step that selects something. -/
theorem kid_some {E : Env} {o : Obj} {k : Key} {a : Place} (hk : k.sort ≠ 3)
    (h : o.atKeyMut E k = some a) :
    ∃ i, keyIdx E o k = some i ∧ o.kids[i]? = some a.get ∧ ∀ z, a.put z = o.withKids (o.kids.set i z) := by
  cases stepForm h hk with
  | struct tag fs n q hn hq =>
    subst hn
    obtain ⟨i, h1, h2, h3⟩ := placeNamed_idx.2 q hq
    exact ⟨i, h1, by simp [Obj.kids, h2], fun z => by simp only [Obj.withKids, Obj.kids, h3, zip_set h2]⟩
  | enumS tag v fs n q hn hq =>
    subst hn
    obtain ⟨i, h1, h2, h3⟩ := placeNamed_idx.2 q hq
    exact ⟨i, h1, by simp [Obj.kids, h2], fun z => by simp only [Obj.withKids, Obj.kids, h3, zip_set h2]⟩
  | tupleStruct tag fs i q hn hq =>
    subst hn
    obtain ⟨h1, h2, h3⟩ := placeAt_idx.2 q hq
    exact ⟨i, if_pos h1, h2, fun z => by simp only [Obj.withKids, Obj.kids, h3]⟩
  | tuple tag fs i q hn hq =>
    subst hn
    obtain ⟨h1, h2, h3⟩ := placeAt_idx.2 q hq
    exact ⟨i, if_pos h1, h2, fun z => by simp only [Obj.withKids, Obj.kids, h3]⟩
  | enumT tag v fs i q hn hq =>
    subst hn
    obtain ⟨h1, h2, h3⟩ := placeAt_idx.2 q hq
    exact ⟨i, if_pos h1, h2, fun z => by simp only [Obj.withKids, Obj.kids, h3]⟩
  | vec t fs v i q hn hv hq =>
    subst hn
    obtain ⟨h1, h2, h3⟩ := placeIdx_idx.2 q hq
    exact ⟨i, by simp [keyIdx, hv, h1], h2, fun z => by simp only [Obj.withKids, Obj.kids, h3]⟩
  | array t fs v i q hn hv hq =>
    subst hn
    obtain ⟨h1, h2, h3⟩ := placeIdx_idx.2 q hq
    exact ⟨i, by simp [keyIdx, hv, h1], h2, fun z => by simp only [Obj.withKids, Obj.kids, h3]⟩
  | map kt vt kvs v key q hn hf hq =>
    subst hn
    obtain ⟨i, k', h1, h2, h3⟩ := placeKey_idx.2 q hq
    exact ⟨i, by simp [keyIdx, hf, h1], by simp [Obj.kids, h2],
      fun z => by simp only [Obj.withKids, Obj.kids, h3, zip_set h2]⟩

/-! ## Changing the parts -/

/-- As many parts as before, the same ones of them skipped. -/
def Obj.Fits (o : Obj) (cs : List Obj) : Prop := cs.map (·.isHidden) = o.kids.map (·.isHidden)

theorem Obj.Fits.length {o : Obj} {cs : List Obj} (h : o.Fits cs) : cs.length = o.kids.length := by
  have := congrArg List.length h
  simpa using this

theorem kids_withKids {o : Obj} {cs : List Obj} (h : o.Fits cs) : (o.withKids cs).kids = cs := by
  have hl := h.length
  cases o <;> simp only [Obj.kids, Obj.withKids, List.length_map] at hl ⊢
  case struct | enumS | map => exact List.map_snd_zip (by simp [hl])
  all_goals exact (List.length_eq_zero_iff.mp (by simpa using hl)).symm

theorem withKids_withKids {o : Obj} {cs ds : List Obj} (h : o.Fits cs) :
    (o.withKids cs).withKids ds = o.withKids ds := by
  have hl := h.length
  cases o <;> simp only [Obj.kids, Obj.withKids, List.length_map] at hl ⊢
  case struct | enumS | map => rw [List.map_fst_zip (by simp [hl])]

theorem keyIdx_withKids {E : Env} {o : Obj} {cs : List Obj} (h : o.Fits cs) (k : Key) :
    keyIdx E (o.withKids cs) k = keyIdx E o k := by
  have hl := h.length
  have h' := h
  cases o <;> cases k <;> simp only [Obj.kids, Obj.withKids, List.length_map, keyIdx, Obj.Fits] at hl h' ⊢
  case struct.named | enumS.named =>
    rw [List.map_fst_zip (by simp [hl]), List.map_snd_zip (by simp [hl]), h']
  case map.get => rw [List.map_fst_zip (by simp [hl])]
  all_goals first | rw [h'] | (simp only [hl])

theorem withKids_kind (o : Obj) (cs : List Obj) : (o.withKids cs).kind = o.kind ∧
    (o.withKids cs).variantName = o.variantName := by
  cases o <;> exact ⟨rfl, rfl⟩

theorem fits_set {o : Obj} {i : Nat} {x z : Obj} (hi : o.kids[i]? = some x)
    (hh : z.isHidden = x.isHidden) : o.Fits (o.kids.set i z) := by
  apply List.ext_getElem?
  intro j
  simp only [List.getElem?_map, List.getElem?_set]
  by_cases hij : i = j
  · subst hij
    have hl := (List.getElem?_eq_some_iff.mp hi).1
    rw [if_pos rfl, if_pos hl, hi]; simp [hh]
  · simp [hij]

theorem withKids_self {E : Env} {o : Obj} {k : Key} {i : Nat} (h : keyIdx E o k = some i) :
    o.withKids o.kids = o := by
  cases o <;> simp only [Obj.withKids, Obj.kids]
  all_goals first | rfl | rw [zip_fst_snd]

theorem fits_self (o : Obj) : o.Fits o.kids := rfl

end Mirror
