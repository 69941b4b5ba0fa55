import Verif.Spec.VisitEdit
import Verif.Lemmas.VisitPath
import Verif.Props.Path

set_option linter.unusedSimpArgs false

/-!
# Writing at one leaf of a visit
-/

namespace Mirror

variable {E : Env} {g : TypeGraph}

theorem getElem?_mid {α : Type} (A : List α) (x : α) (B : List α) : (A ++ x :: B)[A.length]? = some x := by simp

theorem getElem?_mid_ne {α : Type} {A : List α} {x y : α} {B : List α} {i : Nat} (h : i ≠ A.length) :
    (A ++ x :: B)[i]? = (A ++ y :: B)[i]? := by
  rcases Nat.lt_or_gt_of_ne h with h | h
  · rw [List.getElem?_append_left h, List.getElem?_append_left h]
  · rw [List.getElem?_append_right (by omega), List.getElem?_append_right (by omega)]
    obtain ⟨j, hj⟩ : ∃ j, i - A.length = j + 1 := ⟨i - A.length - 1, by omega⟩
    rw [hj]; rfl

theorem askedNamed_put {x : Obj} {names : List String} {fields : List (String × Ty)} {A B : List (Ty × Obj)}
    {u : Ty} {y : Obj} (h : AskedNamed x names fields (A ++ (u, y) :: B)) (hnd : names.Nodup) :
    ∃ m, namedType fields m = some u ∧ x.field m = some y ∧ ∀ x' y', x'.field m = some y' →
      (∀ m', m' ≠ m → x'.field m' = x.field m') → AskedNamed x' names fields (A ++ (u, y') :: B) := by
  have hlt : A.length < names.length := by rw [← h.1]; simp
  have hm : names[A.length]? = some names[A.length] := List.getElem?_eq_getElem hlt
  obtain ⟨h1, h2⟩ := h.2 _ _ _ hm (getElem?_mid A (u, y) B)
  refine ⟨names[A.length], h1, h2, fun x' y' hy' ho => ⟨by simpa using h.1, fun i n p hn hp => ?_⟩⟩
  by_cases hi : i = A.length
  · subst hi
    rw [getElem?_mid] at hp
    rw [hm] at hn
    cases hp; cases hn
    exact ⟨h1, hy'⟩
  · rw [getElem?_mid_ne (y := (u, y)) hi] at hp
    obtain ⟨h3, h4⟩ := h.2 i n p hn hp
    refine ⟨h3, ?_⟩
    rw [ho n]
    · exact h4
    · rintro rfl
      obtain ⟨hl, e⟩ := List.getElem?_eq_some_iff.mp hn
      exact hi ((List.Nodup.getElem_inj_iff hnd).mp e)

theorem askedPos_put {x : Obj} {fields : List Ty} {A B : List (Ty × Obj)}
    {u : Ty} {y : Obj} (h : AskedPos x fields (A ++ (u, y) :: B)) :
    ∃ i, fields[i]? = some u ∧ x.fieldAt i = some y ∧ (∀ j < i, (x.fieldAt j).isSome = true) ∧
      ∀ x' y', x'.fieldAt i = some y' → (∀ j, j ≠ i → x'.fieldAt j = x.fieldAt j) →
      AskedPos x' fields (A ++ (u, y') :: B) := by
  refine ⟨A.length, by rw [← h.1]; simp, h.2 _ _ (getElem?_mid A (u, y) B), fun j hj => ?_,
    fun x' y' hy' ho => ⟨by simpa using h.1, fun i p hp => ?_⟩⟩
  · have hlt : j < (A ++ (u, y) :: B).length := by simp; omega
    rw [h.2 j _ (List.getElem?_eq_getElem hlt)]; rfl
  · by_cases hi : i = A.length
    · subst hi
      rw [getElem?_mid] at hp
      cases hp
      exact hy'
    · rw [getElem?_mid_ne (y := (u, y)) hi] at hp
      rw [ho i hi]
      exact h.2 i p hp

theorem field_put {x : Obj} {m : String} {pl : Place} (h : StepForm E (.named m) x pl) {z : Obj}
    (hz : z.isHidden = false) :
    (pl.put z).field m = some z ∧ ∀ m', m' ≠ m → (pl.put z).field m' = x.field m' := by
  cases h with
  | struct _ _ _ q e hq =>
    cases e
    exact ⟨placeNamed_same hq hz, fun m' hm' => placeNamed_other hq (Ne.symm hm') hz⟩
  | enumS _ _ _ _ q e hq =>
    cases e
    exact ⟨placeNamed_same hq hz, fun m' hm' => placeNamed_other hq (Ne.symm hm') hz⟩
  | tupleStruct _ _ _ _ e => cases e
  | tuple _ _ _ _ e => cases e
  | enumT _ _ _ _ _ e => cases e
  | vec _ _ _ _ _ e => cases e
  | array _ _ _ _ _ e => cases e
  | map _ _ _ _ _ _ e => cases e

theorem fieldAt_put {x : Obj} {i : Nat} {pl : Place} (h : StepForm E (.numbered i) x pl) {z : Obj}
    (hz : z.isHidden = false) :
    (pl.put z).fieldAt i = some z ∧ ∀ j, j ≠ i → (pl.put z).fieldAt j = x.fieldAt j := by
  have key : ∀ {fs : List Obj} {q}, placeAt i fs = some q →
      visAt (q.2 z) i = some z ∧ ∀ j, j ≠ i → visAt (q.2 z) j = visAt fs j := by
    intro fs q hq
    obtain ⟨e, hlt⟩ := placeAt_put hq z
    rw [e]
    exact ⟨visAt_set_self hlt hz, fun j hj => visAt_set_ne (Ne.symm hj)⟩
  cases h with
  | struct _ _ _ q e hq => cases e
  | enumS _ _ _ _ q e hq => cases e
  | tupleStruct _ _ _ _ e hq => cases e; exact key hq
  | tuple _ _ _ _ e hq => cases e; exact key hq
  | enumT _ _ _ _ _ e hq => cases e; exact key hq
  | vec _ _ _ _ _ e => cases e
  | array _ _ _ _ _ e => cases e
  | map _ _ _ _ _ _ e => cases e

theorem mutOf {x y : Obj} {k : Key} (h : x.atKey E k = some y) : ∃ pl, x.atKeyMut E k = some pl ∧ pl.get = y := by
  rw [← atKeyMut_get, Option.map_eq_some_iff] at h
  exact h

theorem atMutPath_one {x : Obj} {k : Key} {pl : Place} (h : x.atKeyMut E k = some pl) :
    atMutPath E x [k] = some pl := by
  rw [atMutPath_cons, h]; rfl

theorem entry_split {kt vt : Ty} {kvs : List (Obj × Obj)} : ∀ {A : List (Ty × Obj)} {r : Ty × Obj}
    {B : List (Ty × Obj)}, (kvs.flatMap fun p => [(kt, p.1), (vt, p.2)]) = A ++ r :: B →
    ∃ C k v D, kvs = C ++ (k, v) :: D ∧ (r = (kt, k) ∨ (r = (vt, v) ∧
      A = (C.flatMap fun p => [(kt, p.1), (vt, p.2)]) ++ [(kt, k)] ∧
      B = D.flatMap fun p => [(kt, p.1), (vt, p.2)])) := by
  induction kvs with
  | nil => intro A r B h; simp at h
  | cons e kvs ih =>
    obtain ⟨k, v⟩ := e
    intro A r B h
    simp only [List.flatMap_cons, List.cons_append, List.nil_append] at h
    match A with
    | [] =>
      simp only [List.nil_append, List.cons.injEq] at h
      exact ⟨[], k, v, kvs, rfl, .inl h.1.symm⟩
    | [a] =>
      simp only [List.cons_append, List.nil_append, List.cons.injEq] at h
      exact ⟨[], k, v, kvs, rfl, .inr ⟨h.2.1.symm, by simp [h.1], h.2.2.symm⟩⟩
    | a :: b :: A =>
      simp only [List.cons_append, List.cons.injEq] at h
      obtain ⟨C, k', v', D, e, h'⟩ := ih h.2.2
      refine ⟨(k, v) :: C, k', v', D, by rw [e]; rfl, ?_⟩
      rcases h' with h' | ⟨h1, h2, h3⟩
      · exact .inl h'
      · exact .inr ⟨h1, by rw [← h.1, ← h.2.1, h2]; rfl, h3⟩

theorem hasTy_map_keys (hO : OrdLaws E) {t kt vt : Ty} {kvs : List (Obj × Obj)} (h : HasTy E t (.map kt vt kvs)) :
    (∀ p ∈ kvs, HasTy E kt p.1) ∧ BMSorted (E.kcmp kt) kvs := by
  obtain ⟨u, hu, h⟩ := h.typeOf hO
  cases hu
  cases h
  exact ⟨by assumption, by assumption⟩

/-- Writing at a part that is asked for changes that part only. -/
theorem asked_put (hO : OrdLaws E) (hD : DeclsOK E) (hG : GraphOK E g) {id : Ty} {n : TypeNode} {x : Obj}
    {A B : List (Ty × Obj)} {u : Ty} {y : Obj} (hn : g.node id = some n) (hA : AskedOf g x n (A ++ (u, y) :: B))
    (hx : HasTy E id x) (hI : x.posIter.length ≤ usizeSize)
    (hK : ∀ kt vt kvs, x = .map kt vt kvs → ∀ e ∈ kvs, ∃ w : Value, fromReflect E kt w.toObj = some e.1)
    {m : TypeNode} (hm : g.node u = some m) :
    (∃ q pl, (TypeAt.ty id n).typeAt g q = some (some (.ty u m)) ∧ atMutPath E x q = some pl ∧ pl.get = y ∧
      HasTy E u y ∧ ∀ y', y'.isHidden = false → AskedOf g (pl.put y') n (A ++ (u, y') :: B)) ∨
      ∃ kt vt v, n = .map kt vt ∧ (y, v) ∈ x.mapIter ∧ u = kt := by
  have hta : TA E g id (.ty id n) x := .ty _ _ _ hn (.refl) hx
  have hdyn : ∀ id' n', TypeAt.ty id n = .ty id' n' → ¬ id'.Dyn := by
    rintro _ _ ⟨⟩ hd
    have := (hG _ _ hn).1
    rcases hd with rfl | rfl | rfl | rfl | rfl <;> cases this <;> exact absurd rfl hA.node.2
  have hnew : TypeAt.newOpt g (some u) = some (some (.ty u m)) := newOpt_some hm
  have one : ∀ k, (TypeAt.ty id n).atKey g k = some (some (.ty u m)) → x.atKey E k = some y →
      (∀ i, k = .numbered i → ∀ j < i, (x.fieldAt j).isSome = true) → x.kind ≠ .enum → k.sort ≠ 3 →
      (∀ pl, x.atKeyMut E k = some pl → StepForm E k x pl →
        ∀ y', y'.isHidden = false → AskedOf g (pl.put y') n (A ++ (u, y') :: B)) →
      (∃ q pl, (TypeAt.ty id n).typeAt g q = some (some (.ty u m)) ∧ atMutPath E x q = some pl ∧ pl.get = y ∧
      HasTy E u y ∧ ∀ y', y'.isHidden = false → AskedOf g (pl.put y') n (A ++ (u, y') :: B)) := by
    intro k h1 h2 h3 h4 h5' h6'
    obtain ⟨ta', h5, h6⟩ := ta_step hD hG hta h2 h3 hdyn fun _ _ _ h => absurd h h4
    rw [h1] at h5; cases h5
    obtain ⟨pl, hpl, hget⟩ := mutOf h2
    cases h6 with
    | ty _ _ _ _ _ hy =>
      exact ⟨[k], pl, typeAt_one h1, atMutPath_one hpl, hget, hy, h6' pl hpl (stepForm hpl h5')⟩
  have two : ∀ vn v k, x.kind = .enum → x.variantName = some vn →
      (TypeAt.ty id n).atKey g (.variant vn) = some (some (.variant v)) →
      (TypeAt.variant v).atKey g k = some (some (.ty u m)) → x.atKey E k = some y →
      (∀ i, k = .numbered i → ∀ j < i, (x.fieldAt j).isSome = true) → k.sort ≠ 3 →
      (∀ pl, x.atKeyMut E k = some pl → StepForm E k x pl →
        ∀ y', y'.isHidden = false → AskedOf g (pl.put y') n (A ++ (u, y') :: B)) →
      (∃ q pl, (TypeAt.ty id n).typeAt g q = some (some (.ty u m)) ∧ atMutPath E x q = some pl ∧ pl.get = y ∧
      HasTy E u y ∧ ∀ y', y'.isHidden = false → AskedOf g (pl.put y') n (A ++ (u, y') :: B)) := by
    intro vn v k h1 h2 h3 h4 h5 h6 hs hput
    have h7 : x.atKey E (.variant vn) = some x := by simp [Obj.atKey, h1, h2]
    obtain ⟨ta', h8, h9⟩ := ta_step hD hG hta h7 (by simp) hdyn fun _ _ _ _ => ⟨_, rfl⟩
    rw [h3] at h8; cases h8
    obtain ⟨ta', h10, h11⟩ := ta_step hD hG h9 h5 h6 (by simp) (by simp)
    rw [h4] at h10; cases h10
    obtain ⟨pl, hpl, hget⟩ := mutOf h5
    obtain ⟨pl0, hpl0, _⟩ := mutOf h7
    obtain ⟨e, _⟩ := atKeyMut_variant hpl0
    subst e
    cases h11 with
    | ty _ _ _ _ _ hy =>
      refine ⟨[.variant vn, k], pl, typeAt_two h3 h4, ?_, hget, hy, hput pl hpl (stepForm hpl hs)⟩
      rw [atMutPath_cons, hpl0, Option.bind_some, atMutPath_one hpl]
      rfl
  have nd : ∀ {fds : List FieldDef} {names : List String} {fields : List (String × Ty)},
      (fds.map (·.name)).Nodup → namedTypes names fields =
        (fds.filter fun fd => !fd.skip).map (fun fd => (fd.name, some fd.ty.unbox)) → names.Nodup := by
    intro fds names fields h1 h2
    have e := congrArg (List.map Prod.fst) h2
    have e1 : (namedTypes names fields).map Prod.fst = names := by
      simp [namedTypes, List.map_map, Function.comp_def]
    rw [e1, List.map_map] at e
    rw [e]
    exact h1.sublist (List.filter_sublist.map _)
  cases hB : n with
  | struct names fields =>
    rw [hB] at hA hn
    have hnd : names.Nodup := by
      have := (hG _ _ hn).1
      cases this with
      | struct n fds c _ _ hdecl hf hlen hso => exact nd (hD.struct_names _ _ _ hdecl) hf
    subst hB
    cases hA with
    | struct _ _ _ hk h =>
      obtain ⟨m', h1, h2, h3⟩ := askedNamed_put h hnd
      refine .inl (one (.named m') (by simp only [TypeAt.atKey, h1]; exact hnew)
        (by simp only [Obj.atKey, hk]; exact h2) (by simp) (by simp [hk]) (by simp [Key.sort]) fun pl hpl hs y' hy' => ?_)
      obtain ⟨h4, h5⟩ := field_put hs hy'
      exact .struct _ _ _ ((hs.keeps y').1.trans hk) (h3 _ _ h4 h5)
  | tupleStruct fields =>
    subst hB
    cases hA with
    | tupleStruct _ _ hk h =>
      obtain ⟨i, h1, h2, h3, h4⟩ := askedPos_put h
      refine .inl (one (.numbered i) (by simp only [TypeAt.atKey, h1]; exact hnew)
        (by simp only [Obj.atKey, hk]; exact h2) (by rintro _ ⟨⟩; exact h3) (by simp [hk]) (by simp [Key.sort])
        fun pl hpl hs y' hy' => ?_)
      obtain ⟨h5, h6⟩ := fieldAt_put hs hy'
      exact .tupleStruct _ _ ((hs.keeps y').1.trans hk) (h4 _ _ h5 h6)
  | tuple fields =>
    subst hB
    cases hA with
    | tuple _ _ hk h =>
      obtain ⟨i, h1, h2, h3, h4⟩ := askedPos_put h
      refine .inl (one (.numbered i) (by simp only [TypeAt.atKey, h1]; exact hnew)
        (by simp only [Obj.atKey, hk]; exact h2) (by rintro _ ⟨⟩; exact h3) (by simp [hk]) (by simp [Key.sort])
        fun pl hpl hs y' hy' => ?_)
      obtain ⟨h5, h6⟩ := fieldAt_put hs hy'
      exact .tuple _ _ ((hs.keeps y').1.trans hk) (h4 _ _ h5 h6)
  | enum vs =>
    subst hB
    generalize hps : A ++ (u, y) :: B = ps at hA
    cases hA with
    | enumS _ vn vn' names fields _ hv hf h =>
      subst hps
      have hnd : names.Nodup := by
        have := (hG _ _ hn).1
        cases this with
        | enum n vds c _ hdecl hl hvs =>
          obtain ⟨i, hi⟩ := List.getElem?_of_mem (findVariant_mem hf)
          obtain ⟨hlt, _⟩ := List.getElem?_eq_some_iff.mp hi
          obtain ⟨vd, hvd⟩ : ∃ vd, vds[i]? = some vd := ⟨_, List.getElem?_eq_getElem (by rw [← hl]; exact hlt)⟩
          have hdv := hvs i _ _ hvd hi
          cases hdv with
          | struct _ fds _ _ hf' hlen hso =>
            exact nd (hD.variant_fields _ _ _ _ _ hdecl (List.mem_of_getElem? hvd)) hf'
      obtain ⟨m', h1, h2, h3⟩ := askedNamed_put h hnd
      have hk : x.kind = .enum := by cases x <;> simp [Obj.variantName] at hv <;> rfl
      have hvk : x.variantKind = some .struct := by
        cases x <;> simp [Obj.field, Obj.variantName] at h2 hv <;> rfl
      refine .inl (two vn (.struct vn' names fields) (.named m') hk hv
        (by simp only [TypeAt.atKey, hf, Option.map_some])
        (by simp only [TypeAt.atKey, h1]; exact hnew) (by simp only [Obj.atKey, hk, hvk]; exact h2) (by simp)
        (by simp [Key.sort]) fun pl hpl hs y' hy' => ?_)
      obtain ⟨h5, h6⟩ := field_put hs hy'
      exact .enumS _ _ _ _ _ _ ((hs.keeps y').2.1.trans hv) hf (h3 _ _ h5 h6)
    | enumT _ vn vn' fields _ hv hf h =>
      subst hps
      obtain ⟨i, h1, h2, h3, h4⟩ := askedPos_put h
      have hk : x.kind = .enum := by cases x <;> simp [Obj.variantName] at hv <;> rfl
      have hvk : x.variantKind = some .tuple := by
        have h8 : x.atKey E (.variant vn) = some x := by simp [Obj.atKey, hk, hv]
        obtain ⟨ta', h9, h10⟩ := ta_step hD hG hta h8 (by simp) hdyn fun _ _ _ _ => ⟨_, rfl⟩
        simp only [TypeAt.atKey, hf, Option.map_some, Option.some.injEq] at h9
        subst h9
        have := h10.isA hD
        cases this with
        | variant _ _ _ _ _ h => exact h
      refine .inl (two vn (.tuple vn' fields) (.numbered i) hk hv
        (by simp only [TypeAt.atKey, hf, Option.map_some])
        (by simp only [TypeAt.atKey, h1]; exact hnew) (by simp only [Obj.atKey, hk, hvk]; exact h2)
        (by rintro _ ⟨⟩; exact h3) (by simp [Key.sort]) fun pl hpl hs y' hy' => ?_)
      obtain ⟨h5, h6⟩ := fieldAt_put hs hy'
      exact .enumT _ _ _ _ _ ((hs.keeps y').2.1.trans hv) hf (h4 _ _ h5 h6)
    | enumU => simp at hps
  | list t =>
    subst hB
    generalize hps : A ++ (u, y) :: B = ps at hA
    cases hA with
    | list _ hk hnt =>
      obtain ⟨P, Q', e, rfl, e2⟩ := List.map_eq_append_iff.mp hps.symm
      obtain ⟨z, Q, rfl, e3, rfl⟩ := List.map_eq_cons_iff.mp e2
      cases e3
      have hi : P.length < usizeSize := by
        have : x.posIter.length = P.length + (Q.length + 1) := by rw [e]; simp
        omega
      have hv : valueToUsize (.scalar (.int .usize P.length)) = some P.length := by
        simp only [valueToUsize, Option.some.injEq]
        rw [Int.emod_eq_of_lt (by omega) (by exact_mod_cast hi)]
        rfl
      have hfa : x.fieldAt P.length = some y := by rw [← posIter_elems (.inl hk), e]; simp
      refine .inl (one (.get (.scalar (.int .usize P.length)))
        (by simp only [TypeAt.atKey, hv, Option.isSome_some, if_true]; exact hnew)
        (by simp only [Obj.atKey, hk, hv, Option.bind_some]; exact hfa) (by simp) (by simp [hk]) (by simp [Key.sort])
        fun pl hpl hs y' hy' => ?_)
      have hkk := (hs.keeps y').1.trans hk
      have hpi : (pl.put y').posIter = P ++ y' :: Q := by
        cases hs with
        | vec t fs v i q e1 e2 hq =>
          cases e1
          rw [hv] at e2; cases e2
          obtain ⟨e4, _⟩ := placeIdx_put hq y'
          have e' : fs = P ++ y :: Q := e
          show q.2 y' = _
          rw [e4, e']
          simp
        | array => cases hk
        | map => cases hk
        | struct _ _ _ _ he => cases he
        | enumS _ _ _ _ _ he => cases he
        | tupleStruct _ _ _ _ he => cases he
        | tuple _ _ _ _ he => cases he
        | enumT _ _ _ _ _ he => cases he
      have := AskedOf.list (g := g) u hkk hnt
      rw [hpi] at this
      simpa using this
  | array t len =>
    subst hB
    generalize hps : A ++ (u, y) :: B = ps at hA
    cases hA with
    | array _ _ hk hnt =>
      obtain ⟨P, Q', e, rfl, e2⟩ := List.map_eq_append_iff.mp hps.symm
      obtain ⟨z, Q, rfl, e3, rfl⟩ := List.map_eq_cons_iff.mp e2
      cases e3
      have hi : P.length < usizeSize := by
        have : x.posIter.length = P.length + (Q.length + 1) := by rw [e]; simp
        omega
      have hv : valueToUsize (.scalar (.int .usize P.length)) = some P.length := by
        simp only [valueToUsize, Option.some.injEq]
        rw [Int.emod_eq_of_lt (by omega) (by exact_mod_cast hi)]
        rfl
      have hfa : x.fieldAt P.length = some y := by rw [← posIter_elems (.inr hk), e]; simp
      refine .inl (one (.get (.scalar (.int .usize P.length)))
        (by simp only [TypeAt.atKey, hv, Option.isSome_some, if_true]; exact hnew)
        (by simp only [Obj.atKey, hk, hv, Option.bind_some]; exact hfa) (by simp) (by simp [hk]) (by simp [Key.sort])
        fun pl hpl hs y' hy' => ?_)
      have hkk := (hs.keeps y').1.trans hk
      have hpi : (pl.put y').posIter = P ++ y' :: Q := by
        cases hs with
        | array t fs v i q e1 e2 hq =>
          cases e1
          rw [hv] at e2; cases e2
          obtain ⟨e4, _⟩ := placeIdx_put hq y'
          have e' : fs = P ++ y :: Q := e
          show q.2 y' = _
          rw [e4, e']
          simp
        | vec => cases hk
        | map => cases hk
        | struct _ _ _ _ he => cases he
        | enumS _ _ _ _ _ he => cases he
        | tupleStruct _ _ _ _ he => cases he
        | tuple _ _ _ _ he => cases he
        | enumT _ _ _ _ _ he => cases he
      have := AskedOf.array (g := g) u len hkk hnt
      rw [hpi] at this
      simpa using this
  | map kt vt =>
    subst hB
    generalize hps : A ++ (u, y) :: B = ps at hA
    cases hA with
    | map _ _ hk hkn hvn =>
      obtain ⟨C, k, v, D, e, h⟩ := entry_split hps.symm
      rcases h with h | ⟨h, rfl, rfl⟩
      · cases h
        exact .inr ⟨_, _, v, rfl, by rw [e]; simp, rfl⟩
      · cases h
        cases x with
        | map kt' vt' kvs =>
          have e' : kvs = C ++ (k, y) :: D := e
          obtain ⟨w, hw⟩ := hK _ _ _ rfl (k, y) (by rw [e']; simp)
          have hw : fromReflect E kt' w.toObj = some k := hw
          obtain ⟨hkv, hso⟩ : (∀ p ∈ kvs, HasTy E kt' p.1) ∧ BMSorted (E.kcmp kt') kvs := by
            exact hasTy_map_keys hO hx
          have hkt := hkv (k, y) (by rw [e']; simp)
          have uniq : ∀ C' k' y₀ D', kvs = C' ++ (k', y₀) :: D' → E.kcmp kt' k k' = .eq →
              C' = C ∧ k' = k ∧ y₀ = y ∧ D' = D := by
            intro C' k' y₀ D' e1 hc
            have hj : C'.length = C.length := by
              refine key_unique (hO.cmpOn kt') hkv hso hkt (i := C.length) (p := (k, y)) ?_ (hO.refl _ _ hkt)
                C'.length (k', y₀) ?_ (decide_eq_true hc)
              · rw [e']; simp
              · rw [e1]; simp
            rw [e'] at e1
            obtain ⟨h1, h2⟩ := List.append_inj e1 hj.symm
            cases h2
            exact ⟨h1.symm, rfl, rfl, rfl⟩
          have hget : (Obj.map kt' vt' kvs).atKey E (.get w) = some y := by
            simp only [Obj.atKey, Obj.kind, Obj.mapGet, hw, Option.bind_some]
            exact (bmGet_iff (hO.cmpOn kt') hkv hso hkt).mpr ⟨k, by rw [e']; simp, hO.refl _ _ hkt⟩
          refine .inl (one (.get w) (by simp only [TypeAt.atKey]; exact hnew) hget (by simp) (by simp [Obj.kind])
            (by simp [Key.sort]) fun pl hpl hs y' hy' => ?_)
          have hmi : (pl.put y').mapIter = C ++ (k, y') :: D := by
            cases hs with
            | map _ _ _ v' key q e1 e2 hq =>
              cases e1
              rw [hw] at e2; cases e2
              obtain ⟨l₁, l₂, k', h1, h2, h3, _⟩ := placeKey_put hq y'
              obtain ⟨rfl, rfl, _, rfl⟩ := uniq _ _ _ _ h1 h3
              exact h2
          have := AskedOf.map (g := g) kt u ((hs.keeps y').1.trans hk) hkn hvn
          rw [hmi] at this
          simpa using this
        | _ => simp [Obj.kind] at hk
  | scalar _ => subst hB; cases hA
  | «opaque» => subst hB; cases hA

theorem flatten_split {α : Type} {ls : List (List α)} : ∀ {la : List α} {a : α} {lb : List α},
    ls.flatten = la ++ a :: lb → ∃ X c d Y, ls = X ++ (c ++ a :: d) :: Y ∧ la = X.flatten ++ c ∧
      lb = d ++ Y.flatten := by
  induction ls with
  | nil => intro la a lb h; simp at h
  | cons l ls ih =>
    intro la a lb h
    rw [List.flatten_cons, List.append_eq_append_iff] at h
    rcases h with ⟨as, rfl, h⟩ | ⟨bs, rfl, h⟩
    · obtain ⟨X, c, d, Y, h1, h2, h3⟩ := ih h
      exact ⟨l :: X, c, d, Y, by rw [h1]; rfl, by rw [h2]; simp, h3⟩
    · cases bs with
      | nil =>
        obtain ⟨X, c, d, Y, h1, h2, h3⟩ := ih (la := []) h.symm
        refine ⟨(la ++ []) :: X, c, d, Y, by rw [h1]; rfl, ?_, h3⟩
        rw [List.flatten_cons, List.append_assoc, ← h2]
        simp
      | cons b bs =>
        simp only [List.cons_append, List.cons.injEq] at h
        obtain ⟨rfl, rfl⟩ := h
        exact ⟨[], la, bs, ls, rfl, rfl, rfl⟩

theorem atMutPath_join {x : Obj} {q p : KeyPath} : ∀ {x : Obj} {pl₁ pl₂ : Place}, atMutPath E x q = some pl₁ →
    atMutPath E pl₁.get p = some pl₂ → ∃ pl, atMutPath E x (q ++ p) = some pl ∧ pl.get = pl₂.get ∧
      ∀ z, pl.put z = pl₁.put (pl₂.put z) := by
  induction q with
  | nil =>
    intro x pl₁ pl₂ h1 h2
    cases h1
    exact ⟨pl₂, h2, rfl, fun z => rfl⟩
  | cons k q ih =>
    intro x pl₁ pl₂ h1 h2
    obtain ⟨a, b, h3, h4, h5, h6⟩ := atMutPath_cons_inv h1
    rw [h5] at h2
    obtain ⟨pl, h7, h8, h9⟩ := ih h4 h2
    refine ⟨⟨pl.get, fun z => a.put (pl.put z)⟩, ?_, h8, fun z => ?_⟩
    · rw [List.cons_append, atMutPath_cons, h3, Option.bind_some, h7]; rfl
    · rw [h6, ← h9]

/-- The leaf is at a path, and writing there changes this leaf of the visit and no other; or it belongs to the key
of an entry of a map. -/
theorem walked_edit (hO : OrdLaws E) (hD : DeclsOK E) (hG : GraphOK E g) {id : Ty} {x : Obj} {l : List Leaf}
    (hw : Walks g id x l) : HasTy E id x → Indexable E x → KeysRead E x → ∀ la a lb, l = la ++ a :: lb →
      (∃ p u m pl, (TypeDescriptor.mk id g).typeAt p = some (some (.ty u m)) ∧
        g.node u = some m ∧ ((∃ k, m = .scalar k) ∨ m = .opaque) ∧ atMutPath E x p = some pl ∧ HasTy E u pl.get ∧
        Walks g u pl.get [a] ∧ ∀ y' a', y'.isHidden = false → Walks g u y' [a'] →
          Walks g id (pl.put y') (la ++ a' :: lb)) ∨ InMapKey E ⟨id, g⟩ x a := by
  induction hw with
  | scalar id k o s hn hs =>
    intro hx _ _ la a lb hl
    obtain ⟨rfl, rfl, rfl⟩ : la = [] ∧ a = .scalar s ∧ lb = [] := by
      cases la <;> simp at hl <;> simp [hl]
    exact .inl ⟨[], id, _, ⟨o, fun z => z⟩, by rw [typeAt_desc hn]; rfl, hn, .inl ⟨_, rfl⟩, rfl, hx,
      .scalar _ _ _ _ hn hs, fun y' a' _ h => h⟩
  | «opaque» id o hn =>
    intro hx _ _ la a lb hl
    obtain ⟨rfl, rfl, rfl⟩ : la = [] ∧ a = .opaque o id ∧ lb = [] := by
      cases la <;> simp at hl <;> simp [hl]
    exact .inl ⟨[], id, _, ⟨o, fun z => z⟩, by rw [typeAt_desc hn]; rfl, hn, .inr rfl, rfl, hx,
      .opaque _ _ hn, fun y' a' _ h => h⟩
  | parts id o node ps ls hn hA hl hw ih =>
    intro hx hI hK la a lb hla
    obtain ⟨X, c, d, Y, rfl, rfl, rfl⟩ := flatten_split hla
    have hX : X.length < ps.length := by rw [← hl]; simp
    obtain ⟨A, ⟨u, y⟩, B, rfl, hAX⟩ : ∃ A r B, ps = A ++ r :: B ∧ A.length = X.length :=
      ⟨ps.take X.length, ps[X.length], ps.drop (X.length + 1),
        by rw [List.getElem_cons_drop, List.take_append_drop], by simp; omega⟩
    have hp : (A ++ (u, y) :: B)[X.length]? = some (u, y) := by rw [← hAX]; exact getElem?_mid _ _ _
    have hi : (X ++ (c ++ a :: d) :: Y)[X.length]? = some (c ++ a :: d) := getElem?_mid _ _ _
    have hwp := hw _ _ _ hp hi
    obtain ⟨m, hm⟩ := hwp.node
    rcases asked_put hO hD hG hn hA hx (hI [] _ rfl)
        (fun kt vt kvs e => hK [] kt vt kvs (by rw [e]; rfl)) hm with
      ⟨q, pl₁, h1, h2, rfl, h3, h4⟩ | ⟨kt, vt, v, rfl, hkv, rfl⟩
    · have hat : atPath E o q = some pl₁.get := by rw [← atMutPath_get, h2]; rfl
      have hA' : ∀ p, atPath E o (q ++ p) = atPath E pl₁.get p := by
        intro p; rw [atPath_append, hat]; rfl
      have hT : ∀ p, (TypeDescriptor.mk id g).typeAt (q ++ p) = (TypeDescriptor.mk u g).typeAt p := by
        intro p
        rw [typeAt_desc hn, typeAt_desc hm, type_at_append, h1]
        rfl
      rcases ih _ _ _ hp hi h3 (hI.at hat) (fun p kt vt kvs h => hK (q ++ p) kt vt kvs (by rw [hA']; exact h))
          c a d rfl with ⟨p, u', m', pl₂, g1, g0, g2, g3, g4, g5, g6⟩ | ⟨p, w, kt, vt, z, k, v, l, g1, g2, g3⟩
      · obtain ⟨pl, f1, f2, f3⟩ := atMutPath_join (x := o) h2 g3
        refine .inl ⟨q ++ p, u', m', pl, by rw [hT]; exact g1, g0, g2, f1, by rw [f2]; exact g4, by rw [f2]; exact g5,
          fun y' a' hy' hw' => ?_⟩
        rw [f3]
        have := Walks.parts id (pl₁.put (pl₂.put y')) node (A ++ (u, pl₂.put y') :: B)
          (X ++ (c ++ a' :: d) :: Y) hn (h4 _ (put_not_hidden hy' g3)) (by simpa using hl) ?_
        · simpa using this
        · intro i r l hr hl'
          by_cases hiX : i = X.length
          · subst hiX
            rw [getElem?_mid] at hl'
            rw [← hAX, getElem?_mid] at hr
            cases hl'; cases hr
            exact g6 y' a' hy' hw'
          · rw [getElem?_mid_ne (y := c ++ a :: d) hiX] at hl'
            rw [getElem?_mid_ne (y := (u, pl₁.get)) (by omega)] at hr
            exact hw i r l hr hl'
      · exact .inr ⟨q ++ p, w, kt, vt, z, k, v, l, by rw [hT]; exact g1, by rw [hA']; exact g2, g3⟩
    · exact .inr ⟨[], id, _, _, o, _, v, _, by rw [typeAt_desc hn]; rfl, rfl, hkv, visitsAll_iff.mpr hwp, by simp⟩

end Mirror
