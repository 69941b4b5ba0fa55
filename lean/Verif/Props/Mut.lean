import Verif.Lemmas.Mut
import Verif.Lemmas.Containers
import Verif.Lemmas.Demo

set_option linter.unusedSimpArgs false

/-!
# C52: mutable access to fields; C53: the order of mutable iterators
-/

namespace Mirror

variable {E : Env}

/-! ## Single references -/

/-- C52: `field_mut` and `field_at_mut` give a reference to the very contents that `field` and `field_at`
show, and nothing when those show nothing. -/
theorem C52_field_mut_agrees {T : Ty} {o : Obj} (h : HasTy E T o) (n : String) (i : Nat) :
    (o.fieldMut n).map (·.get) = o.field n ∧ (o.fieldAtMut i).map (·.get) = o.fieldAt i :=
  ⟨fieldMut_get o n, fieldAtMut_get h i⟩

/-- C52: on structs and struct variants `field_at_mut` is `field_mut` with the name at that index. -/
theorem C52_field_at_mut_by_name (hD : DeclsOK E) {T : Ty} {o : Obj} (h : HasTy E T o) (hn : o.Named)
    (i : Nat) : o.fieldAtMut i = (o.nameAt i).bind o.fieldMut :=
  fieldAtMut_named hD h hn i

/-- C52: assigning a value of the same type through `field_mut(n)` makes `field(n)` show it, leaves what any
other name shows, the variant, the names, the lengths and the skipped fields, and the type of the whole.
Assigning the old contents changes nothing at all. -/
theorem C52_assign_field (hO : OrdLaws E) {T U : Ty} {o : Obj} {n : String} {x y : Obj} (ho : HasTy E T o)
    (hx : o.field n = some x) (hU : x.typeOf = some U) (hy : HasTy E U y) :
    (∀ m, (o.assign n y).field m = if m = n then some y else o.field m) ∧ o.SameShape (o.assign n y) ∧
      HasTy E T (o.assign n y) ∧ o.assign n x = o := by
  have hw := assign_write hx hy.not_hidden
  refine ⟨hw.2, hw.1, assign_typed hO ho hx hU hy, ?_⟩
  have := fieldMut_get o n
  rw [hx] at this
  obtain ⟨pl, hp, e⟩ := Option.map_eq_some_iff.mp this
  simp only [Obj.assign, hp, ← e]
  exact (fieldMut_write hp hy.not_hidden).2.1

/-- C52: the same for `field_at_mut(i)` on tuple structs, tuples and tuple variants, and for `get_mut(i)` of
lists and arrays. -/
theorem C52_assign_field_at (hO : OrdLaws E) {T U : Ty} {o : Obj} {i : Nat} {x y : Obj} (ho : HasTy E T o)
    (hp : o.Positional) (hx : o.fieldAt i = some x) (hU : x.typeOf = some U) (hy : HasTy E U y) :
    (∀ j, (o.assignAt i y).fieldAt j = if j = i then some y else o.fieldAt j) ∧
      o.SameShape (o.assignAt i y) ∧ HasTy E T (o.assignAt i y) ∧ o.assignAt i x = o := by
  have hw := assignAt_write hp hx hy.not_hidden
  refine ⟨hw.2, hw.1, assignAt_typed hO hp ho hx hU hy, ?_⟩
  have := positional_get hp i
  rw [hx] at this
  obtain ⟨pl, hp', e⟩ := Option.map_eq_some_iff.mp this
  simp only [Obj.assignAt, hp', ← e]
  exact (fieldAtMut_write hp hp' hy.not_hidden).2.1

/-! ## Iterators of references -/

theorem zip_fst_sublist {α β} (l : List α) (l' : List β) : ((l.zip l').map (·.1)).Sublist l := by
  induction l generalizing l' with
  | nil => simp
  | cons a l ih =>
    cases l' with
    | nil => simp
    | cons b l' => simpa using (ih l').cons_cons a

theorem zip_fst_take {α β} (l : List α) (l' : List β) : (l.zip l').map (·.1) = l.take l'.length := by
  induction l generalizing l' with
  | nil => simp
  | cons a l ih => cases l' <;> simp [ih]

/-- C52: `fields_mut` of structs and struct variants hands out every reflected field exactly once, with its
name. Assigning values of the right types to the first few of them has the effect of that many single
assignments: those fields show the new values, all others are as before. -/
theorem C52_fields_mut_named (hD : DeclsOK E) (hO : OrdLaws E) {T : Ty} {o : Obj} (h : HasTy E T o)
    (hn : o.Named) :
    ∃ l : List (String × Obj), o.fieldsMut.items = l.map (fun p => (some p.1, p.2)) ∧
      (l.map (·.1)).Nodup ∧ (∀ n x, (n, x) ∈ l ↔ o.field n = some x) ∧
      ∀ ys : List Obj, (∀ p ∈ l.zip ys, ∃ U, p.1.2.typeOf = some U ∧ HasTy E U p.2) →
        let o' := o.fieldsMut.put ys
        (∀ p ∈ l.zip ys, o'.field p.1.1 = some p.2) ∧
        (∀ n, n ∉ (l.take ys.length).map (·.1) → o'.field n = o.field n) ∧
        o.SameShape o' ∧ HasTy E T o' := by
  obtain ⟨l, h1, h2, h3, -⟩ := fieldsMut_named hD h [] hn
  refine ⟨l, h1, h2, h3, fun ys hys => ?_⟩
  obtain ⟨l', h1', h2', h3', hput⟩ := fieldsMut_named hD h ys hn
  have e : l' = l := by
    have := h1'.symm.trans h1
    exact (List.map_injective_iff.mpr fun a b hab => by
      simp only [Prod.mk.injEq, Option.some.injEq] at hab; exact Prod.ext hab.1 hab.2) this
  subst e
  have ez : (l'.map (·.1)).zip ys = (l'.zip ys).map fun p => (p.1.1, p.2) := by
    rw [List.zip_map_left]; rfl
  have hnd : (((l'.map (·.1)).zip ys).map (·.1)).Nodup := h2.sublist (zip_fst_sublist _ _)
  have hfst : ∀ p ∈ l'.zip ys, o.field p.1.1 = some p.1.2 := fun p hp =>
    (h3 _ _).mp (List.of_mem_zip hp).1
  have hreads := seq_reads (get := Obj.field) (set := Obj.assign) (P := fun o' => o.SameShape o')
    (fun o1 k y x hP hx hy => ⟨hP.trans (assign_write hx hy).1, (assign_write hx hy).2⟩)
    ((l'.map (·.1)).zip ys) (Obj.SameShape.rfl' o) hnd (by
      rw [ez]
      intro p hp
      obtain ⟨q, hq, rfl⟩ := List.mem_map.mp hp
      obtain ⟨U, _, hU⟩ := hys q hq
      exact ⟨by rw [hfst q hq]; rfl, hU.not_hidden⟩)
  have htyped := seq_inv (get := Obj.field) (set := Obj.assign) (P := fun o' => HasTy E T o')
    (Q := fun _ x y => ∃ U, x.typeOf = some U ∧ HasTy E U y)
    (fun o1 k y x hP hx hQ => by
      obtain ⟨U, hU, hy⟩ := hQ
      exact ⟨assign_typed hO hP hx hU hy, fun j hj => by
        rw [(assign_write hx hy.not_hidden).2, if_neg hj]⟩)
    ((l'.map (·.1)).zip ys) h hnd (by
      rw [ez]
      intro p hp
      obtain ⟨q, hq, rfl⟩ := List.mem_map.mp hp
      exact ⟨q.1.2, hfst q hq, hys q hq⟩)
  simp only [hput]
  refine ⟨fun p hp => hreads.2.1 (p.1.1, p.2) (by rw [ez]; exact List.mem_map.mpr ⟨p, hp, rfl⟩), ?_,
    hreads.1, htyped⟩
  intro n hn'
  refine hreads.2.2 n fun hm => hn' ?_
  rw [List.map_take]
  have : ((l'.map (·.1)).zip ys).map (·.1) = (l'.map (·.1)).take ys.length := by
    exact zip_fst_take _ _
  rwa [this] at hm

/-- C52: `fields_mut` of tuple structs, tuples and tuple variants and `iter_mut` of lists and arrays hand out
every reflected field exactly once, in order. Assigning values of the right types to the first few of them
has the effect of that many single assignments. -/
theorem C52_fields_mut_positional (hO : OrdLaws E) {T : Ty} {o : Obj} (h : HasTy E T o) (hn : o.Positional) :
    ∃ is : List Nat, is.Pairwise (· < ·) ∧ (∀ i, i ∈ is ↔ (o.fieldAt i).isSome) ∧
      List.Forall₂ (fun i q => q.1 = none ∧ o.fieldAt i = some q.2) is o.fieldsMut.items ∧
      ∀ ys : List Obj, (∀ p ∈ o.fieldsMut.items.zip ys, ∃ U, p.1.2.typeOf = some U ∧ HasTy E U p.2) →
        let o' := o.fieldsMut.put ys
        (∀ p ∈ is.zip ys, o'.fieldAt p.1 = some p.2) ∧
        (∀ i, i ∉ is.take ys.length → o'.fieldAt i = o.fieldAt i) ∧
        o.SameShape o' ∧ HasTy E T o' := by
  obtain ⟨is, h1, h2, h3, -⟩ := fieldsMut_positional [] hn
  refine ⟨is, h1, h2, h3, fun ys hys => ?_⟩
  obtain ⟨is', h1', h2', h3', hput⟩ := fieldsMut_positional ys hn
  have e : is' = is := h1'.eq_of_mem_iff h1 fun i => (h2' i).trans (h2 i).symm
  subst e
  have hnd : ((is'.zip ys).map (·.1)).Nodup :=
    (h1.imp (fun h => Nat.ne_of_lt h)).sublist (zip_fst_sublist _ _)
  have hz : ∀ p ∈ is'.zip ys, ∃ x, o.fieldAt p.1 = some x ∧ ∃ U, x.typeOf = some U ∧ HasTy E U p.2 := by
    clear h1 h2 h1' h2' h3' hput hnd
    generalize o.fieldsMut.items = items at h3 hys
    induction h3 generalizing ys with
    | nil => simp
    | cons hab _ ih =>
      cases ys with
      | nil => simp
      | cons y ys =>
        intro p hp
        rcases List.mem_cons.mp (by simpa using hp) with rfl | hp
        · exact ⟨_, hab.2, hys (_, y) (by simp)⟩
        · exact ih ys (fun q hq => hys q (by simp [hq])) p hp
  have hreads := seq_reads (get := Obj.fieldAt) (set := Obj.assignAt)
    (P := fun o' => o.SameShape o' ∧ o'.Positional)
    (fun o1 k y x hP hx hy => by
      have hw := assignAt_write hP.2 hx hy
      exact ⟨⟨hP.1.trans hw.1, hw.1.positional hP.2⟩, hw.2⟩)
    (is'.zip ys) ⟨Obj.SameShape.rfl' o, hn⟩ hnd (by
      intro p hp
      obtain ⟨x, hx, U, _, hU⟩ := hz p hp
      exact ⟨by rw [hx]; rfl, hU.not_hidden⟩)
  have htyped := seq_inv (get := Obj.fieldAt) (set := Obj.assignAt)
    (P := fun o' => HasTy E T o' ∧ o'.Positional)
    (Q := fun _ x y => ∃ U, x.typeOf = some U ∧ HasTy E U y)
    (fun o1 k y x hP hx hQ => by
      obtain ⟨U, hU, hy⟩ := hQ
      have hw := assignAt_write hP.2 hx hy.not_hidden
      exact ⟨⟨assignAt_typed hO hP.2 hP.1 hx hU hy, hw.1.positional hP.2⟩, fun j hj => by
        rw [hw.2, if_neg hj]⟩)
    (is'.zip ys) ⟨h, hn⟩ hnd hz
  simp only [hput]
  refine ⟨hreads.2.1, ?_, hreads.1.1, htyped.1⟩
  intro i hi
  refine hreads.2.2 i fun hm => hi ?_
  rwa [zip_fst_take] at hm

/-- C53: `fields_mut` of a struct made by `derive(Reflect)` is in the order of `fields`. -/
theorem C53_order_derived_struct (n : String) (fs : List (String × Obj)) :
    ∃ l, Yields FieldIter.nextNamed (Obj.struct (.derived n) fs).iter l ∧
      (Obj.struct (.derived n) fs).fieldsMut.items = l.map fun p => (some p.1, p.2) :=
  ⟨_, nextNamed_yields (.inl rfl), rfl⟩

/-- C53, dynamic structs and struct variants: `fields_mut` is in the order of `fields` exactly when the
fields were set in strictly increasing order of their names. So in general it is not. -/
theorem C53_order_dynamic_partial (hO : OrdLaws E) {T : Ty} {o : Obj} (h : HasTy E T o) {ns : List String}
    {fs : List (String × Obj)} (ho : o = .struct (.dyn ns) fs ∨ ∃ v, o = .enumS (.dyn ns) v fs) :
    (∃ l, Yields FieldIter.nextNamed o.iter l ∧ o.fieldsMut.items = l.map fun p => (some p.1, p.2)) ↔
      ∀ i j m n, i < j → o.nameAt i = some m → o.nameAt j = some n → strCmp m n = .lt := by
  obtain ⟨v1, v2⟩ := h.dyn_vis
  obtain ⟨s1, s2⟩ := h.dyn_sorted
  obtain ⟨n1, n2⟩ := OK.dyn_names hO ⟨T, h⟩
  have hn : o.Named := by rcases ho with rfl | ⟨v, rfl⟩ <;> simp [Obj.Named, Obj.kind, Obj.variantKind]
  have key : o.fieldsMut.items = (visFields fs).map (fun p => (some p.1, p.2)) ∧ o.namedIter = dynIter fs ns ∧
      (∀ i, o.nameAt i = ns[i]?) ∧ BMSorted strCmp fs ∧ (∀ p ∈ fs, p.2.isHidden = false) ∧
      ∀ n, n ∈ ns ↔ n ∈ fs.map (·.1) := by
    rcases ho with rfl | ⟨v, rfl⟩
    · exact ⟨rfl, rfl, fun _ => rfl, s1 _ _ rfl, v1 _ _ rfl, n1 _ _ rfl⟩
    · exact ⟨rfl, rfl, fun _ => rfl, s2 _ _ _ rfl, v2 _ _ _ rfl, n2 _ _ _ rfl⟩
  obtain ⟨k1, k2, k3, k4, k5, k6⟩ := key
  rw [visFields_all k5] at k1
  have hy := nextNamed_yields (o := o) hn
  rw [k2] at hy
  have e1 : (∃ l, Yields FieldIter.nextNamed o.iter l ∧ o.fieldsMut.items = l.map fun p => (some p.1, p.2)) ↔
      dynIter fs ns = fs := by
    constructor
    · rintro ⟨l, hl, hi⟩
      have el : l = dynIter fs ns := List.ext_getElem? fun i => (hl i).symm.trans (hy i)
      have ef : fs = l := by
        rw [k1] at hi
        exact (List.map_injective_iff.mpr fun a b hab => by
          simp only [Prod.mk.injEq, Option.some.injEq] at hab; exact Prod.ext hab.1 hab.2) hi
      rw [← el, ef]
    · intro e
      exact ⟨fs, by rw [e] at hy; exact hy, k1⟩
  rw [e1, dynIter_eq_iff k4 k6, List.pairwise_iff_getElem]
  simp only [k3]
  constructor
  · intro hp i j m n hij hm hn'
    obtain ⟨a, ha⟩ := List.getElem?_eq_some_iff.mp hm
    obtain ⟨b, hb⟩ := List.getElem?_eq_some_iff.mp hn'
    rw [← ha, ← hb]; exact hp i j a b hij
  · intro hp i j a b hij
    exact hp i j _ _ hij (List.getElem?_eq_getElem a) (List.getElem?_eq_getElem b)

/-- C53, tuple-like values: `fields_mut` is in the order of `fields` exactly when no reflected field comes
after a skipped one. Otherwise `fields` stops early and `fields_mut` does not. -/
theorem C53_order_positional_partial {o : Obj} (hn : o.Positional) :
    Yields FieldIter.nextPos o.iter (o.fieldsMut.items.map (·.2)) ↔
      ∀ i j, i < j → (o.fieldAt j).isSome → (o.fieldAt i).isSome := by
  have hy := nextPos_yields (o := o) hn
  have e : Yields FieldIter.nextPos o.iter (o.fieldsMut.items.map (·.2)) ↔
      o.posIter = o.fieldsMut.items.map (·.2) := by
    constructor
    · intro h; exact List.ext_getElem? fun i => (hy i).symm.trans (h i)
    · intro h; rw [← h]; exact hy
  rw [e]
  have pos : ∀ fs : List Obj, (fs.takeWhile fun x => !x.isHidden) =
      ((fs.filter fun x => !x.isHidden).map fun x => ((none, x) : Option String × Obj)).map (·.2) ↔
      ∀ i j, i < j → (visAt fs j).isSome → (visAt fs i).isSome := by
    intro fs
    have em : ((fs.filter fun x => !x.isHidden).map fun x => ((none, x) : Option String × Obj)).map (·.2) =
        fs.filter fun x => !x.isHidden := by simp [Function.comp_def]
    have hv : ∀ i, (visAt fs i).isSome ↔ ∃ x, fs[i]? = some x ∧ (!x.isHidden) = true := by
      intro i
      cases hx : fs[i]? with
      | none => simp [visAt, hx]
      | some x => cases hh : x.isHidden <;> simp [visAt, hx, hh]
    rw [em, takeWhile_eq_filter_iff]
    simp only [hv]
    exact ⟨fun h i j hij ⟨x, a, b⟩ => h i j hij x a b, fun h i j hij x a b => h i j hij ⟨x, a, b⟩⟩
  have all : ∀ xs : List Obj, xs = (xs.map fun x => ((none, x) : Option String × Obj)).map (·.2) ↔
      ∀ i j : Nat, i < j → (xs[j]?).isSome → (xs[i]?).isSome := by
    intro xs
    have em : (xs.map fun x => ((none, x) : Option String × Obj)).map (·.2) = xs := by
      simp [Function.comp_def]
    simp only [em, true_iff]
    intro i j hij hj
    obtain ⟨y, hy⟩ := Option.isSome_iff_exists.mp hj
    have := (List.getElem?_eq_some_iff.mp hy).1
    rw [List.getElem?_eq_getElem (by omega)]; rfl
  cases o with
  | tupleStruct _ fs => exact pos fs
  | tuple _ fs => exact pos fs
  | enumT _ _ fs => exact pos fs
  | vec _ fs => exact all fs
  | array _ fs => exact all fs
  | _ => rcases hn with hn | hn | hn | hn | hn <;> simp [Obj.kind, Obj.variantKind] at hn

/-- C53, struct variants of derived enums: likewise. -/
theorem C53_order_struct_variant_partial (n v : String) (fs : List (String × Obj)) :
    (∃ l, Yields FieldIter.nextNamed (Obj.enumS (.derived n) v fs).iter l ∧
      (Obj.enumS (.derived n) v fs).fieldsMut.items = l.map fun p => (some p.1, p.2)) ↔
      ∀ i j, i < j → ((Obj.enumS (.derived n) v fs).fieldAt j).isSome →
        ((Obj.enumS (.derived n) v fs).fieldAt i).isSome := by
  have hy := nextNamed_yields (o := .enumS (.derived n) v fs) (.inr rfl)
  have e1 : (∃ l, Yields FieldIter.nextNamed (Obj.enumS (.derived n) v fs).iter l ∧
      (Obj.enumS (.derived n) v fs).fieldsMut.items = l.map fun p => (some p.1, p.2)) ↔
      (fs.takeWhile fun p => !p.2.isHidden) = visFields fs := by
    constructor
    · rintro ⟨l, hl, hi⟩
      have el : l = fs.takeWhile fun p => !p.2.isHidden :=
        List.ext_getElem? fun i => (hl i).symm.trans (hy i)
      have ef : visFields fs = l :=
        (List.map_injective_iff.mpr fun a b hab => by
          simp only [Prod.mk.injEq, Option.some.injEq] at hab; exact Prod.ext hab.1 hab.2) hi
      rw [← el, ef]
    · intro e
      refine ⟨visFields fs, ?_, rfl⟩
      rw [← e]; exact hy
  rw [e1, visFields, takeWhile_eq_filter_iff]
  have hv : ∀ i, ((Obj.enumS (.derived n) v fs).fieldAt i).isSome ↔
      ∃ p, fs[i]? = some p ∧ (!p.2.isHidden) = true := by
    intro i
    cases hx : fs[i]? with
    | none => simp [Obj.fieldAt, visAt, hx]
    | some p => cases hh : p.2.isHidden <;> simp [Obj.fieldAt, visAt, hx, hh]
  simp only [hv]
  exact ⟨fun h i j hij ⟨x, a, b⟩ => h i j hij x a b, fun h i j hij x a b => h i j hij ⟨x, a, b⟩⟩

/-! ## Maps -/

theorem fillVals_eq (kvs : List (Obj × Obj)) (ys : List Obj) (i : Nat) :
    (fillVals kvs ys)[i]? = kvs[i]?.map fun p => (p.1, (ys[i]?).getD p.2) := by
  induction kvs generalizing ys i with
  | nil => simp [fillVals]
  | cons p r ih =>
    obtain ⟨k, x⟩ := p
    cases ys with
    | nil => cases i <;> simp [fillVals]
    | cons y ys => cases i with
      | zero => simp [fillVals]
      | succ i => simp [fillVals, ih]

/-- C52: `iter_mut` of a map is in the order of `iter`. After assigning to the first few values, the map has
the same keys in the same order, those values are the new ones, and the others the old ones. -/
theorem C52_map_iter_mut (o : Obj) (ys : List Obj) :
    o.mapIterMut.1 = o.mapIter ∧
    ∀ i : Nat, (o.mapIterMut.2 ys).mapIter[i]? = o.mapIter[i]?.map fun p => (p.1, (ys[i]?).getD p.2) := by
  cases o <;> simp only [Obj.mapIterMut, Obj.mapIter, true_and] <;> intro i
  case map => exact fillVals_eq _ _ _
  all_goals simp

/-- C52: assigning values of the value type through `iter_mut` of a map keeps the type of the map. -/
theorem C52_map_iter_mut_typed {k v : Ty} {o : Obj} (h : HasTy E (.map k v) o) (ys : List Obj)
    (hy : ∀ y ∈ ys, HasTy E v y) : HasTy E (.map k v) (o.mapIterMut.2 ys) := by
  cases h with
  | map _ _ kvs hs hk hv =>
    have hmem : ∀ p ∈ fillVals kvs ys, HasTy E k p.1 ∧ HasTy E v p.2 := by
      intro p hp
      obtain ⟨i, hi⟩ := List.getElem?_of_mem hp
      rw [fillVals_eq] at hi
      obtain ⟨q, hq, rfl⟩ := Option.map_eq_some_iff.mp hi
      have hqm := List.mem_of_getElem? hq
      refine ⟨hk q hqm, ?_⟩
      cases hyi : ys[i]? with
      | none => exact hv q hqm
      | some y => exact hy y (List.mem_of_getElem? hyi)
    refine .map _ _ _ ?_ (fun p hp => (hmem p hp).1) (fun p hp => (hmem p hp).2)
    have : (fillVals kvs ys).map (·.1) = kvs.map (·.1) := by
      refine List.ext_getElem? fun i => ?_
      simp only [List.getElem?_map, fillVals_eq, Option.map_map]; rfl
    have hs' : (kvs.map (·.1)).Pairwise fun a b => E.kcmp k a b = .lt := List.pairwise_map.mpr hs
    rw [← this] at hs'
    exact List.pairwise_map.mp hs'

/-! ## `get_field_mut` -/

theorem mapGetMut_get (o k : Obj) : (o.mapGetMut E k).map (·.get) = o.mapGet E k := by
  cases o <;> simp only [Obj.mapGetMut, Obj.mapGet, Option.map_none]
  case map kt vt kvs =>
    cases fromReflect E kt k with
    | none => rfl
    | some k' => simp only [Option.map_map, Option.bind_some, ← placeKey_get]; rfl

theorem downcast_get (r : Option Place) (f : Obj → Option Ty) (t : Ty) :
    (r.bind fun x => (f x.get).bind fun s => x.downcast s t).map (·.get) =
      (r.map (·.get)).bind fun x => (f x).bind fun s => x.downcast s t := by
  cases r with
  | none => rfl
  | some pl =>
    simp only [Option.bind_some, Option.map_some]
    cases f pl.get with
    | none => rfl
    | some s =>
      simp only [Option.bind_some, Place.downcast, Obj.downcast]
      split <;> rfl

/-- C47, C52: every form of `get_field_mut` gives a reference to what the same form of `get_field` gives, and
nothing when that gives nothing. -/
theorem C52_get_field_mut_agrees {S : Ty} {o : Obj} (h : HasTy E S o) (n : String) (i : Nat) (k : Obj)
    (t : Ty) :
    (getNamedMut E o n t).map (·.get) = getNamed E o n t ∧
    (getIndexedMut o i t).map (·.get) = getIndexed o i t ∧
    (getEntryMut E o k t).map (·.get) = getEntry E o k t ∧
    (getEntryStrMut E o n t).map (·.get) = getEntryStr E o n t ∧
    (valueGetStrMut E o n t).map (·.get) = valueGetStr E o n t ∧
    (valueGetKeyMut E o k t).map (·.get) = valueGetKey E o k t := by
  have hA : ∀ n, (getNamedMut E o n t).map (·.get) = getNamed E o n t := fun n => by
    unfold getNamedMut getNamed; rw [downcast_get _ (o.fieldRefTy E n), fieldMut_get]
  have hB : ∀ i, (getIndexedMut o i t).map (·.get) = getIndexed o i t := fun i => by
    unfold getIndexedMut getIndexed; rw [downcast_get _ (o.fieldAtRefTy i), fieldAtMut_get h]
  have hC : ∀ k, (getEntryMut E o k t).map (·.get) = getEntry E o k t := fun k => by
    unfold getEntryMut getEntry; rw [downcast_get _ Obj.typeOf, mapGetMut_get]
  have hD : ∀ n, (getEntryStrMut E o n t).map (·.get) = getEntryStr E o n t := fun n => hC _
  refine ⟨hA n, hB i, hC k, hD n, ?_, ?_⟩
  · cases o <;> simp only [valueGetStrMut, valueGetStr, Obj.reflectMut, Obj.reflectRef, Option.map_none] <;>
      first | exact hA n | exact hD n
  · unfold valueGetKeyMut valueGetKey
    cases k.asUsize with
    | some i =>
      cases o <;> simp only [Obj.reflectMut, Obj.reflectRef, Option.map_none] <;>
        first | exact hB i | exact hC k
    | none =>
      cases k.asString with
      | some n =>
        cases o <;> simp only [Obj.reflectMut, Obj.reflectRef, Option.map_none] <;>
          first | exact hD n | exact hA n
      | none =>
        cases o <;> simp only [Obj.reflectMut, Obj.reflectRef, Option.map_none]
        exact hC k

/-! ## Concrete cases -/

/-- Assigning to `a` of the `Secret`; its fields by `fields_mut`. -/
example : demoSecret.Named ∧ demoSecret.field "a" = some (.scalar (.int .u8 7)) ∧
    (demoSecret.assign "a" (.scalar (.int .u8 9))).field "a" = some (.scalar (.int .u8 9)) ∧
    HasTy demoEnv (.named "Secret") (demoSecret.assign "a" (.scalar (.int .u8 9))) ∧
    demoSecret.fieldsMut.items.map (·.1) = [some "a", some "b"] ∧
    (demoSecret.fieldsMut.put [.scalar (.int .u8 9)]).field "a" = some (.scalar (.int .u8 9)) := by
  have h := C52_assign_field demo_ordLaws demoSecret_hasTy (n := "a") (U := .scalar (.int .u8))
    (y := .scalar (.int .u8 9)) rfl rfl (.scalar' rfl)
  exact ⟨.inl rfl, rfl, h.1 "a", h.2.2.1, rfl, rfl⟩

/-- Assigning to the elements of a list and to `0` of the `Shape`. -/
example : demoShape.Positional ∧ demoShape.fieldAt 0 = some (.scalar (.int .i32 3)) ∧
    HasTy demoEnv (.named "Shape") (demoShape.assignAt 0 (.scalar (.int .i32 4))) ∧
    (Obj.vec (.scalar (.int .u8)) [.scalar (.int .u8 1), .scalar (.int .u8 2)]).fieldsMut.put
      [.scalar (.int .u8 5), .scalar (.int .u8 6)] =
      .vec (.scalar (.int .u8)) [.scalar (.int .u8 5), .scalar (.int .u8 6)] := by
  have hp : demoShape.Positional := .inr (.inr (.inr (.inr rfl)))
  have h := C52_assign_field_at demo_ordLaws demoShape_hasTy hp (i := 0) (U := .scalar (.int .i32))
    (y := .scalar (.int .i32 4)) rfl rfl (.scalar' rfl)
  exact ⟨hp, rfl, h.2.2.1, rfl⟩

/-- `StructValue` with `b` set before `a`: `fields` yields `b, a`, `fields_mut` yields `a, b`. -/
example : ∃ o : Obj, HasTy demoEnv .structValue o ∧ o.namedIter.map (·.1) = ["b", "a"] ∧
    o.fieldsMut.items.map (·.1) = [some "a", some "b"] ∧
    ¬ ∃ l, Yields FieldIter.nextNamed o.iter l ∧ o.fieldsMut.items = l.map fun p => (some p.1, p.2) := by
  have h : HasTy demoEnv .structValue
      (.struct (.dyn ["b", "a"]) [("a", .scalar (.bool true)), ("b", .scalar (.bool false))]) :=
    .structValue ["b", "a"] [("a", .scalar (.bool true)), ("b", .scalar (.bool false))] _
      (.struct _ _ (by simp [or_comm]) (by simp [BMSorted]; decide)
        (by intro p hp; simp at hp; rcases hp with rfl | rfl <;> exact .scalar _))
      (by simp [Value.toObj])
  refine ⟨_, h, rfl, rfl, fun hc => ?_⟩
  have := (C53_order_dynamic_partial demo_ordLaws h (.inl rfl)).mp hc 0 1 "b" "a" (by omega) rfl rfl
  revert this; decide

/-- A tuple struct whose first field is skipped: `fields` yields nothing, `fields_mut` the second field. -/
example : (Obj.tupleStruct (.derived "G") [.hidden 0, .scalar (.bool true)]).Positional ∧
    (Obj.tupleStruct (.derived "G") [.hidden 0, .scalar (.bool true)]).posIter = [] ∧
    (Obj.tupleStruct (.derived "G") [.hidden 0, .scalar (.bool true)]).fieldsMut.items =
      [(none, .scalar (.bool true))] :=
  ⟨.inl rfl, rfl, rfl⟩

end Mirror
