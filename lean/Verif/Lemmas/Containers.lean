import Verif.Spec.Containers
import Verif.Lemmas.ReflectEq
import Verif.Spec.Iter

set_option linter.unusedSimpArgs false

/-!
# Lemmas about containers
-/

namespace Mirror

section
variable {κ α : Type} {P : κ → Prop} {cmp : κ → κ → Ordering}

theorem bmGet_insert (hc : CmpOn P cmp) {l : List (κ × α)} (hl : ∀ p ∈ l, P p.1)
    {k a : κ} (hk : P k) (ha : P a) (v : α) :
    bmGet cmp a (bmInsert cmp k v l) = if cmp a k = .eq then some v else bmGet cmp a l := by
  induction l with
  | nil => simp [bmInsert, bmGet]
  | cons p r ih =>
    obtain ⟨k', v'⟩ := p
    have hk' : P k' := hl _ List.mem_cons_self
    simp only [bmInsert]
    split
    · simp only [bmGet]
    · next he =>
      have : cmp a k = cmp a k' := hc.eq_trans_right hk hk' ha he
      simp only [bmGet, this]
      split <;> simp_all
    · next he =>
      simp only [bmGet]
      rw [ih fun p hp => hl p (by simp [hp])]
      by_cases h1 : cmp a k' = .eq
      · have : cmp a k ≠ .eq := by
          intro h2
          have := hc.eq_trans _ _ k' ha hk hk' h2
          rw [h1, he] at this; cases this
        simp [h1, this]
      · simp [h1]

theorem bmRemove_sub {k : κ} {l : List (κ × α)} : (bmRemove cmp k l).Sublist l := by
  induction l with
  | nil => simp [bmRemove]
  | cons p r ih =>
    simp only [bmRemove]
    split
    · exact List.sublist_cons_self _ _
    · exact ih.cons_cons _

theorem bmGet_remove (hc : CmpOn P cmp) {l : List (κ × α)} (hl : ∀ p ∈ l, P p.1)
    (hs : BMSorted cmp l) {k a : κ} (hk : P k) (ha : P a) :
    bmGet cmp a (bmRemove cmp k l) = if cmp a k = .eq then none else bmGet cmp a l := by
  induction l with
  | nil => simp [bmRemove, bmGet]
  | cons p r ih =>
    obtain ⟨k', v'⟩ := p
    have hk' : P k' := hl _ List.mem_cons_self
    obtain ⟨h1, h2⟩ := List.pairwise_cons.mp hs
    simp only [bmRemove]
    split
    · next he =>
      have : cmp a k = cmp a k' := hc.eq_trans_right hk hk' ha he
      simp only [bmGet, this]
      by_cases h : cmp a k' = .eq
      · simp only [h, if_true]
        cases hg : bmGet cmp a r with
        | none => rfl
        | some b =>
          obtain ⟨k'', hm, he'⟩ := bmGet_mem hg
          have e := hc.eq_trans _ _ k'' ha hk' (hl (k'', b) (by simp [hm])) h
          rw [he', h1 _ hm] at e; cases e
      · simp [h]
    · next he =>
      simp only [bmGet]
      rw [ih (fun p hp => hl p (by simp [hp])) h2]
      by_cases h : cmp a k' = .eq
      · have : cmp a k ≠ .eq := by
          intro h3
          have := hc.eq_trans _ _ k' ha hk hk' h3
          exact he (this ▸ h)
        simp [h, this]
      · simp [h]

end

/-! ## Maps -/

theorem represents_iff {E : Env} (hO : OrdLaws E) {kt vt : Ty} {kvs : List (Obj × Obj)}
    (h : HasTy E (.map kt vt) (.map kt vt kvs)) {f : AbsMap} :
    Represents E kt (.map kt vt kvs) f ↔ ∀ a, HasTy E kt a → f a = bmGet (E.kcmp kt) a kvs := by
  cases h with
  | map _ _ _ h1 h2 h3 =>
    have key : ∀ a, HasTy E kt a → ∀ b, bmGet (E.kcmp kt) a kvs = some b ↔
        ∃ p ∈ kvs, E.kcmp kt a p.1 = .eq ∧ p.2 = b := by
      intro a ha b
      rw [bmGet_iff (hO.cmpOn kt) h2 h1 ha]
      constructor
      · rintro ⟨k', hm, he⟩; exact ⟨_, hm, he, rfl⟩
      · rintro ⟨p, hm, he, rfl⟩; exact ⟨p.1, hm, he⟩
    constructor
    · intro h a ha
      apply Option.ext
      intro b
      rw [h a ha b, key a ha b]; rfl
    · intro h a ha b
      rw [h a ha, key a ha b]; rfl

theorem map_form {E : Env} {kt vt : Ty} {m : Obj} (h : HasTy E (.map kt vt) m) :
    ∃ kvs, m = .map kt vt kvs := by
  cases h; exact ⟨_, rfl⟩

theorem mapOp_step {E : Env} (hO : OrdLaws E) {kt vt : Ty} {m : Obj} {f : AbsMap} {op : MapOp}
    (hm : HasTy E (.map kt vt) m) (hop : op.Proper E) (hf : Represents E kt m f) :
    (op.run E m).1 = (op.abs E kt vt f).1 ∧ HasTy E (.map kt vt) (op.run E m).2 ∧
      Represents E kt (op.run E m).2 (op.abs E kt vt f).2 := by
  obtain ⟨kvs, rfl⟩ := map_form hm
  have hf' := (represents_iff hO hm).mp hf
  have hm' := hm
  have hc := hO.cmpOn kt
  cases hm with
  | map _ _ _ h1 h2 h3 =>
  cases op with
  | insert key val =>
    obtain ⟨⟨tk, hk⟩, ⟨tv, hv⟩⟩ := hop
    simp only [MapOp.run, MapOp.abs, Obj.mapInsert]
    cases ek : fromReflect E kt key with
    | none => exact ⟨rfl, hm', hf⟩
    | some k =>
      cases ev : fromReflect E vt val with
      | none => exact ⟨rfl, hm', hf⟩
      | some v =>
        have tk := fromReflect_sound hO kt key ⟨_, hk⟩ ek
        have tv := fromReflect_sound hO vt val ⟨_, hv⟩ ev
        have typed : HasTy E (.map kt vt) (.map kt vt (bmInsert (E.kcmp kt) k v kvs)) :=
          .map _ _ _ (bmInsert_sorted hc tk h2 h1) (bmInsert_keys tk h2) (bmInsert_vals tv h3)
        refine ⟨(hf' k tk).symm, typed, (represents_iff hO typed).mpr ?_⟩
        intro a ha
        rw [bmGet_insert hc h2 tk ha]
        simp only [AbsMap.set, hf' a ha]
  | remove key =>
    obtain ⟨tk, hk⟩ := hop
    simp only [MapOp.run, MapOp.abs, Obj.mapRemove]
    cases ek : fromReflect E kt key with
    | none => exact ⟨rfl, hm', hf⟩
    | some k =>
      have tk := fromReflect_sound hO kt key ⟨_, hk⟩ ek
      have sub := bmRemove_sub (cmp := E.kcmp kt) (k := k) (l := kvs)
      have typed : HasTy E (.map kt vt) (.map kt vt (bmRemove (E.kcmp kt) k kvs)) :=
        .map _ _ _ (h1.sublist sub) (fun p hp => h2 p (sub.subset hp))
          (fun p hp => h3 p (sub.subset hp))
      refine ⟨(hf' k tk).symm, typed, (represents_iff hO typed).mpr ?_⟩
      intro a ha
      rw [bmGet_remove hc h2 h1 tk ha]
      simp only [AbsMap.set, hf' a ha]

theorem mapOps_history {E : Env} (hO : OrdLaws E) {kt vt : Ty} (ops : List MapOp) : ∀ {m : Obj}
    {f : AbsMap}, HasTy E (.map kt vt) m → (∀ op ∈ ops, op.Proper E) → Represents E kt m f →
    (MapOp.runAll E m ops).1 = (MapOp.absAll E kt vt f ops).1 ∧
    HasTy E (.map kt vt) (MapOp.runAll E m ops).2 ∧
    Represents E kt (MapOp.runAll E m ops).2 (MapOp.absAll E kt vt f ops).2 := by
  induction ops with
  | nil => intro m f hm _ hf; exact ⟨rfl, hm, hf⟩
  | cons op ops ih =>
    intro m f hm hops hf
    obtain ⟨h1, h2, h3⟩ := mapOp_step hO hm (hops op (by simp)) hf
    obtain ⟨i1, i2, i3⟩ := ih h2 (fun op hop => hops op (by simp [hop])) h3
    exact ⟨by simp only [MapOp.runAll, MapOp.absAll, h1, i1], i2, i3⟩

/-! ## Lists -/

theorem vecPop_eq {α} (l : List α) :
    vecPop l = l.getLast?.map fun x => (x, l.dropLast) := by
  induction l with
  | nil => rfl
  | cons x r ih =>
    cases r with
    | nil => rfl
    | cons y r =>
      simp only [vecPop, ih]
      cases h : (y :: r).getLast? with
      | none => simp at h
      | some z => simp [List.getLast?_cons_cons, h]

theorem vecRemove_eq {α} (i : Nat) (l : List α) :
    vecRemove i l = l[i]?.map fun x => (x, l.eraseIdx i) := by
  induction l generalizing i with
  | nil => simp [vecRemove]
  | cons x r ih =>
    cases i with
    | zero => simp [vecRemove]
    | succ i =>
      simp only [vecRemove, ih, List.getElem?_cons_succ]
      cases r[i]? <;> simp

theorem listOp_step {E : Env} {t : Ty} {l : List Obj} (op : ListOp) :
    ListOp.run E (.vec t l) op = ((op.abs E t l).1, .vec t (op.abs E t l).2) := by
  cases op with
  | push v =>
    simp only [ListOp.run, ListOp.abs, Obj.listPush]
    cases fromReflect E t v <;> simp
  | pop =>
    simp only [ListOp.run, ListOp.abs, Obj.listPop, vecPop_eq]
    cases h : l.getLast? with
    | none => rw [List.getLast?_eq_none_iff] at h; subst h; simp
    | some x => simp
  | tryRemove i =>
    simp only [ListOp.run, ListOp.abs, Obj.listTryRemove, vecRemove_eq]
    by_cases hi : i < l.length
    · simp [hi]
    · simp [hi, List.eraseIdx_of_length_le (by omega : l.length ≤ i)]

/-! ## Iterators -/

theorem iterAfter_add {σ α : Type} (next : σ → Option α × σ) (n m : Nat) (s : σ) :
    iterAfter next (n + m) s = iterAfter next m (iterAfter next n s) := by
  induction n generalizing s with
  | zero => simp [iterAfter]
  | succ n ih => rw [Nat.succ_add]; exact ih _

theorem yields_of {σ α : Type} {next : σ → Option α × σ} {s : Nat → σ} {l : List α}
    (h : ∀ i, i ≤ l.length →
      next (s i) = match l[i]? with | none => (none, s i) | some x => (some x, s (i + 1))) :
    Yields next (s 0) l := by
  have after : ∀ n, iterAfter next n (s 0) = s (min n l.length) := by
    intro n
    induction n with
    | zero => simp [iterAfter]
    | succ n ih =>
      rw [iterAfter_add, ih]
      simp only [iterAfter]
      rw [h _ (by omega)]
      by_cases hn : n < l.length
      · have e : min n l.length = n := by omega
        have e' : min (n + 1) l.length = n + 1 := by omega
        simp [e, e', List.getElem?_eq_getElem hn]
      · have e : min n l.length = l.length := by omega
        have e' : min (n + 1) l.length = l.length := by omega
        simp [e, e']
  intro n
  rw [nthNext, after, h _ (by omega)]
  by_cases hn : n < l.length
  · have e : min n l.length = n := by omega
    simp [e, List.getElem?_eq_getElem hn]
  · have e : min n l.length = l.length := by omega
    simp [e, List.getElem?_eq_none (by omega : l.length ≤ n)]

theorem takeWhile_getElem? {α} (q : α → Bool) (l : List α) (i : Nat) (h : i ≤ (l.takeWhile q).length) :
    (l.takeWhile q)[i]? = (l[i]?).bind fun x => if q x then some x else none := by
  induction l generalizing i with
  | nil => simp
  | cons x r ih =>
    by_cases hq : q x
    · cases i with
      | zero => simp [hq]
      | succ i =>
        simp only [List.takeWhile_cons, hq, if_true, List.getElem?_cons_succ] at h ⊢
        exact ih i (by simpa using h)
    · simp only [List.takeWhile_cons, hq, Bool.false_eq_true, if_false, List.length_nil,
        Nat.le_zero_eq] at h ⊢
      subst h; simp [hq]

theorem visAt_takeWhile {fs : List Obj} {i : Nat} (h : i ≤ (fs.takeWhile fun x => !x.isHidden).length) :
    visAt fs i = (fs.takeWhile fun x => !x.isHidden)[i]? := by
  rw [takeWhile_getElem? _ _ _ h, visAt]
  cases fs[i]? with
  | none => rfl
  | some x => cases hx : x.isHidden <;> simp [hx]

theorem posIter_fieldAt {o : Obj} (hk : o.kind = .tupleStruct ∨ o.kind = .tuple ∨ o.kind = .list ∨
    o.kind = .array ∨ o.variantKind = some .tuple) {i : Nat} (h : i ≤ o.posIter.length) :
    o.fieldAt i = o.posIter[i]? := by
  cases o <;> simp [Obj.kind, Obj.variantKind] at hk <;> simp only [Obj.fieldAt, Obj.posIter] at h ⊢ <;>
    exact visAt_takeWhile h

theorem dynIter_at {fs : List (String × Obj)} {ns : List String} {i : Nat}
    (h : i ≤ (dynIter fs ns).length) :
    (dynIter fs ns)[i]? = (ns[i]?).bind fun n => (lookup n fs).map fun x => (n, x) := by
  induction ns generalizing i with
  | nil => simp [dynIter]
  | cons n ns ih =>
    simp only [dynIter] at h ⊢
    cases hl : lookup n fs with
    | none =>
      simp only [hl, List.length_nil, Nat.le_zero_eq] at h
      subst h; simp [hl]
    | some x =>
      simp only [hl] at h
      cases i with
      | zero => simp [hl]
      | succ i => simpa using ih (by simpa using h)

theorem namedIter_at {o : Obj} (hk : o.kind = .struct ∨ o.variantKind = some .struct) {i : Nat}
    (h : i ≤ o.namedIter.length) :
    o.namedIter[i]? = (o.nameAt i).bind fun n => (o.fieldAt i).map fun x => (n, x) := by
  cases o <;> simp [Obj.kind, Obj.variantKind] at hk
  case struct tag fs =>
    cases tag with
    | derived n =>
      simp only [Obj.namedIter, Obj.nameAt, Obj.fieldAt]
      cases (visFields fs)[i]? <;> rfl
    | dyn ns =>
      simp only [Obj.namedIter, Obj.nameAt, Obj.fieldAt] at h ⊢
      rw [dynIter_at h]
      cases ns[i]? <;> rfl
  case enumS tag vn fs =>
    cases tag with
    | derived n =>
      simp only [Obj.namedIter, Obj.nameAt, Obj.fieldAt] at h ⊢
      rw [takeWhile_getElem? _ _ _ h, visAt, List.getElem?_map]
      cases fs[i]? with
      | none => rfl
      | some x => cases hx : x.2.isHidden <;> simp [hx]
    | dyn ns =>
      simp only [Obj.namedIter, Obj.nameAt, Obj.fieldAt] at h ⊢
      rw [dynIter_at h]
      cases ns[i]? <;> rfl

theorem nextNamed_yields {o : Obj} (hk : o.kind = .struct ∨ o.variantKind = some .struct) :
    Yields FieldIter.nextNamed o.iter o.namedIter := by
  refine yields_of (s := fun i => (⟨o, i⟩ : FieldIter)) ?_
  intro i hi
  rw [namedIter_at hk hi]
  simp only [FieldIter.nextNamed]
  cases o.nameAt i with
  | none => rfl
  | some n => cases o.fieldAt i <;> rfl

theorem nextPos_yields {o : Obj} (hk : o.kind = .tupleStruct ∨ o.kind = .tuple ∨ o.kind = .list ∨
    o.kind = .array ∨ o.variantKind = some .tuple) :
    Yields FieldIter.nextPos o.iter o.posIter := by
  refine yields_of (s := fun i => (⟨o, i⟩ : FieldIter)) ?_
  intro i hi
  rw [← posIter_fieldAt hk hi]
  simp only [FieldIter.nextPos]
  cases o.fieldAt i <;> rfl

theorem nextVariant_yields (o : Obj) : Yields FieldIter.nextVariant o.iter o.variantIter := by
  refine yields_of (s := fun i => (⟨o, i⟩ : FieldIter)) ?_
  intro i hi
  simp only [Obj.variantIter, FieldIter.nextVariant] at hi ⊢
  cases hk : o.variantKind with
  | none => simp
  | some k =>
    cases k with
    | struct =>
      simp only [hk, List.length_map] at hi ⊢
      rw [List.getElem?_map, namedIter_at (.inr hk) hi]
      simp only [FieldIter.nextNamed]
      cases o.nameAt i with
      | none => rfl
      | some n => cases o.fieldAt i <;> rfl
    | tuple =>
      simp only [hk, List.length_map] at hi ⊢
      rw [List.getElem?_map, ← posIter_fieldAt (by simp [hk]) hi]
      simp only [FieldIter.nextPos]
      cases o.fieldAt i <;> rfl
    | unit => simp

theorem tuple_visible {E : Env} {T : Ty} {tag : TTag} {fs : List Obj} (h : HasTy E T (.tuple tag fs)) :
    ∀ y ∈ fs, y.isHidden = false := by
  generalize ho : Obj.tuple tag fs = o at h
  have dyn : ∀ v : Value, Obj.tuple tag fs = v.toObj → ∀ y ∈ fs, y.isHidden = false := by
    intro v hv y hy
    cases v <;> simp only [Value.toObj] at hv <;> cases hv
    obtain ⟨w, _, rfl⟩ := List.mem_map.mp hy
    exact w.toObj_not_hidden
  induction h with
  | tuple ts gs hl ht =>
    cases ho
    intro y hy
    obtain ⟨i, hi⟩ := List.getElem?_of_mem hy
    have hlt := (List.getElem?_eq_some_iff.mp hi).1
    exact (ht i _ y (List.getElem?_eq_getElem (hl ▸ hlt)) hi).not_hidden
  | box t o _ ih => exact ih ho
  | value v o _ hv => exact dyn v (ho.trans hv)
  | structValue ns fs o _ hv => exact dyn _ (ho.trans hv)
  | tupleStructValue fs o _ hv => exact dyn _ (ho.trans hv)
  | tupleValue fs o _ hv => exact dyn _ (ho.trans hv)
  | enumValueS v ns fs o _ hv => exact dyn _ (ho.trans hv)
  | enumValueT v fs o _ hv => exact dyn _ (ho.trans hv)
  | enumValueU v o hv => exact dyn _ (ho.trans hv)
  | _ => cases ho

theorem takeWhile_eq_filter_iff {α} {p : α → Bool} {l : List α} :
    l.takeWhile p = l.filter p ↔
      ∀ i j : Nat, i < j → ∀ x, l[j]? = some x → p x = true → ∃ y, l[i]? = some y ∧ p y = true := by
  induction l with
  | nil => simp
  | cons a l ih =>
    by_cases ha : p a = true
    · simp only [List.takeWhile_cons, ha, if_true, List.filter_cons, List.cons.injEq, true_and, ih]
      constructor
      · intro h i j hij x hx hp
        cases j with
        | zero => omega
        | succ j =>
          cases i with
          | zero => exact ⟨a, rfl, ha⟩
          | succ i => exact h i j (by omega) x (by simpa using hx) hp
      · intro h i j hij x hx hp
        simpa using h (i + 1) (j + 1) (by omega) x (by simpa using hx) hp
    · simp only [List.takeWhile_cons, ha, if_false, List.filter_cons, Bool.false_eq_true]
      constructor
      · intro h i j hij x hx hp
        cases j with
        | zero => omega
        | succ j =>
          have : x ∈ l.filter p := List.mem_filter.mpr ⟨List.mem_of_getElem? (by simpa using hx), hp⟩
          rw [← h] at this; cases this
      · intro h
        symm
        rw [List.filter_eq_nil_iff]
        intro x hx hp
        obtain ⟨j, hj⟩ := List.getElem?_of_mem hx
        obtain ⟨y, hy, hpy⟩ := h 0 (j + 1) (by omega) x (by simpa using hj) hp
        simp at hy; subst hy; exact ha hpy

theorem takeWhile_length_iff {α} {p : α → Bool} {l : List α} :
    (l.takeWhile p).length = (l.filter p).length ↔
      ∀ i j : Nat, i < j → ∀ x, l[j]? = some x → p x = true → ∃ y, l[i]? = some y ∧ p y = true := by
  rw [← takeWhile_eq_filter_iff]
  refine ⟨fun h => ?_, fun h => by rw [h]⟩
  have : (l.takeWhile p).Sublist (l.filter p) := by
    have h1 := (List.takeWhile_sublist (p := p) (l := l)).filter p
    rwa [List.filter_eq_self.mpr fun x hx => List.all_eq_true.mp List.all_takeWhile x hx] at h1
  exact this.eq_of_length h

theorem takeWhile_length_le {α} {p : α → Bool} {l : List α} : (l.takeWhile p).length ≤ (l.filter p).length := by
  have h1 := (List.takeWhile_sublist (p := p) (l := l)).filter p
  rw [List.filter_eq_self.mpr fun x hx => List.all_eq_true.mp List.all_takeWhile x hx] at h1
  exact h1.length_le

/-- When the number of items yielded is the number of fields. -/
theorem pos_length_iff {o : Obj} (hk : o.kind = .tupleStruct ∨ o.kind = .tuple ∨ o.kind = .list ∨
      o.kind = .array ∨ o.variantKind = some .tuple) :
    (o.posIter.length = o.fieldsLen ↔ o.GapFree) ∧ o.posIter.length ≤ o.fieldsLen := by
  cases o <;> simp [Obj.kind, Obj.variantKind] at hk <;>
    simp only [Obj.posIter, Obj.fieldsLen, Obj.GapFree, iff_true, Nat.le_refl, and_true]
  all_goals exact ⟨by rw [takeWhile_length_iff]; simp, takeWhile_length_le⟩

/-- The number of items yielded, when skipped fields come last. -/
theorem pos_length {o : Obj} (hg : o.GapFree) (hk : o.kind = .tupleStruct ∨ o.kind = .tuple ∨ o.kind = .list ∨
      o.kind = .array ∨ o.variantKind = some .tuple) : o.posIter.length = o.fieldsLen :=
  (pos_length_iff hk).1.mpr hg

theorem dynIter_length {fs : List (String × Obj)} {ns : List String}
    (h : ∀ n, n ∈ ns ↔ n ∈ fs.map (·.1)) : (dynIter fs ns).length = ns.length := by
  have := congrArg List.length (dynIter_names fun n hn => (h n).mp hn)
  simpa using this

theorem named_length_iff {E : Env} (hO : OrdLaws E) {o : Obj} (h : o.OK E)
    (hk : o.kind = .struct ∨ o.variantKind = some .struct) :
    (o.namedIter.length = o.fieldsLen ↔ o.GapFree) ∧ o.namedIter.length ≤ o.fieldsLen := by
  have dn := OK.dyn_names hO h
  cases o <;> simp [Obj.kind, Obj.variantKind] at hk
  case struct tag fs =>
    cases tag with
    | derived n => exact ⟨iff_of_true rfl trivial, Nat.le_refl _⟩
    | dyn ns =>
      have := dynIter_length (dn.1 _ _ rfl)
      exact ⟨iff_of_true this trivial, Nat.le_of_eq this⟩
  case enumS tag vn fs =>
    cases tag with
    | derived n =>
      simp only [Obj.namedIter, Obj.fieldsLen, Obj.GapFree]
      exact ⟨by rw [visFields, takeWhile_length_iff]; simp, takeWhile_length_le⟩
    | dyn ns =>
      have := dynIter_length (dn.2 _ _ _ rfl)
      exact ⟨iff_of_true this trivial, Nat.le_of_eq this⟩

end Mirror
