import Verif.Lemmas.CanonOps
import Verif.Lemmas.ToValueInj
import Verif.Model.PathEq
import Verif.Model.Containers
import Verif.Model.TypePath
import Verif.Spec.Interchange
import Verif.Spec.Path

/-!
# Values that `==` does not tell apart are treated alike
-/

set_option linter.unusedSimpArgs false

namespace Mirror

/-- The shown content of a reflected value up to `==`: representatives everywhere, skipped fields replaced. -/
def Obj.rep (x : Obj) : Obj := x.canon.reset

theorem SameShown.rep {E : Env} (hD : DeclsOK E) (hO : OrdLaws E) (hK : KeysShown E) {t : Ty} {x y : Obj}
    (hx : HasTy E t x) (hy : HasTy E t y) (h : SameShown x y) : x.rep = y.rep :=
  toValue_inj_reset hD hO hK (hx.canon hO hK) (hy.canon hO hK) (by
    rw [toValue_canon, toValue_canon, Value.beq_iff_canon.mp h])

theorem sameShown_of_rep {x y : Obj} (h : x.rep = y.rep) : SameShown x y := by
  unfold Obj.rep at h
  rw [SameShown, Value.beq_iff_canon, ← toValue_canon, ← toValue_canon, ← toValue_reset x.canon, h, toValue_reset]

theorem bothShow_of_rep {x y : Option Obj} (h : x.map Obj.rep = y.map Obj.rep) : BothShow x y := by
  cases x <;> cases y <;> simp only [Option.map_none, Option.map_some, reduceCtorEq, Option.some.injEq] at h
  · trivial
  · exact sameShown_of_rep h

theorem opt_rep (x : Option Obj) : (x.map Obj.canon).map Obj.reset = x.map Obj.rep := by
  rw [Option.map_map]; rfl

theorem fromReflect_rep {E : Env} (hO : OrdLaws E) (hK : KeysShown E) (t : Ty) {x : Obj} (hx : x.OK E) :
    fromReflect E t x.rep = (fromReflect E t x).map Obj.rep := by
  rw [Obj.rep, fromReflect_reset_comm hO hK t _ (OK.canon hO hK hx), fromReflect_canon_comm hO hK t x hx, opt_rep]

theorem patch_rep {E : Env} (hO : OrdLaws E) (hK : KeysShown E) {x v : Obj} (hx : x.OK E) (hv : v.OK E) :
    patch E x.rep v.rep = (patch E x v).rep := by
  rw [Obj.rep, Obj.rep, patch_reset hO hK (OK.canon hO hK hv) (OK.canon hO hK hx), patch_canon hO hK hv hx]; rfl

theorem reflectEq_rep {E : Env} (hO : OrdLaws E) (hK : KeysShown E) {x y : Obj} (hx : x.OK E) (hy : y.OK E) :
    reflectEq E x.rep y.rep = reflectEq E x y := by
  rw [Obj.rep, Obj.rep, reflectEq_reset hO hK (OK.canon hO hK hx) (OK.canon hO hK hy), reflectEq_canon hO hK hx hy]

/-- The path with the representatives of its keys. -/
def KeyPath.canon (p : KeyPath) : KeyPath := List.map Key.canon p

theorem KeyPath.WF.canon {p : KeyPath} (h : p.WF) : p.canon.WF := by
  intro v hv
  obtain ⟨k, hk, he⟩ := List.mem_map.mp hv
  cases k <;> simp only [Key.canon, reduceCtorEq, Key.get.injEq] at he
  subst he
  exact (h _ hk).canon

theorem atPath_rep {E : Env} (hO : OrdLaws E) (hK : KeysShown E) {x : Obj} (hx : x.OK E) {p : KeyPath} (hp : p.WF) :
    atPath E x.rep p.canon = (atPath E x p).map Obj.rep := by
  rw [Obj.rep, atPath_reset hO hK (OK.canon hO hK hx) hp.canon]
  rw [KeyPath.canon, atPath_canon hO hK hx hp, opt_rep]

theorem cloneReflect_rep {E : Env} (hO : OrdLaws E) (hK : KeysShown E) {t : Ty} {x : Obj} (hx : HasTy E t x) :
    (cloneReflect E x.rep).map Obj.reset = (cloneReflect E x).map Obj.rep := by
  rw [Obj.rep, cloneReflect_reset hO hK ⟨_, hx.canon hO hK⟩, cloneReflect_canon hO hK hx, opt_rep]

/-! ## Keys -/

theorem kcmp_same {E : Env} (hO : OrdLaws E) (hK : KeysShown E) {t : Ty} {a b c : Obj} (ha : HasTy E t a)
    (hb : HasTy E t b) (hc : HasTy E t c) (h : SameShown a b) : E.kcmp t a c = E.kcmp t b c :=
  (hO.cmpOn t).eq_trans _ _ _ ha hb hc (hK t a b ha hb ((Value.cmp_eq_iff _ _).mpr ((Value.beq_enc _ _).mp h)))

theorem bmGet_same {cmp : Obj → Obj → Ordering} {a b : Obj} : ∀ {l : List (Obj × Obj)},
    (∀ p ∈ l, cmp a p.1 = cmp b p.1) → bmGet cmp a l = bmGet cmp b l
  | [], _ => rfl
  | (k, v) :: r, h => by
    simp only [bmGet, h (k, v) (by simp)]
    rw [bmGet_same fun p hp => h p (by simp [hp])]

theorem bmRemove_same {cmp : Obj → Obj → Ordering} {a b : Obj} : ∀ {l : List (Obj × Obj)},
    (∀ p ∈ l, cmp a p.1 = cmp b p.1) → bmRemove cmp a l = bmRemove cmp b l
  | [], _ => rfl
  | (k, v) :: r, h => by
    simp only [bmRemove, h (k, v) (by simp)]
    rw [bmRemove_same fun p hp => h p (by simp [hp])]

theorem placeKey_same {cmp : Obj → Obj → Ordering} {a b : Obj} : ∀ {l : List (Obj × Obj)},
    (∀ p ∈ l, cmp a p.1 = cmp b p.1) → placeKey cmp a l = placeKey cmp b l
  | [], _ => rfl
  | (k, v) :: r, h => by
    simp only [placeKey, h (k, v) (by simp)]
    rw [placeKey_same fun p hp => h p (by simp [hp])]

/-- What two keys with the same shown content become in a map with keys of type `kt`. -/
theorem key_cases {E : Env} (hO : OrdLaws E) (hK : KeysShown E) {kt : Ty} {a b : Obj} (ha : a.OK E) (hb : b.OK E)
    (h : a.rep = b.rep) :
    (fromReflect E kt a = none ∧ fromReflect E kt b = none) ∨
    ∃ k l, fromReflect E kt a = some k ∧ fromReflect E kt b = some l ∧ k.rep = l.rep ∧ HasTy E kt k ∧ HasTy E kt l := by
  have e : (fromReflect E kt a).map Obj.rep = (fromReflect E kt b).map Obj.rep := by
    rw [← fromReflect_rep hO hK kt ha, h, fromReflect_rep hO hK kt hb]
  cases h1 : fromReflect E kt a <;> cases h2 : fromReflect E kt b <;>
    simp only [h1, h2, Option.map_none, Option.map_some, reduceCtorEq, Option.some.injEq] at e
  · exact .inl ⟨rfl, rfl⟩
  · exact .inr ⟨_, _, rfl, rfl, e, fromReflect_sound hO _ _ ha h1, fromReflect_sound hO _ _ hb h2⟩

theorem key_entries {E : Env} (hO : OrdLaws E) (hK : KeysShown E) {kt : Ty} {k l : Obj} {kvs : List (Obj × Obj)}
    (hk : HasTy E kt k) (hl : HasTy E kt l) (hr : k.rep = l.rep) (h : ∀ p ∈ kvs, HasTy E kt p.1) :
    ∀ p ∈ kvs, E.kcmp kt k p.1 = E.kcmp kt l p.1 := fun p hp =>
  kcmp_same hO hK hk hl (h p hp) (sameShown_of_rep hr)

theorem mapGet_same {E : Env} (hO : OrdLaws E) (hK : KeysShown E) {m a b : Obj} (hm : m.OK E) (ha : a.OK E)
    (hb : b.OK E) (h : a.rep = b.rep) : m.mapGet E a = m.mapGet E b := by
  cases m <;> simp only [Obj.mapGet]
  rename_i kt vt kvs
  obtain ⟨_, h2, _⟩ := OK.map_inv hO hm
  rcases key_cases hO hK (kt := kt) ha hb h with ⟨h1, h3⟩ | ⟨k, l, h1, h3, hr, hk, hl⟩
  · rw [h1, h3]
  · rw [h1, h3]
    exact bmGet_same (key_entries hO hK hk hl hr h2)

theorem mapRemove_same {E : Env} (hO : OrdLaws E) (hK : KeysShown E) {m a b : Obj} (hm : m.OK E) (ha : a.OK E)
    (hb : b.OK E) (h : a.rep = b.rep) : m.mapRemove E a = m.mapRemove E b := by
  cases m <;> simp only [Obj.mapRemove]
  rename_i kt vt kvs
  obtain ⟨_, h2, _⟩ := OK.map_inv hO hm
  rcases key_cases hO hK (kt := kt) ha hb h with ⟨h1, h3⟩ | ⟨k, l, h1, h3, hr, hk, hl⟩
  · rw [h1, h3]
  · rw [h1, h3]
    simp only [bmGet_same (key_entries hO hK hk hl hr h2), bmRemove_same (key_entries hO hK hk hl hr h2)]

theorem mapGetMut_same {E : Env} (hO : OrdLaws E) (hK : KeysShown E) {m a b : Obj} (hm : m.OK E) (ha : a.OK E)
    (hb : b.OK E) (h : a.rep = b.rep) : m.mapGetMut E a = m.mapGetMut E b := by
  cases m <;> simp only [Obj.mapGetMut]
  rename_i kt vt kvs
  obtain ⟨_, h2, _⟩ := OK.map_inv hO hm
  rcases key_cases hO hK (kt := kt) ha hb h with ⟨h1, h3⟩ | ⟨k, l, h1, h3, hr, hk, hl⟩
  · rw [h1, h3]
  · rw [h1, h3]
    simp only [placeKey_same (key_entries hO hK hk hl hr h2)]

theorem bmInsert_rep {E : Env} (hO : OrdLaws E) (hK : KeysShown E) {t : Ty} {k v : Obj} (hk : HasTy E t k)
    {l : List (Obj × Obj)} (h : ∀ p ∈ l, HasTy E t p.1) :
    ((bmInsert (E.kcmp t) k v l).map canonPair).map resetPair =
      bmInsert (E.kcmp t) k.rep v.rep ((l.map canonPair).map resetPair) := by
  rw [← bmInsert_canon hO hK hk h, ← bmInsert_reset hO hK (hk.canon hO hK)]
  · rfl
  · intro p hp
    obtain ⟨q, hq, rfl⟩ := List.mem_map.mp hp
    exact (h q hq).canon hO hK

theorem map_rep (kt vt : Ty) (kvs : List (Obj × Obj)) :
    (Obj.map kt vt kvs).rep = .map kt vt ((kvs.map canonPair).map resetPair) := by
  simp only [Obj.rep, Obj.canon, Obj.reset]; rfl

theorem mapInsert_same {E : Env} (hO : OrdLaws E) (hK : KeysShown E) {m a b v w : Obj} (hm : m.OK E) (ha : a.OK E)
    (hb : b.OK E) (hv : v.OK E) (hw : w.OK E) (h : a.rep = b.rep) (h' : v.rep = w.rep) :
    (m.mapInsert E a v).1 = (m.mapInsert E b w).1 ∧ (m.mapInsert E a v).2.rep = (m.mapInsert E b w).2.rep := by
  cases m <;> simp only [Obj.mapInsert, and_self]
  rename_i kt vt kvs
  obtain ⟨_, h2, _⟩ := OK.map_inv hO hm
  rcases key_cases hO hK (kt := kt) ha hb h with ⟨h1, h3⟩ | ⟨k, l, h1, h3, hr, hk, hl⟩
  · rw [h1, h3]; exact ⟨rfl, rfl⟩
  · rw [h1, h3]
    rcases key_cases hO hK (kt := vt) hv hw h' with ⟨h5, h6⟩ | ⟨x, y, h5, h6, hr', hx, hy⟩
    · rw [h5, h6]; exact ⟨rfl, rfl⟩
    · rw [h5, h6]
      refine ⟨bmGet_same (key_entries hO hK hk hl hr h2), ?_⟩
      dsimp only
      rw [map_rep, map_rep, bmInsert_rep hO hK hk h2, bmInsert_rep hO hK hl h2, hr, hr']

/-! ## Key paths -/

theorem Key.beq_iff {k l : Key} : k.beq l = true ↔ k.canon = l.canon := by
  cases k <;> cases l <;> simp [Key.beq, Key.canon, Value.beq_iff_canon]

theorem KeyPath.beq_iff : ∀ {p q : KeyPath}, p.beq q = true ↔ p.canon = q.canon
  | [], [] => by simp [KeyPath.beq, KeyPath.canon]
  | [], _ :: _ => by simp [KeyPath.beq, KeyPath.canon]
  | _ :: _, [] => by simp [KeyPath.beq, KeyPath.canon]
  | k :: p, l :: q => by
    have := KeyPath.beq_iff (p := p) (q := q)
    simp only [KeyPath.canon] at this
    simp only [KeyPath.beq, Bool.and_eq_true, Key.beq_iff, this, KeyPath.canon, List.map_cons, List.cons.injEq]

theorem toObj_rep {v w : Value} (h : v.canon = w.canon) : v.toObj.rep = w.toObj.rep := by
  rw [Obj.rep, Obj.rep, ← toObj_canon, ← toObj_canon, h]

theorem usize_same {v w : Value} (h : v.canon = w.canon) : valueToUsize v = valueToUsize w := by
  rw [← valueToUsize_canon v, h, valueToUsize_canon]

theorem atKey_same {E : Env} (hO : OrdLaws E) (hK : KeysShown E) {o : Obj} (ho : o.OK E) {k l : Key}
    (hk : ∀ v, k = .get v → v.WF) (hl : ∀ v, l = .get v → v.WF) (h : k.canon = l.canon) :
    o.atKey E k = o.atKey E l := by
  cases k <;> cases l <;> simp only [Key.canon, reduceCtorEq, Key.named.injEq, Key.numbered.injEq, Key.get.injEq,
    Key.variant.injEq] at h
  case named => rw [h]
  case numbered => rw [h]
  case «variant» => rw [h]
  case get v w =>
    simp only [Obj.atKey, usize_same h,
      mapGet_same hO hK ho (Value.WF.ok (hk v rfl)) (Value.WF.ok (hl w rfl)) (toObj_rep h)]

theorem atKeyMut_same {E : Env} (hO : OrdLaws E) (hK : KeysShown E) {o : Obj} (ho : o.OK E) {k l : Key}
    (hk : ∀ v, k = .get v → v.WF) (hl : ∀ v, l = .get v → v.WF) (h : k.canon = l.canon) :
    o.atKeyMut E k = o.atKeyMut E l := by
  cases k <;> cases l <;> simp only [Key.canon, reduceCtorEq, Key.named.injEq, Key.numbered.injEq, Key.get.injEq,
    Key.variant.injEq] at h
  case named => rw [h]
  case numbered => rw [h]
  case «variant» => rw [h]
  case get v w =>
    simp only [Obj.atKeyMut, usize_same h,
      mapGetMut_same hO hK ho (Value.WF.ok (hk v rfl)) (Value.WF.ok (hl w rfl)) (toObj_rep h)]

theorem typeKey_same (g : TypeGraph) (ta : TypeAt) {k l : Key} (h : k.canon = l.canon) :
    ta.atKey g k = ta.atKey g l := by
  cases k <;> cases l <;> simp only [Key.canon, reduceCtorEq, Key.named.injEq, Key.numbered.injEq, Key.get.injEq,
    Key.variant.injEq] at h
  case named => rw [h]
  case numbered => rw [h]
  case «variant» => rw [h]
  case get v w => simp only [TypeAt.atKey, usize_same h]

theorem head_WF {k : Key} {p : List Key} (h : KeyPath.WF (k :: p)) : ∀ v, k = .get v → v.WF :=
  fun v e => h v (by rw [e]; exact List.mem_cons_self)

theorem tail_WF {k : Key} {p : List Key} (h : KeyPath.WF (k :: p)) : KeyPath.WF p :=
  fun v e => h v (List.mem_cons_of_mem _ e)

theorem atGo_same {E : Env} (hO : OrdLaws E) (hK : KeysShown E) : ∀ {p q : List Key} {o : Obj}, o.OK E →
    KeyPath.WF p → KeyPath.WF q → p.map Key.canon = q.map Key.canon → atGo E o p = atGo E o q
  | [], [], _, _, _, _, _ => rfl
  | [], _ :: _, _, _, _, _, h => by simp at h
  | _ :: _, [], _, _, _, _, h => by simp at h
  | k :: p, l :: q, o, ho, hp, hq, h => by
    simp only [List.map_cons, List.cons.injEq] at h
    rw [atGo.eq_def, atGo.eq_def E o (l :: q)]
    dsimp only
    rw [atKey_same hO hK ho (head_WF hp) (head_WF hq) h.1]
    cases hx : o.atKey E l with
    | none => rfl
    | some x =>
      have hr := atGo_same hO hK (OK_atKey ho hx) (tail_WF hp) (tail_WF hq) h.2
      cases p with
      | nil => cases q with
        | nil => rfl
        | cons => simp at h
      | cons => cases q with
        | nil => simp at h
        | cons => exact hr

theorem atMutGo_same {E : Env} (hO : OrdLaws E) (hK : KeysShown E) : ∀ {p q : List Key} {o : Obj}, o.OK E →
    KeyPath.WF p → KeyPath.WF q → p.map Key.canon = q.map Key.canon → atMutGo E o p = atMutGo E o q
  | [], [], _, _, _, _, _ => rfl
  | [], _ :: _, _, _, _, _, h => by simp at h
  | _ :: _, [], _, _, _, _, h => by simp at h
  | k :: p, l :: q, o, ho, hp, hq, h => by
    simp only [List.map_cons, List.cons.injEq] at h
    rw [atMutGo.eq_def, atMutGo.eq_def E o (l :: q)]
    dsimp only
    rw [atKeyMut_same hO hK ho (head_WF hp) (head_WF hq) h.1]
    cases hx : o.atKeyMut E l with
    | none => rfl
    | some x =>
      have hg : o.atKey E l = some x.get := by rw [← atKeyMut_get, hx]; rfl
      have hr := atMutGo_same hO hK (OK_atKey ho hg) (tail_WF hp) (tail_WF hq) h.2
      cases p with
      | nil => cases q with
        | nil => rfl
        | cons => simp at h
      | cons => cases q with
        | nil => simp at h
        | cons => dsimp only; rw [hr]

theorem typeAtGo_same (g : TypeGraph) : ∀ {p q : List Key} {ta : TypeAt},
    p.map Key.canon = q.map Key.canon → typeAtGo g ta p = typeAtGo g ta q
  | [], [], _, _ => rfl
  | [], _ :: _, _, h => by simp at h
  | _ :: _, [], _, h => by simp at h
  | k :: p, l :: q, ta, h => by
    simp only [List.map_cons, List.cons.injEq] at h
    rw [typeAtGo.eq_def, typeAtGo.eq_def g ta (l :: q)]
    dsimp only
    rw [typeKey_same g ta h.1]
    cases hx : ta.atKey g l with
    | none => rfl
    | some x =>
      cases x with
      | none => rfl
      | some x =>
        have hr := typeAtGo_same g (ta := x) h.2
        cases p with
        | nil => cases q with
          | nil => rfl
          | cons => simp at h
        | cons => cases q with
          | nil => simp at h
          | cons => exact hr

theorem canon_isEmpty {p q : KeyPath} (h : p.canon = q.canon) : p.isEmpty = q.isEmpty := by
  cases p <;> cases q <;> simp [KeyPath.canon] at h <;> rfl

end Mirror
