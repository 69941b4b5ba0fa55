import Verif.Spec.Path
import Verif.Lemmas.ReflectEq
import Verif.Lemmas.Patch

set_option linter.unusedSimpArgs false

/-!
# Lemmas about key paths
-/

namespace Mirror

/-! ## `at` -/

theorem atPath_nil (E : Env) (o : Obj) : atPath E o [] = some o := rfl

theorem atPath_cons (E : Env) (o : Obj) (k : Key) (p : KeyPath) :
    atPath E o (k :: p) = (o.atKey E k).bind fun x => atPath E x p := by
  have e : atPath E o (k :: p) = atGo E o (k :: p) := rfl
  rw [e, atGo]
  cases o.atKey E k with
  | none => rfl
  | some x => cases p <;> rfl

theorem atPath_append (E : Env) (o : Obj) (p q : KeyPath) :
    atPath E o (p ++ q) = (atPath E o p).bind fun x => atPath E x q := by
  induction p generalizing o with
  | nil => rfl
  | cons k p ih =>
    rw [List.cons_append, atPath_cons, atPath_cons, Option.bind_assoc]
    congr 1; funext x; exact ih x

/-! ## `at_mut` -/

theorem atMutPath_nil (E : Env) (o : Obj) : atMutPath E o [] = some ⟨o, fun z => z⟩ := rfl

theorem atMutPath_cons (E : Env) (o : Obj) (k : Key) (p : KeyPath) :
    atMutPath E o (k :: p) = (o.atKeyMut E k).bind fun pl =>
      (atMutPath E pl.get p).map fun pl' => ⟨pl'.get, fun z => pl.put (pl'.put z)⟩ := by
  have e : atMutPath E o (k :: p) = atMutGo E o (k :: p) := rfl
  rw [e, atMutGo]
  cases o.atKeyMut E k with
  | none => rfl
  | some x =>
    cases p with
    | nil => rfl
    | cons k' p =>
      have e : atMutPath E x.get (k' :: p) = atMutGo E x.get (k' :: p) := rfl
      simp only [Option.bind_some, e]
      cases atMutGo E x.get (k' :: p) <;> rfl

/-! ## Places in lists -/

theorem placeNamed_get (n : String) (fs : List (String × Obj)) :
    (placeNamed n fs).map (·.1) = lookup n (visFields fs) := by
  induction fs with
  | nil => rfl
  | cons p r ih =>
    obtain ⟨m, x⟩ := p
    simp only [placeNamed, visFields, List.filter_cons]
    by_cases hx : x.isHidden = true
    · simp only [hx, Bool.true_eq_false, and_false, if_false, Bool.not_true, Bool.false_eq_true]
      rw [← visFields, ← ih]
      cases placeNamed n r <;> rfl
    · simp only [hx, and_true, if_true, Bool.not_false, lookup]
      by_cases hm : m = n
      · simp [hm]
      · simp only [hm, if_false]
        rw [← visFields, ← ih]
        cases placeNamed n r <;> rfl

theorem placeNamed_same {n : String} {fs : List (String × Obj)} {q} (h : placeNamed n fs = some q)
    {z : Obj} (hz : z.isHidden = false) : lookup n (visFields (q.2 z)) = some z := by
  induction fs generalizing q with
  | nil => cases h
  | cons p r ih =>
    obtain ⟨m, x⟩ := p
    simp only [placeNamed] at h
    split at h
    · next hc => cases h; simp [visFields, hz, lookup, hc.1]
    · next hc =>
      cases hr : placeNamed n r with
      | none => rw [hr] at h; cases h
      | some q' =>
        rw [hr] at h; cases h
        have := ih hr
        simp only [visFields, List.filter_cons]
        by_cases hx : x.isHidden = true
        · simp only [hx, Bool.not_true, Bool.false_eq_true, if_false]; exact this
        · have hm : m ≠ n := fun he => hc ⟨he, by simpa using hx⟩
          simp only [hx, Bool.not_false, if_true, lookup, hm, if_false]
          exact this

theorem placeNamed_other {n : String} {fs : List (String × Obj)} {q} (h : placeNamed n fs = some q)
    {z : Obj} {m : String} (hm : n ≠ m) (hz : z.isHidden = false) :
    lookup m (visFields (q.2 z)) = lookup m (visFields fs) := by
  induction fs generalizing q with
  | nil => cases h
  | cons p r ih =>
    obtain ⟨l, x⟩ := p
    simp only [placeNamed] at h
    split at h
    · next hc =>
      cases h
      simp [visFields, hz, hc.2, lookup, hc.1, hm]
    · cases hr : placeNamed n r with
      | none => rw [hr] at h; cases h
      | some q' =>
        rw [hr] at h; cases h
        have := ih hr
        simp only [visFields, List.filter_cons]
        by_cases hx : x.isHidden = true
        · simp only [hx, Bool.not_true, Bool.false_eq_true, if_false]; exact this
        · simp only [hx, Bool.not_false, if_true, lookup]
          rw [← visFields, ← visFields, this]

theorem placeAt_get (i : Nat) (fs : List Obj) : (placeAt i fs).map (·.1) = visAt fs i := by
  induction fs generalizing i with
  | nil => simp [placeAt, visAt]
  | cons x r ih =>
    cases i with
    | zero => simp only [placeAt, visAt, List.getElem?_cons_zero]; split <;> rfl
    | succ i =>
      have := ih i
      simp only [placeAt, visAt, List.getElem?_cons_succ] at this ⊢
      rw [← this]
      cases placeAt i r <;> rfl

theorem placeAt_put {i : Nat} {fs : List Obj} {q} (h : placeAt i fs = some q) (z : Obj) :
    q.2 z = fs.set i z ∧ i < fs.length := by
  induction fs generalizing i q with
  | nil => simp [placeAt] at h
  | cons x r ih =>
    cases i with
    | zero => simp only [placeAt] at h; split at h <;> cases h; simp
    | succ i =>
      simp only [placeAt] at h
      cases hr : placeAt i r with
      | none => rw [hr] at h; cases h
      | some q' => rw [hr] at h; cases h; simp [ih hr]

theorem placeIdx_get (i : Nat) (fs : List Obj) : (placeIdx i fs).map (·.1) = fs[i]? := by
  induction fs generalizing i with
  | nil => simp [placeIdx]
  | cons x r ih =>
    cases i with
    | zero => simp [placeIdx]
    | succ i =>
      have := ih i
      simp only [placeIdx, List.getElem?_cons_succ] at this ⊢
      rw [← this]
      cases placeIdx i r <;> rfl

theorem placeIdx_put {i : Nat} {fs : List Obj} {q} (h : placeIdx i fs = some q) (z : Obj) :
    q.2 z = fs.set i z ∧ i < fs.length := by
  induction fs generalizing i q with
  | nil => simp [placeIdx] at h
  | cons x r ih =>
    cases i with
    | zero => simp only [placeIdx] at h; cases h; simp
    | succ i =>
      simp only [placeIdx] at h
      cases hr : placeIdx i r with
      | none => rw [hr] at h; cases h
      | some q' => rw [hr] at h; cases h; simp [ih hr]

theorem placeKey_get (cmp : Obj → Obj → Ordering) (k : Obj) (kvs : List (Obj × Obj)) :
    (placeKey cmp k kvs).map (·.1) = bmGet cmp k kvs := by
  induction kvs with
  | nil => rfl
  | cons p r ih =>
    obtain ⟨k', x⟩ := p
    simp only [placeKey, bmGet]
    split
    · rfl
    · rw [← ih]; cases placeKey cmp k r <;> rfl

/-- Writing at a key replaces the value of exactly one entry, the one whose key compares equal. -/
theorem placeKey_put {cmp : Obj → Obj → Ordering} {k : Obj} {kvs : List (Obj × Obj)} {q}
    (h : placeKey cmp k kvs = some q) (z : Obj) :
    ∃ l₁ l₂ k', kvs = l₁ ++ (k', q.1) :: l₂ ∧ q.2 z = l₁ ++ (k', z) :: l₂ ∧ cmp k k' = .eq ∧
      ∀ p ∈ l₁, cmp k p.1 ≠ .eq := by
  induction kvs generalizing q with
  | nil => cases h
  | cons p r ih =>
    obtain ⟨k', x⟩ := p
    simp only [placeKey] at h
    split at h
    · next hc => cases h; exact ⟨[], r, k', rfl, rfl, hc, by simp⟩
    · next hc =>
      cases hr : placeKey cmp k r with
      | none => rw [hr] at h; cases h
      | some q' =>
        rw [hr] at h; cases h
        obtain ⟨l₁, l₂, k'', h1, h2, h3, h4⟩ := ih hr
        refine ⟨(k', x) :: l₁, l₂, k'', by rw [h1]; rfl, by simp [h2], h3, ?_⟩
        intro p hp
        rcases List.mem_cons.mp hp with rfl | hp
        · exact hc
        · exact h4 p hp

theorem bmGet_append {cmp : Obj → Obj → Ordering} {k : Obj} (l₁ l₂ : List (Obj × Obj)) :
    bmGet cmp k (l₁ ++ l₂) = (bmGet cmp k l₁).or (bmGet cmp k l₂) := by
  induction l₁ with
  | nil => simp [bmGet]
  | cons p r ih =>
    simp only [List.cons_append, bmGet]
    split <;> simp [ih]

theorem bmGet_none {cmp : Obj → Obj → Ordering} {k : Obj} {l : List (Obj × Obj)}
    (h : ∀ p ∈ l, cmp k p.1 ≠ .eq) : bmGet cmp k l = none := by
  cases hg : bmGet cmp k l with
  | none => rfl
  | some v =>
    obtain ⟨k', hm, he⟩ := bmGet_mem hg
    exact absurd he (h _ hm)

/-! ## One step -/

theorem atKeyMut_get (E : Env) (o : Obj) (k : Key) : (o.atKeyMut E k).map (·.get) = o.atKey E k := by
  have named : ∀ n, (o.fieldMut n).map (·.get) = o.field n := by
    intro n
    cases o <;> simp only [Obj.fieldMut, Obj.field, Option.map_none, Option.map_map,
      ← placeNamed_get] <;> rfl
  have pos : ∀ i, o.kind ≠ .struct → o.variantKind ≠ some .struct →
      (o.fieldAtMut i).map (·.get) = o.fieldAt i := by
    intro i h1 h2
    cases o with
    | struct => exact absurd rfl h1
    | enumS => exact absurd rfl h2
    | tupleStruct => simp only [Obj.fieldAtMut, Obj.fieldAt, Option.map_map, ← placeAt_get]; rfl
    | tuple => simp only [Obj.fieldAtMut, Obj.fieldAt, Option.map_map, ← placeAt_get]; rfl
    | enumT => simp only [Obj.fieldAtMut, Obj.fieldAt, Option.map_map, ← placeAt_get]; rfl
    | vec => simp only [Obj.fieldAtMut, Obj.fieldAt, Option.map_map, ← placeIdx_get]; rfl
    | array => simp only [Obj.fieldAtMut, Obj.fieldAt, Option.map_map, ← placeIdx_get]; rfl
    | _ => rfl
  have map : ∀ key, (o.mapGetMut E key).map (·.get) = o.mapGet E key := by
    intro key
    cases o <;> simp only [Obj.mapGetMut, Obj.mapGet, Option.map_none]
    case map kt vt kvs =>
      cases fromReflect E kt key with
      | none => rfl
      | some k' => simp only [Option.map_map, Option.bind_some, ← placeKey_get]; rfl
  cases k with
  | named n =>
    cases o <;> simp only [Obj.atKeyMut, Obj.atKey, Obj.kindMut, Obj.kind, Obj.variantKind,
      Option.map_none, named]
  | numbered i =>
    cases o <;> simp only [Obj.atKeyMut, Obj.atKey, Obj.kindMut, Obj.kind, Obj.variantKind,
      Option.map_none] <;> exact pos i (by simp [Obj.kind]) (by simp [Obj.variantKind])
  | get v =>
    cases o <;> simp only [Obj.atKeyMut, Obj.atKey, Obj.kindMut, Obj.kind, Obj.variantKind,
      Option.map_none, map]
    all_goals
      cases valueToUsize v with
      | none => rfl
      | some i => exact pos i (by simp [Obj.kind]) (by simp [Obj.variantKind])
  | variant v =>
    cases o <;> simp only [Obj.atKeyMut, Obj.atKey, Obj.kindMut, Obj.kind, Obj.variantKind,
      Option.map_none] <;> split <;> rfl

theorem atMutPath_get (E : Env) (o : Obj) (p : KeyPath) :
    (atMutPath E o p).map (·.get) = atPath E o p := by
  induction p generalizing o with
  | nil => rfl
  | cons k p ih =>
    rw [atMutPath_cons, atPath_cons, ← atKeyMut_get]
    cases o.atKeyMut E k with
    | none => rfl
    | some pl =>
      simp only [Option.bind_some, Option.map_some]
      rw [← ih, Option.map_map]; rfl

/-- What a step of `at_mut` with a field, index or map key can be. -/
inductive StepForm (E : Env) (k : Key) : Obj → Place → Prop
  | struct (tag fs n q) : k = .named n → placeNamed n fs = some q →
      StepForm E k (.struct tag fs) ⟨q.1, fun z => .struct tag (q.2 z)⟩
  | enumS (tag v fs n q) : k = .named n → placeNamed n fs = some q →
      StepForm E k (.enumS tag v fs) ⟨q.1, fun z => .enumS tag v (q.2 z)⟩
  | tupleStruct (tag fs i q) : k = .numbered i → placeAt i fs = some q →
      StepForm E k (.tupleStruct tag fs) ⟨q.1, fun z => .tupleStruct tag (q.2 z)⟩
  | tuple (tag fs i q) : k = .numbered i → placeAt i fs = some q →
      StepForm E k (.tuple tag fs) ⟨q.1, fun z => .tuple tag (q.2 z)⟩
  | enumT (tag v fs i q) : k = .numbered i → placeAt i fs = some q →
      StepForm E k (.enumT tag v fs) ⟨q.1, fun z => .enumT tag v (q.2 z)⟩
  | vec (t fs v i q) : k = .get v → valueToUsize v = some i → placeIdx i fs = some q →
      StepForm E k (.vec t fs) ⟨q.1, fun z => .vec t (q.2 z)⟩
  | array (t fs v i q) : k = .get v → valueToUsize v = some i → placeIdx i fs = some q →
      StepForm E k (.array t fs) ⟨q.1, fun z => .array t (q.2 z)⟩
  | map (kt vt kvs v key q) : k = .get v → fromReflect E kt v.toObj = some key →
      placeKey (E.kcmp kt) key kvs = some q →
      StepForm E k (.map kt vt kvs) ⟨q.1, fun z => .map kt vt (q.2 z)⟩

theorem stepForm {E : Env} {o : Obj} {k : Key} {pl : Place} (h : o.atKeyMut E k = some pl)
    (hk : k.sort ≠ 3) : StepForm E k o pl := by
  have map_some : ∀ {α β : Type} {x : Option α} {f : α → β} {y : β}, x.map f = some y →
      ∃ a, x = some a ∧ y = f a := by
    intro α β x f y h
    cases x with
    | none => cases h
    | some a => cases h; exact ⟨a, rfl, rfl⟩
  cases k with
  | variant v => exact absurd rfl hk
  | named n =>
    cases o <;> simp only [Obj.atKeyMut, Obj.kindMut, Obj.kind, Obj.variantKind, reduceCtorEq,
      Obj.fieldMut] at h
    · obtain ⟨q, hq, rfl⟩ := map_some h; exact .struct _ _ _ _ rfl hq
    · obtain ⟨q, hq, rfl⟩ := map_some h; exact .enumS _ _ _ _ _ rfl hq
  | numbered n =>
    cases o <;> simp only [Obj.atKeyMut, Obj.kindMut, Obj.kind, Obj.variantKind, reduceCtorEq,
      Obj.fieldAtMut] at h
    · obtain ⟨q, hq, rfl⟩ := map_some h; exact .tupleStruct _ _ _ _ rfl hq
    · obtain ⟨q, hq, rfl⟩ := map_some h; exact .tuple _ _ _ _ rfl hq
    · obtain ⟨q, hq, rfl⟩ := map_some h; exact .enumT _ _ _ _ _ rfl hq
  | get v =>
    cases o <;> simp only [Obj.atKeyMut, Obj.kindMut, Obj.kind, Obj.variantKind, reduceCtorEq,
      Obj.fieldAtMut, Obj.mapGetMut] at h
    · obtain ⟨i, hi, h⟩ := Option.bind_eq_some_iff.mp h
      obtain ⟨q, hq, rfl⟩ := map_some h; exact .vec _ _ _ _ _ rfl hi hq
    · obtain ⟨i, hi, h⟩ := Option.bind_eq_some_iff.mp h
      obtain ⟨q, hq, rfl⟩ := map_some h; exact .array _ _ _ _ _ rfl hi hq
    · next kt vt kvs =>
      cases hf : fromReflect E kt v.toObj with
      | none => rw [hf] at h; cases h
      | some key =>
        rw [hf] at h
        obtain ⟨q, hq, rfl⟩ := map_some h
        exact .map _ _ _ _ _ _ rfl hf hq

theorem atKeyMut_variant {E : Env} {o : Obj} {v : String} {pl : Place}
    (h : o.atKeyMut E (.variant v) = some pl) : pl = ⟨o, fun z => z⟩ ∧ o.variantName = some v := by
  cases o <;> simp only [Obj.atKeyMut, Obj.kindMut, Obj.kind, reduceCtorEq] at h
  all_goals
    split at h
    · next hv => cases h; exact ⟨rfl, hv⟩
    · cases h

theorem atKey_variant {E : Env} {o : Obj} {v : String} :
    o.atKey E (.variant v) = if o.variantName = some v then some o else none := by
  cases o <;> simp [Obj.atKey, Obj.kind, Obj.variantName]

/-- Overwriting a part of an object keeps its kind and variant. -/
theorem StepForm.keeps {E : Env} {k : Key} {o : Obj} {pl : Place} (h : StepForm E k o pl) (z : Obj) :
    (pl.put z).kind = o.kind ∧ (pl.put z).variantName = o.variantName ∧
      (pl.put z).variantKind = o.variantKind ∧ (pl.put z).isHidden = false := by
  cases h <;> exact ⟨rfl, rfl, rfl, rfl⟩

theorem visAt_set_self {fs : List Obj} {i : Nat} {z : Obj} (hi : i < fs.length)
    (hz : z.isHidden = false) : visAt (fs.set i z) i = some z := by
  simp [visAt, hi, hz]

theorem visAt_set_ne {fs : List Obj} {i j : Nat} {z : Obj} (h : i ≠ j) :
    visAt (fs.set i z) j = visAt fs j := by
  simp [visAt, List.getElem?_set_ne h]

/-- Reading back through a key that selects the part just written. -/
theorem StepForm.read_same {E : Env} (hO : OrdLaws E) {k k' : Key} {o : Obj} {pl : Place}
    (h : StepForm E k o pl) (ho : o.OK E) (hk : KeyPath.WF [k]) (hk' : KeyPath.WF [k'])
    (hs : Same E o k k') {z : Obj}
    (hz : z.isHidden = false) : (pl.put z).atKey E k' = some z := by
  cases h with
  | struct tag fs n q hn hq =>
    subst hn
    cases hs with
    | refl => exact placeNamed_same hq hz
  | enumS tag v fs n q hn hq =>
    subst hn
    cases hs with
    | refl => exact placeNamed_same hq hz
  | tupleStruct tag fs i q hn hq =>
    subst hn
    cases hs with
    | refl =>
      obtain ⟨e, hi⟩ := placeAt_put hq z
      simp only [Obj.atKey, Obj.kind, Obj.fieldAt, e, visAt_set_self hi hz]
  | tuple tag fs i q hn hq =>
    subst hn
    cases hs with
    | refl =>
      obtain ⟨e, hi⟩ := placeAt_put hq z
      simp only [Obj.atKey, Obj.kind, Obj.fieldAt, e, visAt_set_self hi hz]
  | enumT tag v fs i q hn hq =>
    subst hn
    cases hs with
    | refl =>
      obtain ⟨e, hi⟩ := placeAt_put hq z
      simp only [Obj.atKey, Obj.kind, Obj.variantKind, Obj.fieldAt, e, visAt_set_self hi hz]
  | vec t fs v i q hn hi hq =>
    subst hn
    obtain ⟨e, hl⟩ := placeIdx_put hq z
    have : ∀ w, valueToUsize w = some i → (Obj.vec t (q.2 z)).atKey E (.get w) = some z := by
      intro w hw
      simp [Obj.atKey, Obj.kind, hw, Obj.fieldAt, e, hl]
    cases hs with
    | refl => exact this _ hi
    | index _ _ w _ h => exact this _ (h ▸ hi)
  | array t fs v i q hn hi hq =>
    subst hn
    obtain ⟨e, hl⟩ := placeIdx_put hq z
    have : ∀ w, valueToUsize w = some i → (Obj.array t (q.2 z)).atKey E (.get w) = some z := by
      intro w hw
      simp [Obj.atKey, Obj.kind, hw, Obj.fieldAt, e, hl]
    cases hs with
    | refl => exact this _ hi
    | index _ _ w _ h => exact this _ (h ▸ hi)
  | map kt vt kvs v key q hn hf hq =>
    subst hn
    obtain ⟨l₁, l₂, k'', h1, h2, h3, h4⟩ := placeKey_put hq z
    obtain ⟨o1, o2, o3⟩ := OK.map_inv hO ho
    have hc := hO.cmpOn kt
    have tk : HasTy E kt key :=
      fromReflect_sound hO kt _ (hk v (by simp)).ok hf
    have main : ∀ w b, fromReflect E kt w.toObj = some b → w.WF → E.kcmp kt key b = .eq →
        (Obj.map kt vt (q.2 z)).atKey E (.get w) = some z := by
      intro w b hb hw he
      have tb : HasTy E kt b := fromReflect_sound hO kt _ hw.ok hb
      have eqb : ∀ x, HasTy E kt x → E.kcmp kt key x = E.kcmp kt b x := fun x hx =>
        hc.eq_trans _ _ x tk tb hx he
      simp only [Obj.atKey, Obj.kind, Obj.mapGet, hb, Option.bind_some]
      rw [h2, bmGet_append, bmGet_none]
      · have : E.kcmp kt b k'' = .eq := by rw [← eqb _ (o2 (k'', q.1) (by rw [h1]; simp))]; exact h3
        simp [bmGet, this]
      · intro p hp
        rw [← eqb _ (o2 p (by rw [h1]; simp [hp]))]
        exact h4 p hp
    cases hs with
    | refl => exact main v key hf (hk v (by simp)) (hc.refl _ tk)
    | entry _ _ _ _ w a b ha hb he =>
      rw [hf] at ha; cases ha
      exact main w b hb (hk' w (by simp)) he
    | index _ _ _ h => simp [Obj.kind] at h

/-- Reading through a key that selects another part. -/
theorem StepForm.read_other {E : Env} (hO : OrdLaws E) {k k' : Key} {o : Obj} {pl : Place}
    (h : StepForm E k o pl) (ho : o.OK E) (hk : KeyPath.WF [k]) (hk' : KeyPath.WF [k'])
    (hs : Apart E o k k') {z : Obj} (hz : z.isHidden = false) :
    (pl.put z).atKey E k' = o.atKey E k' := by
  have sort : ∀ {o : Obj}, k.sort ≠ k'.sort → k.sort ≠ 3 → k'.sort ≠ 3 → StepForm E k o pl →
      (pl.put z).atKey E k' = o.atKey E k' := by
    intro o h1 h2 h3 h
    cases h <;> subst_vars <;> cases k' <;>
      simp [Key.sort, Obj.atKey, Obj.kind, Obj.variantKind] at *
  cases h with
  | struct tag fs n q hn hq =>
    cases hs with
    | sort _ _ _ h1 h2 h3 => exact sort h1 h2 h3 (.struct _ _ _ _ hn hq)
    | named _ _ m hm => cases hn; exact placeNamed_other hq hm hz
    | numbered => cases hn
    | index => cases hn
  | enumS tag v fs n q hn hq =>
    cases hs with
    | sort _ _ _ h1 h2 h3 => exact sort h1 h2 h3 (.enumS _ _ _ _ _ hn hq)
    | named _ _ m hm => cases hn; exact placeNamed_other hq hm hz
    | numbered => cases hn
    | index => cases hn
  | tupleStruct tag fs i q hn hq =>
    cases hs with
    | sort _ _ _ h1 h2 h3 => exact sort h1 h2 h3 (.tupleStruct _ _ _ _ hn hq)
    | numbered _ _ m hm =>
      cases hn
      simp only [Obj.atKey, Obj.kind, Obj.fieldAt, (placeAt_put hq z).1, visAt_set_ne hm]
    | named => cases hn
    | index => cases hn
  | tuple tag fs i q hn hq =>
    cases hs with
    | sort _ _ _ h1 h2 h3 => exact sort h1 h2 h3 (.tuple _ _ _ _ hn hq)
    | numbered _ _ m hm =>
      cases hn
      simp only [Obj.atKey, Obj.kind, Obj.fieldAt, (placeAt_put hq z).1, visAt_set_ne hm]
    | named => cases hn
    | index => cases hn
  | enumT tag v fs i q hn hq =>
    cases hs with
    | sort _ _ _ h1 h2 h3 => exact sort h1 h2 h3 (.enumT _ _ _ _ _ hn hq)
    | numbered _ _ m hm =>
      cases hn
      simp only [Obj.atKey, Obj.kind, Obj.variantKind, Obj.fieldAt, (placeAt_put hq z).1,
        visAt_set_ne hm]
    | named => cases hn
    | index => cases hn
  | vec t fs v i q hn hi hq =>
    cases hs with
    | sort _ _ _ h1 h2 h3 => exact sort h1 h2 h3 (.vec _ _ _ _ _ hn hi hq)
    | index _ _ w _ hm =>
      cases hn
      simp only [Obj.atKey, Obj.kind, Obj.fieldAt, (placeIdx_put hq z).1]
      cases hw : valueToUsize w with
      | none => rfl
      | some j =>
        have : i ≠ j := fun h => hm (by rw [hi, hw, h])
        simp [List.getElem?_set_ne this]
    | named => cases hn
    | numbered => cases hn
  | array t fs v i q hn hi hq =>
    cases hs with
    | sort _ _ _ h1 h2 h3 => exact sort h1 h2 h3 (.array _ _ _ _ _ hn hi hq)
    | index _ _ w _ hm =>
      cases hn
      simp only [Obj.atKey, Obj.kind, Obj.fieldAt, (placeIdx_put hq z).1]
      cases hw : valueToUsize w with
      | none => rfl
      | some j =>
        have : i ≠ j := fun h => hm (by rw [hi, hw, h])
        simp [List.getElem?_set_ne this]
    | named => cases hn
    | numbered => cases hn
  | map kt vt kvs v key q hn hf hq =>
    cases hs with
    | sort _ _ _ h1 h2 h3 => exact sort h1 h2 h3 (.map _ _ _ _ _ _ hn hf hq)
    | named => cases hn
    | numbered => cases hn
    | index _ _ _ h => simp [Obj.kind] at h
    | entry _ _ _ _ w hm =>
      cases hn
      obtain ⟨l₁, l₂, k'', h1, h2, h3, h4⟩ := placeKey_put hq z
      obtain ⟨o1, o2, o3⟩ := OK.map_inv hO ho
      have hc := hO.cmpOn kt
      have tk : HasTy E kt key := fromReflect_sound hO kt _ (hk v (by simp)).ok hf
      simp only [Obj.atKey, Obj.kind, Obj.mapGet]
      cases hb : fromReflect E kt w.toObj with
      | none => rfl
      | some b =>
        have tb : HasTy E kt b := fromReflect_sound hO kt _ (hk' w (by simp)).ok hb
        have tk'' : HasTy E kt k'' := o2 (k'', q.1) (by rw [h1]; simp)
        have : E.kcmp kt b k'' ≠ .eq := by
          intro he
          refine hm key b hf hb ?_
          rw [hc.eq_trans _ _ b tk tk'' tb h3]
          exact hc.eq_symm tb tk'' he
        simp only [Option.bind_some]
        rw [h2, h1, bmGet_append, bmGet_append]
        simp [bmGet, this]

/-! ## Writing keeps types -/

theorem HasTy.retype {E : Env} (hO : OrdLaws E) {T U : Ty} {y z : Obj} (h : HasTy E T y)
    (hU : y.typeOf = some U) (hz : HasTy E U z) : HasTy E T z := by
  induction h with
  | box t o _ ih => exact .box _ _ (ih hU)
  | value v o hv ho =>
    subst ho
    cases v <;> simp only [Value.toObj, Obj.typeOf, Option.some.injEq] at hU <;> subst hU
    case scalar s =>
      generalize hn : s.kind = k at hz
      cases hz with
      | scalar s' => exact .value (.scalar s') _ (.scalar s') (by rw [Value.toObj])
    case struct => cases hz with | structValue a b _ h ho => exact .value _ _ h ho
    case enumS => exact hz.of_enumValue
    case enumT => exact hz.of_enumValue
    case enumU => exact hz.of_enumValue
    case tupleStruct => cases hz with | tupleStructValue a _ h ho => exact .value _ _ h ho
    case tuple => cases hz with | tupleValue a _ h ho => exact .value _ _ h ho
    case list =>
      cases hz with
      | vec _ xs h =>
        obtain ⟨vs, hw, rfl⟩ := list_of_values (xs := xs) fun x hx => (h x hx).value_inv
        exact .value (.list vs) _ (.list _ (by
          first | exact fun x hx => hw x hx | skip)) (by rw [Value.toObj])
    case map =>
      obtain ⟨kvs', hw, ho⟩ := hz.map_value_inv hO
      exact .value _ _ hw ho
  | structValue ns fs o h ho =>
    subst ho; simp only [Value.toObj, Obj.typeOf, Option.some.injEq] at hU; subst hU; exact hz
  | tupleStructValue fs o h ho =>
    subst ho; simp only [Value.toObj, Obj.typeOf, Option.some.injEq] at hU; subst hU; exact hz
  | tupleValue fs o h ho =>
    subst ho; simp only [Value.toObj, Obj.typeOf, Option.some.injEq] at hU; subst hU; exact hz
  | enumValueS v ns fs o h ho =>
    subst ho; simp only [Value.toObj, Obj.typeOf, Option.some.injEq] at hU; subst hU; exact hz
  | enumValueT v fs o h ho =>
    subst ho; simp only [Value.toObj, Obj.typeOf, Option.some.injEq] at hU; subst hU; exact hz
  | enumValueU v o ho =>
    subst ho; simp only [Value.toObj, Obj.typeOf, Option.some.injEq] at hU; subst hU; exact hz
  | _ => simp only [Obj.typeOf, Option.some.injEq] at hU; subst hU; exact hz

theorem placeNamed_set {n : String} {fs : List (String × Obj)} {q} (h : placeNamed n fs = some q)
    (z : Obj) : ∃ i, fs[i]? = some (n, q.1) ∧ q.2 z = fs.set i (n, z) ∧ q.1.isHidden = false := by
  induction fs generalizing q with
  | nil => cases h
  | cons p r ih =>
    obtain ⟨m, x⟩ := p
    simp only [placeNamed] at h
    split at h
    · next hc => cases h; exact ⟨0, by simp [hc.1], by simp [hc.1], hc.2⟩
    · cases hr : placeNamed n r with
      | none => rw [hr] at h; cases h
      | some q' =>
        rw [hr] at h; cases h
        obtain ⟨i, h1, h2, h3⟩ := ih hr
        exact ⟨i + 1, by simpa using h1, by simp [h2], h3⟩

theorem placeAt_vis {i : Nat} {fs : List Obj} {q} (h : placeAt i fs = some q) :
    fs[i]? = some q.1 ∧ q.1.isHidden = false := by
  have := placeAt_get i fs
  rw [h] at this
  simp only [Option.map_some, visAt] at this
  split at this
  · next y hy =>
    split at this
    · cases this
    · next hh => cases this; exact ⟨hy, by simpa using hh⟩
  · cases this

theorem placeIdx_vis {i : Nat} {fs : List Obj} {q} (h : placeIdx i fs = some q) :
    fs[i]? = some q.1 := by
  have := placeIdx_get i fs
  rw [h] at this
  exact this.symm

theorem getElem?_set_some {α} {l : List α} {i j : Nat} {a b : α} (h : (l.set i a)[j]? = some b) :
    (i = j ∧ b = a ∧ j < l.length) ∨ l[j]? = some b := by
  rw [List.getElem?_set] at h
  split at h
  · next hij =>
    subst hij
    split at h
    · cases h; exact .inl ⟨rfl, rfl, by assumption⟩
    · cases h
  · exact .inr h

theorem StepForm.typed {E : Env} (hO : OrdLaws E) {k : Key} {o : Obj} {pl : Place}
    (h : StepForm E k o pl) {z : Obj} (hz : ∀ S, HasTy E S pl.get → HasTy E S z) {T : Ty}
    (hT : HasTy E T o) : HasTy E T (pl.put z) := by
  obtain ⟨u, hu, hou⟩ := hT.typeOf hO
  refine hT.retype hO hu ?_
  -- declared fields
  have named : ∀ {fds : List FieldDef} {fs : List (String × Obj)} {n q},
      placeNamed n fs = some q → q.1 = pl.get →
      fs.map (·.1) = fds.map (·.name) →
      (∀ (i : Nat) fd p, fds[i]? = some fd → fs[i]? = some p → fd.skip = true →
        p.2.isHidden = true) →
      (∀ (i : Nat) fd p, fds[i]? = some fd → fs[i]? = some p → fd.skip = false →
        HasTy E fd.ty p.2) →
      (q.2 z).map (·.1) = fds.map (·.name) ∧
      (∀ (i : Nat) fd p, fds[i]? = some fd → (q.2 z)[i]? = some p → fd.skip = true →
        p.2.isHidden = true) ∧
      (∀ (i : Nat) fd p, fds[i]? = some fd → (q.2 z)[i]? = some p → fd.skip = false →
        HasTy E fd.ty p.2) := by
    intro fds fs n q hq hg h2 h3 h4
    obtain ⟨i, e1, e2, e3⟩ := placeNamed_set hq z
    refine ⟨?_, ?_, ?_⟩
    · rw [e2, ← h2, List.map_set]
      apply List.ext_getElem?
      intro j
      rw [List.getElem?_set]
      split
      · next hij =>
        subst hij
        have hl := List.getElem?_eq_some_iff.mp e1
        obtain ⟨hl, he⟩ := hl
        simp [hl, he]
      · rfl
    · intro j fd p hfd hp hs
      rw [e2] at hp
      rcases getElem?_set_some hp with ⟨rfl, rfl, _⟩ | hp
      · have := h3 i fd _ hfd e1 hs
        simp [e3] at this
      · exact h3 j fd p hfd hp hs
    · intro j fd p hfd hp hs
      rw [e2] at hp
      rcases getElem?_set_some hp with ⟨rfl, rfl, _⟩ | hp
      · have := h4 i fd _ hfd e1 hs
        exact hz _ (hg ▸ this)
      · exact h4 j fd p hfd hp hs
  have pos : ∀ {fds : List FieldDef} {fs : List Obj} {i q},
      placeAt i fs = some q → q.1 = pl.get →
      fs.length = fds.length →
      (∀ (i : Nat) fd p, fds[i]? = some fd → fs[i]? = some p → fd.skip = true →
        p.isHidden = true) →
      (∀ (i : Nat) fd p, fds[i]? = some fd → fs[i]? = some p → fd.skip = false →
        HasTy E fd.ty p) →
      (q.2 z).length = fds.length ∧
      (∀ (i : Nat) fd p, fds[i]? = some fd → (q.2 z)[i]? = some p → fd.skip = true →
        p.isHidden = true) ∧
      (∀ (i : Nat) fd p, fds[i]? = some fd → (q.2 z)[i]? = some p → fd.skip = false →
        HasTy E fd.ty p) := by
    intro fds fs i q hq hg h2 h3 h4
    obtain ⟨e2, _⟩ := placeAt_put hq z
    obtain ⟨e1, e3⟩ := placeAt_vis hq
    refine ⟨by simp [e2, h2], ?_, ?_⟩
    · intro j fd p hfd hp hs
      rw [e2] at hp
      rcases getElem?_set_some hp with ⟨rfl, rfl, _⟩ | hp
      · have := h3 i fd _ hfd e1 hs
        simp [e3] at this
      · exact h3 j fd p hfd hp hs
    · intro j fd p hfd hp hs
      rw [e2] at hp
      rcases getElem?_set_some hp with ⟨rfl, rfl, _⟩ | hp
      · have := h4 i fd _ hfd e1 hs
        exact hz _ (hg ▸ this)
      · exact h4 j fd p hfd hp hs
  have all : ∀ {t : Ty} {fs : List Obj} {i}, fs[i]? = some pl.get → (∀ x ∈ fs, HasTy E t x) →
      ∀ x ∈ fs.set i z, HasTy E t x := by
    intro t fs i h1 h x hx
    rcases List.mem_or_eq_of_mem_set hx with hx | rfl
    · exact h x hx
    · exact hz _ (h _ (List.mem_of_getElem? h1))
  -- dynamic fields
  have dynNamed : ∀ {fs : List (String × Value)} {n q},
      placeNamed n (fs.map fun p => (p.1, p.2.toObj)) = some q → q.1 = pl.get →
      (∀ p ∈ fs, p.2.WF) → BMSorted strCmp fs →
      ∃ fs' : List (String × Value), q.2 z = fs'.map (fun p => (p.1, p.2.toObj)) ∧
        (∀ p ∈ fs', p.2.WF) ∧ fs'.map (·.1) = fs.map (·.1) ∧ BMSorted strCmp fs' := by
    intro fs n q hq hg hw hs
    obtain ⟨i, e1, e2, e3⟩ := placeNamed_set hq z
    rw [List.getElem?_map] at e1
    obtain ⟨p, hp, he⟩ := Option.map_eq_some_iff.mp e1
    obtain ⟨w, hw', rfl⟩ := (hz .value (by
      rw [← hg, ← (Prod.mk.inj he).2]
      exact .value p.2 _ (hw p (List.mem_of_getElem? hp)) rfl)).value_inv
    have hk : (fs.set i (n, w)).map (·.1) = fs.map (·.1) := by
      rw [List.map_set]
      apply List.ext_getElem?
      intro j
      rw [List.getElem?_set]
      split
      · next hij =>
        subst hij
        have hl := List.getElem?_eq_some_iff.mp hp
        obtain ⟨hl, he'⟩ := hl
        simp [hl, he', (Prod.mk.inj he).1]
      · rfl
    refine ⟨fs.set i (n, w), by rw [e2, List.map_set], ?_, hk, sorted_of_keys_eq hk hs⟩
    intro p hp
    rcases List.mem_or_eq_of_mem_set hp with hp | rfl
    · exact hw p hp
    · exact hw'
  have dynPos : ∀ {fs : List Value} {i}, (fs.map fun x => x.toObj)[i]? = some pl.get →
      (∀ x ∈ fs, x.WF) →
      ∃ fs' : List Value, (fs.map fun x => x.toObj).set i z = fs'.map (fun x => x.toObj) ∧
        (∀ x ∈ fs', x.WF) := by
    intro fs i h1 hw
    obtain ⟨fs', hw', he⟩ := list_of_values (xs := (fs.map fun x => x.toObj).set i z) (by
      intro x hx
      refine (all (t := .value) h1 ?_ x hx).value_inv
      intro y hy
      obtain ⟨v, hv, rfl⟩ := List.mem_map.mp hy
      exact .value v _ (hw v hv) rfl)
    exact ⟨fs', he, hw'⟩
  cases h with
  | struct tag fs n q hn hq =>
    cases tag with
    | derived m =>
      simp only [Obj.typeOf, Option.some.injEq] at hu; subst hu
      cases hou with
      | struct _ fds c _ hd h2 h3 h4 =>
        obtain ⟨a, b, d⟩ := named hq rfl h2 h3 h4
        exact .struct m fds c _ hd a b d
    | dyn ns =>
      simp only [Obj.typeOf, Option.some.injEq] at hu; subst hu
      cases hou with
      | structValue ns' fs' _ hw ho =>
        simp only [Value.toObj, Obj.struct.injEq, STag.dyn.injEq] at ho
        obtain ⟨rfl, rfl⟩ := ho
        cases hw with
        | struct _ _ h1 h2 h3 =>
          obtain ⟨fs'', e, hw, hk, hs⟩ := dynNamed hq rfl h3 h2
          exact .structValue ns fs'' _ (.struct _ _ (by rw [hk]; exact h1) hs hw)
            (by simp only [Value.toObj, e])
  | enumS tag v fs n q hn hq =>
    cases tag with
    | derived m =>
      simp only [Obj.typeOf, Option.some.injEq] at hu; subst hu
      cases hou with
      | enumS _ vds c _ fds _ hd hv h2 h3 h4 =>
        obtain ⟨a, b, d⟩ := named hq rfl h2 h3 h4
        exact .enumS m vds c v fds _ hd hv a b d
    | dyn ns =>
      simp only [Obj.typeOf, Option.some.injEq] at hu; subst hu
      cases hou with
      | enumValueS v' ns' fs' _ hw ho =>
        simp only [Value.toObj, Obj.enumS.injEq, STag.dyn.injEq] at ho
        obtain ⟨rfl, rfl, rfl⟩ := ho
        cases hw with
        | enumS _ _ _ h1 h2 h3 =>
          obtain ⟨fs'', e, hw, hk, hs⟩ := dynNamed hq rfl h3 h2
          exact .enumValueS v ns fs'' _ (.enumS _ _ _ (by rw [hk]; exact h1) hs hw)
            (by simp only [Value.toObj, e])
      | enumValueT _ _ _ _ ho => simp [Value.toObj] at ho
      | enumValueU _ _ ho => simp [Value.toObj] at ho
  | tupleStruct tag fs i q hn hq =>
    cases tag with
    | derived m =>
      simp only [Obj.typeOf, Option.some.injEq] at hu; subst hu
      cases hou with
      | tupleStruct _ fds c _ hd h2 h3 h4 =>
        obtain ⟨a, b, d⟩ := pos hq rfl h2 h3 h4
        exact .tupleStruct m fds c _ hd a b d
    | dyn =>
      simp only [Obj.typeOf, Option.some.injEq] at hu; subst hu
      cases hou with
      | tupleStructValue fs' _ hw ho =>
        simp only [Value.toObj, Obj.tupleStruct.injEq, true_and] at ho
        subst ho
        cases hw with
        | tupleStruct _ h =>
          obtain ⟨fs'', e, hw⟩ := dynPos (placeAt_vis hq).1 h
          exact .tupleStructValue fs'' _ (.tupleStruct _ hw)
            (by simp only [(placeAt_put hq z).1, Value.toObj, e])
  | tuple tag fs i q hn hq =>
    cases tag with
    | typed ts =>
      simp only [Obj.typeOf, Option.some.injEq] at hu; subst hu
      cases hou with
      | tuple _ _ hl h =>
        simp only [(placeAt_put hq z).1]
        refine .tuple ts _ (by simp [hl]) ?_
        intro j t x ht hx
        rcases getElem?_set_some hx with ⟨rfl, rfl, _⟩ | hx
        · exact hz _ (h i t _ ht (placeAt_vis hq).1)
        · exact h j t x ht hx
    | dyn =>
      simp only [Obj.typeOf, Option.some.injEq] at hu; subst hu
      cases hou with
      | tupleValue fs' _ hw ho =>
        simp only [Value.toObj, Obj.tuple.injEq, true_and] at ho
        subst ho
        cases hw with
        | tuple _ h =>
          obtain ⟨fs'', e, hw⟩ := dynPos (placeAt_vis hq).1 h
          exact .tupleValue fs'' _ (.tuple _ hw)
            (by simp only [(placeAt_put hq z).1, Value.toObj, e])
  | enumT tag v fs i q hn hq =>
    cases tag with
    | derived m =>
      simp only [Obj.typeOf, Option.some.injEq] at hu; subst hu
      cases hou with
      | enumT _ vds c _ fds _ hd hv h2 h3 h4 =>
        obtain ⟨a, b, d⟩ := pos hq rfl h2 h3 h4
        exact .enumT m vds c v fds _ hd hv a b d
    | dyn =>
      simp only [Obj.typeOf, Option.some.injEq] at hu; subst hu
      cases hou with
      | enumValueT v' fs' _ hw ho =>
        simp only [Value.toObj, Obj.enumT.injEq, true_and] at ho
        obtain ⟨rfl, rfl⟩ := ho
        cases hw with
        | enumT _ _ h =>
          obtain ⟨fs'', e, hw⟩ := dynPos (placeAt_vis hq).1 h
          exact .enumValueT v fs'' _ (.enumT _ _ hw)
            (by simp only [(placeAt_put hq z).1, Value.toObj, e])
      | enumValueS _ _ _ _ _ ho => simp [Value.toObj] at ho
      | enumValueU _ _ ho => simp [Value.toObj] at ho
  | vec t fs v i q hn hi hq =>
    simp only [Obj.typeOf, Option.some.injEq] at hu; subst hu
    cases hou with
    | vec _ _ h =>
      simp only [(placeIdx_put hq z).1]
      exact .vec t _ (all (placeIdx_vis hq) h)
  | array t fs v i q hn hi hq =>
    simp only [Obj.typeOf, Option.some.injEq] at hu; subst hu
    generalize hn : fs.length = len at hou ⊢
    cases hou with
    | array _ _ h =>
      simp only [(placeIdx_put hq z).1]
      have : fs.length = (fs.set i z).length := by simp
      rw [this]
      exact .array t _ (all (placeIdx_vis hq) h)
  | map kt vt kvs v key q hn hf hq =>
    simp only [Obj.typeOf, Option.some.injEq] at hu; subst hu
    cases hou with
    | map _ _ _ h1 h2 h3 =>
      obtain ⟨l₁, l₂, k', e1, e2, e3, e4⟩ := placeKey_put hq z
      refine .map kt vt _ (sorted_of_keys_eq (l := kvs) (by simp [e1, e2]) h1) ?_ ?_
      · intro p hp
        simp only [e2, List.mem_append, List.mem_cons] at hp
        rcases hp with hp | rfl | hp
        · exact h2 p (by simp [e1, hp])
        · exact h2 (k', q.1) (by simp [e1])
        · exact h2 p (by simp [e1, hp])
      · intro p hp
        simp only [e2, List.mem_append, List.mem_cons] at hp
        rcases hp with hp | rfl | hp
        · exact h3 p (by simp [e1, hp])
        · exact hz _ (h3 (k', q.1) (by simp [e1]))
        · exact h3 p (by simp [e1, hp])

/-! ## Paths -/

theorem StepForm.put_get {E : Env} {k : Key} {o : Obj} {pl : Place} (h : StepForm E k o pl) :
    pl.put pl.get = o := by
  cases h with
  | struct _ _ _ q _ hq =>
    obtain ⟨i, e1, e2, _⟩ := placeNamed_set hq q.1
    obtain ⟨hi, e1⟩ := List.getElem?_eq_some_iff.mp e1
    simp only [e2]; rw [← e1, List.set_getElem_self]
  | enumS _ _ _ _ q _ hq =>
    obtain ⟨i, e1, e2, _⟩ := placeNamed_set hq q.1
    obtain ⟨hi, e1⟩ := List.getElem?_eq_some_iff.mp e1
    simp only [e2]; rw [← e1, List.set_getElem_self]
  | tupleStruct _ _ _ _ _ hq =>
    obtain ⟨hi, e1⟩ := List.getElem?_eq_some_iff.mp (placeAt_vis hq).1
    simp only [(placeAt_put hq _).1]; rw [← e1, List.set_getElem_self]
  | tuple _ _ _ _ _ hq =>
    obtain ⟨hi, e1⟩ := List.getElem?_eq_some_iff.mp (placeAt_vis hq).1
    simp only [(placeAt_put hq _).1]; rw [← e1, List.set_getElem_self]
  | enumT _ _ _ _ _ _ hq =>
    obtain ⟨hi, e1⟩ := List.getElem?_eq_some_iff.mp (placeAt_vis hq).1
    simp only [(placeAt_put hq _).1]; rw [← e1, List.set_getElem_self]
  | vec _ _ _ _ _ _ _ hq =>
    obtain ⟨hi, e1⟩ := List.getElem?_eq_some_iff.mp (placeIdx_vis hq)
    simp only [(placeIdx_put hq _).1]; rw [← e1, List.set_getElem_self]
  | array _ _ _ _ _ _ _ hq =>
    obtain ⟨hi, e1⟩ := List.getElem?_eq_some_iff.mp (placeIdx_vis hq)
    simp only [(placeIdx_put hq _).1]; rw [← e1, List.set_getElem_self]
  | map _ _ _ _ _ q _ _ hq =>
    obtain ⟨l₁, l₂, k', e1, e2, _⟩ := placeKey_put hq q.1
    simp only [e2, e1]

/-- How `at_mut` on a non-empty path is composed. -/
theorem atMutPath_cons_inv {E : Env} {o : Obj} {k : Key} {p : KeyPath} {pl : Place}
    (h : atMutPath E o (k :: p) = some pl) :
    ∃ a b, o.atKeyMut E k = some a ∧ atMutPath E a.get p = some b ∧ pl.get = b.get ∧
      ∀ z, pl.put z = a.put (b.put z) := by
  rw [atMutPath_cons] at h
  obtain ⟨a, ha, h⟩ := Option.bind_eq_some_iff.mp h
  obtain ⟨b, hb, rfl⟩ := Option.map_eq_some_iff.mp h
  exact ⟨a, b, ha, hb, rfl, fun _ => rfl⟩

theorem OK_atKey {E : Env} {o x : Obj} {k : Key} (ho : o.OK E) (h : o.atKey E k = some x) :
    x.OK E := by
  cases k with
  | variant v => rw [atKey_variant] at h; split at h <;> cases h; exact ho
  | named n =>
    cases o <;> simp only [Obj.atKey, Obj.kind, Obj.variantKind, reduceCtorEq] at h <;>
      exact OK_field ho h
  | numbered n =>
    cases o <;> simp only [Obj.atKey, Obj.kind, Obj.variantKind, reduceCtorEq] at h <;>
      exact OK_fieldAt ho h
  | get v =>
    cases o <;> simp only [Obj.atKey, Obj.kind, Obj.variantKind, reduceCtorEq] at h
    · obtain ⟨i, _, h⟩ := Option.bind_eq_some_iff.mp h; exact OK_fieldAt ho h
    · obtain ⟨i, _, h⟩ := Option.bind_eq_some_iff.mp h; exact OK_fieldAt ho h
    · exact OK_mapGet ho h

theorem OK_atKeyMut {E : Env} {o : Obj} {k : Key} {a : Place} (ho : o.OK E)
    (h : o.atKeyMut E k = some a) : a.get.OK E := by
  apply OK_atKey ho (k := k)
  rw [← atKeyMut_get, h]; rfl

theorem KeyPath.WF.head {k : Key} {p : KeyPath} (h : KeyPath.WF (k :: p)) : KeyPath.WF [k] :=
  fun v hv => h v (by simp only [List.mem_singleton] at hv; simp [hv])

theorem KeyPath.WF.tail {k : Key} {p : KeyPath} (h : KeyPath.WF (k :: p)) : KeyPath.WF p :=
  fun v hv => h v (by simp [hv])

theorem atMutPath_typed {E : Env} (hO : OrdLaws E) {p : KeyPath} {z : Obj} : ∀ {o : Obj}
    {pl : Place}, atMutPath E o p = some pl → (∀ S, HasTy E S pl.get → HasTy E S z) →
    ∀ T, HasTy E T o → HasTy E T (pl.put z) := by
  induction p with
  | nil => intro o pl h hz T hT; cases h; exact hz T hT
  | cons k p ih =>
    intro o pl h hz T hT
    obtain ⟨a, b, ha, hb, hg, hp⟩ := atMutPath_cons_inv h
    rw [hp]
    have hb' := ih hb (hg ▸ hz)
    by_cases hk : k.sort = 3
    · cases k <;> simp [Key.sort] at hk
      obtain ⟨rfl, _⟩ := atKeyMut_variant ha
      exact hb' T hT
    · exact (stepForm ha hk).typed hO hb' hT

theorem put_not_hidden {E : Env} {p : KeyPath} {z : Obj} (hz : z.isHidden = false) : ∀ {o : Obj}
    {pl : Place}, atMutPath E o p = some pl → (pl.put z).isHidden = false := by
  induction p with
  | nil => intro o pl h; cases h; exact hz
  | cons k p ih =>
    intro o pl h
    obtain ⟨a, b, ha, hb, hg, hp⟩ := atMutPath_cons_inv h
    rw [hp]
    by_cases hk : k.sort = 3
    · cases k <;> simp [Key.sort] at hk
      obtain ⟨rfl, _⟩ := atKeyMut_variant ha
      exact ih hb
    · exact ((stepForm ha hk).keeps _).2.2.2

/-- Writing below an object keeps its variant; writing the object itself gives the new one's. -/
theorem put_variantName {E : Env} {p : KeyPath} {z : Obj} : ∀ {o : Obj} {pl : Place},
    atMutPath E o p = some pl → ((∀ k ∈ p, k.sort = 3) → z.variantName = o.variantName) →
    (pl.put z).variantName = o.variantName := by
  induction p with
  | nil => intro o pl h hz; cases h; exact hz (by simp)
  | cons k p ih =>
    intro o pl h hz
    obtain ⟨a, b, ha, hb, hg, hp⟩ := atMutPath_cons_inv h
    rw [hp]
    by_cases hk : k.sort = 3
    · cases k <;> simp [Key.sort] at hk
      obtain ⟨rfl, _⟩ := atKeyMut_variant ha
      refine ih hb fun hall => hz ?_
      intro k hk
      rcases List.mem_cons.mp hk with rfl | hk
      · rfl
      · exact hall k hk
    · exact ((stepForm ha hk).keeps _).2.1

theorem at_variant_end {E : Env} {o x : Obj} {p : KeyPath} {v : String}
    (h : atPath E o p = some x) (hl : p.getLast? = some (.variant v)) : x.variantName = some v := by
  obtain ⟨p', rfl⟩ := List.getLast?_eq_some_iff.mp hl
  rw [atPath_append] at h
  obtain ⟨y, _, h⟩ := Option.bind_eq_some_iff.mp h
  rw [atPath_cons, atKey_variant] at h
  split at h
  · next hv => cases h; exact hv
  · cases h

theorem put_get {E : Env} (hO : OrdLaws E) {p : KeyPath} {z : Obj} (hz : z.isHidden = false)
    (hp : KeyPath.WF p) : ∀ {o : Obj} {pl : Place}, o.OK E → atMutPath E o p = some pl →
    (∀ v, p.getLast? = some (.variant v) → z.variantName = some v) →
    atPath E (pl.put z) p = some z := by
  induction p with
  | nil => intro o pl _ h _; cases h; rfl
  | cons k p ih =>
    intro o pl ho h hv
    have hlast : ∀ v, p.getLast? = some (.variant v) → z.variantName = some v := by
      intro v hl
      apply hv v
      rw [List.getLast?_cons, hl]; rfl
    obtain ⟨a, b, ha, hb, hg, hput⟩ := atMutPath_cons_inv h
    rw [hput, atPath_cons]
    by_cases hk : k.sort = 3
    · cases k <;> simp [Key.sort] at hk
      next v =>
      obtain ⟨rfl, hvn⟩ := atKeyMut_variant ha
      have : (b.put z).variantName = some v := by
        rw [← hvn]
        refine put_variantName hb fun hall => ?_
        rw [hvn]
        cases hp' : p.getLast? with
        | none =>
          rw [List.getLast?_eq_none_iff] at hp'
          subst hp'
          exact hv v rfl
        | some k =>
          have := hall k (List.mem_of_getLast? hp')
          cases k <;> simp [Key.sort] at this
          next w =>
          rw [hlast w hp']
          have e := atMutPath_get E o p
          rw [hb] at e
          -- all keys of `p` are variants: the place is `o` itself
          have : ∀ {p : KeyPath} {b : Place}, (∀ k ∈ p, k.sort = 3) → atMutPath E o p = some b →
              b.get = o := by
            intro p
            induction p with
            | nil => intro b _ h; cases h; rfl
            | cons k p ih =>
              intro b hall h
              obtain ⟨a', b', ha', hb', hg', _⟩ := atMutPath_cons_inv h
              have hk := hall k (by simp)
              cases k <;> simp [Key.sort] at hk
              obtain ⟨rfl, _⟩ := atKeyMut_variant ha'
              rw [hg']
              exact ih (fun k hk => hall k (by simp [hk])) hb'
          have h1 := at_variant_end e.symm hp'
          change b.get.variantName = some w at h1
          rw [this hall hb, hvn] at h1
          exact h1.symm
      show ((b.put z).atKey E (.variant v)).bind _ = _
      rw [atKey_variant, if_pos this]
      exact ih hp.tail ho hb hlast
    · have hst := stepForm ha hk
      rw [hst.read_same hO ho hp.head hp.head (.refl _ _ hk) (put_not_hidden hz hb)]
      exact ih hp.tail (OK_atKeyMut ho ha) hb hlast

theorem Apart.steps {E : Env} {o : Obj} {k k' : Key} (h : Apart E o k k') :
    k.sort ≠ 3 ∧ k'.sort ≠ 3 := by
  cases h <;> simp_all [Key.sort]

theorem Same.steps {E : Env} {o : Obj} {k k' : Key} (h : Same E o k k') :
    k.sort ≠ 3 ∧ k'.sort ≠ 3 := by
  cases h <;> simp_all [Key.sort]

theorem Diverge.step {E : Env} {o : Obj} {p q : KeyPath} (h : Diverge E o p q) :
    ∃ k ∈ p, k.sort ≠ 3 := by
  induction h with
  | here o k k' p q h => exact ⟨k, by simp, h.steps.1⟩
  | deeper o k k' x p q h _ _ _ => exact ⟨k, by simp, h.steps.1⟩
  | left o v p q _ ih => obtain ⟨k, hk, hs⟩ := ih; exact ⟨k, by simp [hk], hs⟩
  | right o v p q _ ih => exact ih

theorem frame {E : Env} (hO : OrdLaws E) {z : Obj} (hz : z.isHidden = false) {o : Obj}
    {p q : KeyPath} (h : Diverge E o p q) : KeyPath.WF p → KeyPath.WF q → o.OK E →
    ∀ {pl : Place}, atMutPath E o p = some pl → atPath E (pl.put z) q = atPath E o q := by
  induction h with
  | here o k k' p q h =>
    intro hp hq ho pl hpl
    obtain ⟨a, b, ha, hb, hg, hput⟩ := atMutPath_cons_inv hpl
    rw [hput, atPath_cons, atPath_cons, (stepForm ha h.steps.1).read_other hO ho hp.head hq.head h
      (put_not_hidden hz hb)]
  | deeper o k k' x p q h hx _ ih =>
    intro hp hq ho pl hpl
    obtain ⟨a, b, ha, hb, hg, hput⟩ := atMutPath_cons_inv hpl
    have hst := stepForm ha h.steps.1
    have hxa : a.get = x := by
      have := atKeyMut_get E o k
      rw [ha, hx] at this
      exact Option.some.inj this
    subst hxa
    have hoa := OK_atKeyMut ho ha
    have h1 := hst.read_same hO ho hp.head hq.head h (put_not_hidden hz hb)
    have h2 := hst.read_same hO ho hp.head hq.head h hoa.not_hidden
    rw [hst.put_get] at h2
    rw [hput, atPath_cons, atPath_cons, h1, h2]
    exact ih hp.tail hq.tail hoa hb
  | left o v p q _ ih =>
    intro hp hq ho pl hpl
    obtain ⟨a, b, ha, hb, hg, hput⟩ := atMutPath_cons_inv hpl
    obtain ⟨rfl, _⟩ := atKeyMut_variant ha
    rw [hput]
    exact ih hp.tail hq ho hb
  | right o v p q hd ih =>
    intro hp hq ho pl hpl
    have hv : (pl.put z).variantName = o.variantName :=
      put_variantName hpl fun hall => by
        obtain ⟨k, hk, hs⟩ := hd.step
        exact absurd (hall k hk) hs
    rw [atPath_cons, atPath_cons, atKey_variant, atKey_variant, hv]
    split
    · exact ih hp hq.tail ho hpl
    · rfl

theorem put_self {E : Env} {p : KeyPath} : ∀ {o : Obj} {pl : Place},
    atMutPath E o p = some pl → pl.put pl.get = o := by
  induction p with
  | nil => intro o pl h; cases h; rfl
  | cons k p ih =>
    intro o pl h
    obtain ⟨a, b, ha, hb, hg, hp⟩ := atMutPath_cons_inv h
    rw [hp, hg, ih hb]
    by_cases hk : k.sort = 3
    · cases k <;> simp [Key.sort] at hk
      obtain ⟨rfl, _⟩ := atKeyMut_variant ha
      rfl
    · exact (stepForm ha hk).put_get

/-! ## Printing -/

/-- Where the text of a key ends. -/
def isSep (c : Char) : Bool := c = '.' || c = ':'

theorem digits_no_sep (i : Nat) : ∀ c ∈ Nat.toDigits 10 i, isSep c = false := by
  intro c hc
  have := Nat.isDigit_of_mem_toDigits (by decide) (by decide) hc
  simp only [isSep, Bool.or_eq_false_iff, decide_eq_false_iff_not]
  constructor <;> rintro rfl <;> simp [Char.isDigit] at this

theorem ident_no_sep {s : String} (h : IsIdent s) : ∀ c ∈ s.toList, isSep c = false := by
  intro c hc
  have := h.1 c hc
  simp [isSep, this.1, this.2]

theorem display_head {dbg : Value → List Char} {p : KeyPath} (h : ∀ k ∈ p, k.Plain) :
    (KeyPath.display dbg p).head?.all isSep = true := by
  cases p with
  | nil => rfl
  | cons k r =>
    have := h k (by simp)
    cases k <;> simp_all [KeyPath.display, Key.display, isSep, Key.Plain]

/-- Two texts cut at the first separator. -/
theorem cut_eq {a b x y : List Char} (ha : ∀ c ∈ a, isSep c = false) (hb : ∀ c ∈ b, isSep c = false)
    (hx : x.head?.all isSep = true) (hy : y.head?.all isSep = true) (h : a ++ x = b ++ y) :
    a = b ∧ x = y := by
  induction a generalizing b with
  | nil =>
    cases b with
    | nil => exact ⟨rfl, h⟩
    | cons c b =>
      simp only [List.nil_append] at h
      subst h
      simp [hb c (by simp)] at hx
  | cons c a ih =>
    cases b with
    | nil =>
      simp only [List.nil_append] at h
      subst h
      simp [ha c (by simp)] at hy
    | cons d b =>
      simp only [List.cons_append, List.cons.injEq] at h
      obtain ⟨rfl, h⟩ := h
      obtain ⟨rfl, rfl⟩ := ih (fun c hc => ha c (by simp [hc])) (fun c hc => hb c (by simp [hc])) h
      exact ⟨rfl, rfl⟩

theorem digits_head (i : Nat) : ∃ c r, Nat.toDigits 10 i = c :: r ∧ c.isDigit = true := by
  cases h : Nat.toDigits 10 i with
  | nil => exact absurd h Nat.toDigits_ne_nil
  | cons c r =>
    exact ⟨c, r, rfl, Nat.isDigit_of_mem_toDigits (by decide) (by decide)
      (h ▸ List.mem_cons_self : c ∈ Nat.toDigits 10 i)⟩

theorem digits_inj {i j : Nat} (h : Nat.toDigits 10 i = Nat.toDigits 10 j) : i = j := by
  rw [← Nat.ofDigitChars_ten_toDigits (n := i), h, Nat.ofDigitChars_ten_toDigits]

theorem display_inj {dbg : Value → List Char} : ∀ {p q : KeyPath}, (∀ k ∈ p, k.Plain) →
    (∀ k ∈ q, k.Plain) → KeyPath.display dbg p = KeyPath.display dbg q → p = q
  | [], [], _, _, _ => rfl
  | [], k :: _, _, hq, h => by cases k <;> simp [KeyPath.display, Key.display] at h
  | k :: _, [], _, _, h => by cases k <;> simp [KeyPath.display, Key.display] at h
  | k :: p, l :: q, hp, hq, h => by
    have hk := hp k (by simp)
    have hl := hq l (by simp)
    have hp' : ∀ k ∈ p, k.Plain := fun k hk => hp k (by simp [hk])
    have hq' : ∀ k ∈ q, k.Plain := fun k hk => hq k (by simp [hk])
    have dp := display_head (dbg := dbg) hp'
    have dq := display_head (dbg := dbg) hq'
    have mixed : ∀ {n : String} {i : Nat}, IsIdent n → n.toList ≠ Nat.toDigits 10 i := by
      intro n i hn he
      obtain ⟨c, r, hc, hd⟩ := digits_head i
      have := hn.2 c r (he.trans hc)
      rw [this] at hd; cases hd
    cases k <;> cases l <;> simp only [Key.Plain] at hk hl <;>
      simp only [KeyPath.display, Key.display, List.cons_append, List.cons.injEq, true_and,
        reduceCtorEq, false_and, Char.reduceEq] at h
    · obtain ⟨h1, h2⟩ := cut_eq (ident_no_sep hk) (ident_no_sep hl) dp dq h
      rw [String.toList_inj.mp h1, display_inj hp' hq' h2]
    · obtain ⟨h1, h2⟩ := cut_eq (ident_no_sep hk) (digits_no_sep _) dp dq h
      exact absurd h1 (mixed hk)
    · obtain ⟨h1, h2⟩ := cut_eq (digits_no_sep _) (ident_no_sep hl) dp dq h
      exact absurd h1.symm (mixed hl)
    · obtain ⟨h1, h2⟩ := cut_eq (digits_no_sep _) (digits_no_sep _) dp dq h
      rw [digits_inj h1, display_inj hp' hq' h2]
    · obtain ⟨h1, h2⟩ := cut_eq (ident_no_sep hk) (ident_no_sep hl) dp dq h
      rw [String.toList_inj.mp h1, display_inj hp' hq' h2]

theorem display_append (dbg : Value → List Char) (p q : KeyPath) :
    KeyPath.display dbg (p ++ q) = KeyPath.display dbg p ++ KeyPath.display dbg q := by
  induction p with
  | nil => rfl
  | cons k p ih => simp [KeyPath.display, ih]

end Mirror
