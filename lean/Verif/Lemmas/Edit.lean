import Verif.Lemmas.Kids
import Verif.Lemmas.Patch
import Verif.Lemmas.Containers
import Verif.Spec.Edit

set_option linter.unusedSimpArgs false

/-!
# Changing parts at paths
-/

namespace Mirror

/-- Change the part at `p`, if there is one. -/
def upd (E : Env) (x : Obj) (p : KeyPath) (f : Obj → Obj) : Obj :=
  match atMutPath E x p with
  | none => x
  | some pl => pl.put (f pl.get)

/-- `f` turns proper values of a type into proper values of that type. -/
def Keeps (E : Env) (f : Obj → Obj) : Prop := ∀ S y, HasTy E S y → HasTy E S (f y)

theorem upd_nil (E : Env) (x : Obj) (f : Obj → Obj) : upd E x [] f = f x := rfl

theorem upd_cons (E : Env) (x : Obj) (k : Key) (p : KeyPath) (f : Obj → Obj) :
    upd E x (k :: p) f =
      match x.atKeyMut E k with
      | none => x
      | some a => a.put (upd E a.get p f) := by
  unfold upd
  rw [atMutPath_cons]
  cases ha : x.atKeyMut E k with
  | none => rfl
  | some a =>
    simp only [Option.bind_some]
    cases hb : atMutPath E a.get p with
    | none =>
      simp only [Option.map_none]
      have : atMutPath E x [k] = some ⟨a.get, a.put⟩ := by
        rw [atMutPath_cons, ha]; rfl
      exact (put_self this).symm
    | some b => rfl

theorem upd_variant (E : Env) (x : Obj) (v : String) (p : KeyPath) (f : Obj → Obj) :
    upd E x (.variant v :: p) f = if x.variantName = some v then upd E x p f else x := by
  rw [upd_cons]
  cases ha : x.atKeyMut E (.variant v) with
  | some a =>
    obtain ⟨rfl, hv⟩ := atKeyMut_variant ha
    rw [if_pos hv]
  | none =>
    rw [if_neg]
    intro hv
    have := atKeyMut_get E x (.variant v)
    rw [ha, atKey_variant, if_pos hv] at this
    cases this

theorem upd_step (E : Env) (x : Obj) {k : Key} (hk : k.sort ≠ 3) (p : KeyPath) (f : Obj → Obj) :
    upd E x (k :: p) f =
      match keyIdx E x k with
      | none => x
      | some i =>
        match x.kids[i]? with
        | none => x
        | some y => x.withKids (x.kids.set i (upd E y p f)) := by
  rw [upd_cons]
  cases ha : x.atKeyMut E k with
  | none => rw [kid_none hk ha]
  | some a =>
    obtain ⟨i, h1, h2, h3⟩ := kid_some hk ha
    simp only [h1, h2, h3]

/-- The part at an index is the one the key selects. -/
theorem atKey_kid {E : Env} {x : Obj} {k : Key} (hk : k.sort ≠ 3) :
    x.atKey E k = (keyIdx E x k).bind fun i => x.kids[i]? := by
  rw [← atKeyMut_get]
  cases ha : x.atKeyMut E k with
  | none => rw [kid_none hk ha]; rfl
  | some a =>
    obtain ⟨i, h1, h2, h3⟩ := kid_some hk ha
    simp [h1, h2]

theorem keyIdx_kid {E : Env} {x : Obj} {k : Key} {i : Nat} (hk : k.sort ≠ 3) (h : keyIdx E x k = some i) :
    ∃ y, x.kids[i]? = some y ∧ x.atKey E k = some y := by
  cases ha : x.atKeyMut E k with
  | none => rw [kid_none hk ha] at h; cases h
  | some a =>
    obtain ⟨j, h1, h2, _⟩ := kid_some hk ha
    rw [h] at h1
    cases h1
    refine ⟨_, h2, ?_⟩
    rw [← atKeyMut_get, ha]; rfl

/-! ## Types -/

theorem upd_typed {E : Env} (hO : OrdLaws E) {x : Obj} {p : KeyPath} {f : Obj → Obj} (hf : Keeps E f) {T : Ty}
    (hx : HasTy E T x) : HasTy E T (upd E x p f) := by
  unfold upd
  cases h : atMutPath E x p with
  | none => exact hx
  | some pl => exact atMutPath_typed hO h (fun S hS => hf S _ hS) T hx

theorem upd_ok {E : Env} (hO : OrdLaws E) {x : Obj} {p : KeyPath} {f : Obj → Obj} (hf : Keeps E f)
    (hx : x.OK E) : (upd E x p f).OK E := by
  obtain ⟨T, hT⟩ := hx
  exact ⟨T, upd_typed hO hf hT⟩

theorem upd_fits {E : Env} (hO : OrdLaws E) {x y : Obj} {k : Key} {i : Nat} {p : KeyPath} {f : Obj → Obj}
    (hf : Keeps E f) (hx : x.OK E) (hk : x.atKey E k = some y) (hy : x.kids[i]? = some y) :
    x.Fits (x.kids.set i (upd E y p f)) := by
  have h1 := OK_atKey hx hk
  exact fits_set hy (by rw [h1.not_hidden, (upd_ok hO hf h1).not_hidden])

/-- A path with a step in it leaves the object itself as it is. -/
theorem upd_shape {E : Env} (hO : OrdLaws E) {p : KeyPath} {f : Obj → Obj} (hf : Keeps E f)
    (hp : ∃ k ∈ p, k.sort ≠ 3) : ∀ {x : Obj}, x.OK E →
    upd E x p f = x ∨ ∃ cs, x.Fits cs ∧ upd E x p f = x.withKids cs := by
  induction p with
  | nil => simp at hp
  | cons k p ih =>
    intro x hx
    by_cases hk : k.sort = 3
    · cases k <;> simp [Key.sort] at hk
      rw [upd_variant]
      split
      · obtain ⟨k, hk, hs⟩ := hp
        rcases List.mem_cons.mp hk with rfl | hk
        · exact absurd rfl hs
        · exact ih ⟨k, hk, hs⟩ hx
      · exact .inl rfl
    · rw [upd_step E x hk]
      cases hi : keyIdx E x k with
      | none => exact .inl rfl
      | some i =>
        obtain ⟨y, hy, hy'⟩ := keyIdx_kid hk hi
        simp only [hy]
        exact .inr ⟨_, upd_fits hO hf hx hy' hy, rfl⟩

theorem upd_variantName {E : Env} (hO : OrdLaws E) {p : KeyPath} {f : Obj → Obj} (hf : Keeps E f)
    (hp : ∃ k ∈ p, k.sort ≠ 3) {x : Obj} (hx : x.OK E) : (upd E x p f).variantName = x.variantName := by
  rcases upd_shape hO hf hp hx with h | ⟨cs, _, h⟩
  · rw [h]
  · rw [h, (withKids_kind x cs).2]

/-! ## Keys -/

theorem nameIdx_at {n : String} {l : List (String × Bool)} {i : Nat} (h : nameIdx n l = some i) :
    ∃ b, l[i]? = some (n, b) := by
  induction l generalizing i with
  | nil => cases h
  | cons p r ih =>
    obtain ⟨m, b⟩ := p
    simp only [nameIdx] at h
    split at h
    · next hc => cases h; exact ⟨b, by simp [hc.1]⟩
    · obtain ⟨j, hj, rfl⟩ := Option.map_eq_some_iff.mp h
      obtain ⟨b, hb⟩ := ih hj
      exact ⟨b, by simpa using hb⟩

theorem cmpIdx_at {cmp : Obj → Obj → Ordering} {a : Obj} {l : List Obj} {i : Nat}
    (h : cmpIdx cmp a l = some i) : ∃ b, l[i]? = some b ∧ cmp a b = .eq := by
  induction l generalizing i with
  | nil => cases h
  | cons p r ih =>
    simp only [cmpIdx] at h
    split at h
    · next hc => cases h; exact ⟨p, by simp, hc⟩
    · obtain ⟨j, hj, rfl⟩ := Option.map_eq_some_iff.mp h
      obtain ⟨b, hb, he⟩ := ih hj
      exact ⟨b, by simpa using hb, he⟩

theorem cmpIdx_congr {cmp : Obj → Obj → Ordering} {a b : Obj} {l : List Obj}
    (h : ∀ c ∈ l, cmp a c = cmp b c) : cmpIdx cmp a l = cmpIdx cmp b l := by
  induction l with
  | nil => rfl
  | cons p r ih =>
    simp only [cmpIdx]
    rw [h p (by simp), ih fun c hc => h c (by simp [hc])]

/-- The keys of a proper map are proper. -/
theorem OK_map_keys {E : Env} (hO : OrdLaws E) {kt vt : Ty} {kvs : List (Obj × Obj)}
    (h : (Obj.map kt vt kvs).OK E) : ∀ p ∈ kvs, HasTy E kt p.1 := by
  obtain ⟨T, hT⟩ := h
  obtain ⟨u, hu, hT⟩ := hT.typeOf hO
  cases hu
  cases hT with
  | map _ _ _ _ h2 _ => exact h2

theorem apart_idx {E : Env} (hO : OrdLaws E) {x : Obj} {k k' : Key} (hx : x.OK E) (hk : KeyPath.WF [k])
    (hk' : KeyPath.WF [k']) (h : Apart E x k k') {i j : Nat} (hi : keyIdx E x k = some i)
    (hj : keyIdx E x k' = some j) : i ≠ j := by
  intro hij
  subst hij
  cases h with
  | named o n m hne =>
    cases x <;> simp only [keyIdx, reduceCtorEq] at hi hj
    all_goals
      obtain ⟨b, hb⟩ := nameIdx_at hi
      obtain ⟨b', hb'⟩ := nameIdx_at hj
      rw [hb] at hb'
      cases hb'
      exact hne rfl
  | numbered o n m hne =>
    cases x <;> simp only [keyIdx, reduceCtorEq] at hi hj
    all_goals
      split at hi <;> cases hi
      split at hj <;> cases hj
      exact hne rfl
  | index o v w ho hne =>
    cases x <;> simp only [keyIdx, reduceCtorEq] at hi hj
    case map => simp [Obj.kind] at ho
    all_goals
      obtain ⟨a, ha, hi⟩ := Option.bind_eq_some_iff.mp hi
      obtain ⟨b, hb, hj⟩ := Option.bind_eq_some_iff.mp hj
      split at hi <;> cases hi
      split at hj <;> cases hj
      exact hne (ha.trans hb.symm)
  | entry kt vt kvs v w hne =>
    simp only [keyIdx] at hi hj
    obtain ⟨a, ha, hi⟩ := Option.bind_eq_some_iff.mp hi
    obtain ⟨b, hb, hj⟩ := Option.bind_eq_some_iff.mp hj
    obtain ⟨c, hc, hac⟩ := cmpIdx_at hi
    obtain ⟨c', hc', hbc⟩ := cmpIdx_at hj
    rw [hc] at hc'
    cases hc'
    have ta := fromReflect_sound hO kt _ (hk v (by simp)).ok ha
    have tb := fromReflect_sound hO kt _ (hk' w (by simp)).ok hb
    have tc : HasTy E kt c := by
      obtain ⟨p, hp, rfl⟩ := List.mem_map.mp (List.mem_of_getElem? hc)
      exact OK_map_keys hO hx p hp
    have hcmp := hO.cmpOn kt
    have h1 := hO.eq_trans kt _ _ _ ta tc tb hac
    have h2 : E.kcmp kt c b = .eq := hcmp.eq_symm tb tc hbc
    exact hne a b ha hb (h1.trans h2)
  | sort o _ _ h1 h2 h3 =>
    cases x <;> cases k <;> cases k' <;> simp [Key.sort, keyIdx] at h1 h2 h3 hi hj

theorem same_idx {E : Env} (hO : OrdLaws E) {x : Obj} {k k' : Key} (hx : x.OK E) (hk : KeyPath.WF [k])
    (hk' : KeyPath.WF [k']) (h : Same E x k k') : keyIdx E x k = keyIdx E x k' := by
  cases h with
  | refl => rfl
  | index o v w ho he =>
    cases x <;> simp [Obj.kind] at ho <;> simp only [keyIdx, he]
  | entry kt vt kvs v w a b ha hb he =>
    simp only [keyIdx, ha, hb, Option.bind_some]
    have ta := fromReflect_sound hO kt _ (hk v (by simp)).ok ha
    have tb := fromReflect_sound hO kt _ (hk' w (by simp)).ok hb
    refine cmpIdx_congr fun c hc => ?_
    obtain ⟨p, hp, rfl⟩ := List.mem_map.mp hc
    exact hO.eq_trans kt _ _ _ ta tb (OK_map_keys hO hx p hp) he

theorem Apart.withKids {E : Env} {x : Obj} {k k' : Key} (h : Apart E x k k') (cs : List Obj) :
    Apart E (x.withKids cs) k k' := by
  cases h with
  | named _ _ _ h => exact .named _ _ _ h
  | numbered _ _ _ h => exact .numbered _ _ _ h
  | index _ _ _ ho h => exact .index _ _ _ (by rwa [(withKids_kind x cs).1]) h
  | entry _ _ _ _ _ h => exact .entry _ _ _ _ _ h
  | sort _ _ _ h1 h2 h3 => exact .sort _ _ _ h1 h2 h3

theorem Same.withKids {E : Env} {x : Obj} {k k' : Key} (h : Same E x k k') (cs : List Obj) :
    Same E (x.withKids cs) k k' := by
  cases h with
  | refl _ _ h => exact .refl _ _ h
  | index _ _ _ ho h => exact .index _ _ _ (by rwa [(withKids_kind x cs).1]) h
  | entry _ _ _ _ _ a b h1 h2 h3 => exact .entry _ _ _ _ _ a b h1 h2 h3

/-! ## Divergence -/

theorem Apart.symm {E : Env} (hO : OrdLaws E) {x : Obj} {k k' : Key} (hk : KeyPath.WF [k])
    (hk' : KeyPath.WF [k']) (h : Apart E x k k') : Apart E x k' k := by
  cases h with
  | named _ _ _ h => exact .named _ _ _ (Ne.symm h)
  | numbered _ _ _ h => exact .numbered _ _ _ (Ne.symm h)
  | index _ _ _ ho h => exact .index _ _ _ ho (Ne.symm h)
  | entry kt _ _ v w h =>
    refine .entry _ _ _ _ _ fun a b ha hb he => h b a hb ha ?_
    have tb := fromReflect_sound hO kt _ (hk v (by simp)).ok hb
    have ta := fromReflect_sound hO kt _ (hk' w (by simp)).ok ha
    exact (hO.cmpOn kt).eq_symm ta tb he
  | sort _ _ _ h1 h2 h3 => exact .sort _ _ _ (Ne.symm h1) h3 h2

theorem Same.symm {E : Env} (hO : OrdLaws E) {x : Obj} {k k' : Key} (hk : KeyPath.WF [k])
    (hk' : KeyPath.WF [k']) (h : Same E x k k') : Same E x k' k := by
  cases h with
  | refl _ _ h => exact .refl _ _ h
  | index _ _ _ ho h => exact .index _ _ _ ho h.symm
  | entry kt _ _ v w a b ha hb h =>
    have ta := fromReflect_sound hO kt _ (hk v (by simp)).ok ha
    have tb := fromReflect_sound hO kt _ (hk' w (by simp)).ok hb
    exact .entry _ _ _ _ _ b a hb ha ((hO.cmpOn kt).eq_symm ta tb h)

theorem Diverge.symm {E : Env} (hO : OrdLaws E) {x : Obj} {p q : KeyPath} (h : Diverge E x p q) :
    x.OK E → KeyPath.WF p → KeyPath.WF q → Diverge E x q p := by
  induction h with
  | here o k k' p q h => intro _ hp hq; exact .here _ _ _ _ _ (h.symm hO hp.head hq.head)
  | deeper o k k' y p q h hy _ ih =>
    intro ho hp hq
    have : o.atKey E k' = some y := by
      rw [atKey_kid h.steps.2, ← same_idx hO ho hp.head hq.head h, ← atKey_kid h.steps.1, hy]
    exact .deeper _ _ _ _ _ _ (h.symm hO hp.head hq.head) this (ih (OK_atKey ho hy) hp.tail hq.tail)
  | left o v p q _ ih => intro ho hp hq; exact .right _ _ _ _ (ih ho hp.tail hq)
  | right o v p q _ ih => intro ho hp hq; exact .left _ _ _ _ (ih ho hp hq.tail)

theorem Diverge.append {E : Env} {x : Obj} {p q : KeyPath} (h : Diverge E x p q) (r s : KeyPath) :
    Diverge E x (p ++ r) (q ++ s) := by
  induction h with
  | here o k k' p q h => exact .here _ _ _ _ _ h
  | deeper o k k' y p q h hy _ ih => exact .deeper _ _ _ _ _ _ h hy ih
  | left o v p q _ ih => exact .left _ _ _ _ ih
  | right o v p q _ ih => exact .right _ _ _ _ ih

theorem Diverge.strip_left {E : Env} {x : Obj} {v : String} {p q : KeyPath}
    (h : Diverge E x (.variant v :: p) q) : Diverge E x p q := by
  generalize hr : (Key.variant v :: p : KeyPath) = r at h
  induction h with
  | here o k k' p' q h => cases hr; exact absurd rfl h.steps.1
  | deeper o k k' y p' q h hy _ ih => cases hr; exact absurd rfl h.steps.1
  | left o w p' q h ih => cases hr; exact h
  | right o w p' q _ ih => exact .right _ _ _ _ (ih hr)

theorem Diverge.strip_right {E : Env} {x : Obj} {v : String} {p q : KeyPath}
    (h : Diverge E x p (.variant v :: q)) : Diverge E x p q := by
  generalize hr : (Key.variant v :: q : KeyPath) = r at h
  induction h with
  | here o k k' p' q h => cases hr; exact absurd rfl h.steps.2
  | deeper o k k' y p' q h hy _ ih => cases hr; exact absurd rfl h.steps.2
  | right o w p' q h ih => cases hr; exact h
  | left o w p' q _ ih => exact .left _ _ _ _ (ih hr)

theorem KeyPath.WF.append {p q : KeyPath} (hp : KeyPath.WF p) (hq : KeyPath.WF q) : KeyPath.WF (p ++ q) := by
  intro v hv
  rcases List.mem_append.mp hv with h | h
  · exact hp v h
  · exact hq v h

theorem KeyPath.WF.of_append {p q : KeyPath} (h : KeyPath.WF (p ++ q)) : KeyPath.WF p ∧ KeyPath.WF q :=
  ⟨fun v hv => h v (List.mem_append.mpr (.inl hv)), fun v hv => h v (List.mem_append.mpr (.inr hv))⟩

/-- Paths that diverge go on to diverge after a change below one of them. -/
theorem Diverge.after_own {E : Env} (hO : OrdLaws E) {f : Obj → Obj} (hf : Keeps E f) (r : KeyPath)
    {x : Obj} {p q : KeyPath} (h : Diverge E x p q) :
    x.OK E → KeyPath.WF p → KeyPath.WF q → Diverge E (upd E x (p ++ r) f) p q := by
  induction h with
  | here o k k' p q h =>
    intro ho hp hq
    rcases upd_shape hO hf (p := (k :: p) ++ r) ⟨k, by simp, h.steps.1⟩ ho with e | ⟨cs, _, e⟩
    · rw [e]; exact .here _ _ _ _ _ h
    · rw [e]; exact .here _ _ _ _ _ (h.withKids cs)
  | deeper o k k' y p q h hy _ ih =>
    intro ho hp hq
    have hk := h.steps.1
    rw [List.cons_append, upd_step E o hk]
    cases hi : keyIdx E o k with
    | none => rw [atKey_kid hk, hi] at hy; cases hy
    | some i =>
      obtain ⟨y', h1, h2⟩ := keyIdx_kid hk hi
      rw [hy] at h2
      cases h2
      simp only [h1]
      have hfit := upd_fits hO (p := p ++ r) hf ho hy h1
      refine .deeper _ _ _ _ _ _ (h.withKids _) ?_ (ih (OK_atKey ho hy) hp.tail hq.tail)
      rw [atKey_kid hk, keyIdx_withKids hfit, hi, kids_withKids hfit]
      have := (List.getElem?_eq_some_iff.mp h1).1
      simp [this]
  | left o v p q hd ih =>
    intro ho hp hq
    rw [List.cons_append, upd_variant]
    split
    · exact .left _ _ _ _ (ih ho hp.tail hq)
    · exact .left _ _ _ _ hd
  | right o v p q _ ih => intro ho hp hq; exact .right _ _ _ _ (ih ho hp hq.tail)

/-- Paths that diverge go on to diverge after a change elsewhere. -/
theorem Diverge.after_other {E : Env} (hO : OrdLaws E) {f : Obj → Obj} (hf : Keeps E f)
    {x : Obj} {p q : KeyPath} (h : Diverge E x p q) :
    x.OK E → KeyPath.WF p → KeyPath.WF q → ∀ a : KeyPath, KeyPath.WF a → Diverge E x a p →
    Diverge E x a q → Diverge E (upd E x a f) p q := by
  induction h with
  | here o k k' p q h =>
    intro ho hp hq a ha h1 h2
    rcases upd_shape hO hf h1.step ho with e | ⟨cs, _, e⟩
    · rw [e]; exact .here _ _ _ _ _ h
    · rw [e]; exact .here _ _ _ _ _ (h.withKids cs)
  | left o v p q _ ih =>
    intro ho hp hq a ha h1 h2
    exact .left _ _ _ _ (ih ho hp.tail hq a ha h1.strip_right h2)
  | right o v p q _ ih =>
    intro ho hp hq a ha h1 h2
    exact .right _ _ _ _ (ih ho hp hq.tail a ha h1 h2.strip_right)
  | deeper o k k' y p q h hy hd ih =>
    intro ho hp hq a ha h1 h2
    induction a with
    | nil => obtain ⟨k, hk, _⟩ := h1.step; simp at hk
    | cons c a iha =>
      by_cases hc : c.sort = 3
      · cases c <;> simp [Key.sort] at hc
        rw [upd_variant]
        split
        · exact iha ha.tail h1.strip_left h2.strip_left
        · exact .deeper _ _ _ _ _ _ h hy hd
      · rw [upd_step E o hc]
        cases hj : keyIdx E o c with
        | none => exact .deeper _ _ _ _ _ _ h hy hd
        | some j =>
          obtain ⟨w, hw1, hw2⟩ := keyIdx_kid hc hj
          simp only [hw1]
          have hfit := upd_fits hO (p := a) hf ho hw2 hw1
          have hk := h.steps.1
          cases hi : keyIdx E o k with
          | none => rw [atKey_kid hk, hi] at hy; cases hy
          | some i =>
            have hi' : keyIdx E o k' = some i := by rw [← same_idx hO ho hp.head hq.head h, hi]
            obtain ⟨y', hy1, hy2⟩ := keyIdx_kid hk hi
            rw [hy] at hy2
            cases hy2
            by_cases hij : i = j
            · subst hij
              rw [hw1] at hy1
              cases hy1
              -- below the same part
              have inner : ∀ {k₀ : Key} {p₀ : KeyPath}, k₀.sort ≠ 3 → KeyPath.WF (k₀ :: p₀) →
                  keyIdx E o k₀ = some i → Diverge E o (c :: a) (k₀ :: p₀) → Diverge E y a p₀ := by
                intro k₀ p₀ hs hwf he hdv
                cases hdv with
                | here _ _ _ _ _ hap => exact absurd rfl (apart_idx hO ho ha.head hwf.head hap hj he)
                | deeper _ _ _ z _ _ _ hz hdv =>
                  rw [hw2] at hz
                  cases hz
                  exact hdv
                | left _ _ _ _ _ => exact absurd rfl hc
                | right _ _ _ _ _ => exact absurd rfl hs
              refine .deeper _ _ _ _ _ _ (h.withKids _) ?_ (ih (OK_atKey ho hy) hp.tail hq.tail a ha.tail
                (inner hk hp hi h1) (inner h.steps.2 hq hi' h2))
              rw [atKey_kid hk, keyIdx_withKids hfit, hi, kids_withKids hfit]
              have := (List.getElem?_eq_some_iff.mp hw1).1
              simp [this]
            · refine .deeper _ _ _ y _ _ (h.withKids _) ?_ hd
              rw [atKey_kid hk, keyIdx_withKids hfit, hi, kids_withKids hfit]
              simp [Ne.symm hij, hy1]

/-- A change elsewhere leaves a part as it is. -/
theorem upd_frame {E : Env} (hO : OrdLaws E) {f : Obj → Obj} (hf : Keeps E f) {x : Obj} {p q : KeyPath}
    (h : Diverge E x p q) (hx : x.OK E) (hp : KeyPath.WF p) (hq : KeyPath.WF q) :
    atPath E (upd E x p f) q = atPath E x q := by
  unfold upd
  cases hpl : atMutPath E x p with
  | none => rfl
  | some pl =>
    have hg : pl.get.OK E := by
      have e := atMutPath_get E x p
      rw [hpl] at e
      have : ∀ {p : KeyPath} {x y : Obj}, x.OK E → atPath E x p = some y → y.OK E := by
        intro p
        induction p with
        | nil => intro x y hx h; cases h; exact hx
        | cons k p ih =>
          intro x y hx h
          rw [atPath_cons] at h
          obtain ⟨z, hz, h⟩ := Option.bind_eq_some_iff.mp h
          exact ih (OK_atKey hx hz) h
      exact this hx e.symm
    obtain ⟨S, hS⟩ := hg
    exact frame hO (Obj.OK.not_hidden ⟨S, hf S _ hS⟩) h hp hq hx hpl

/-- Changes at diverging paths can be made in either order. -/
theorem upd_comm {E : Env} (hO : OrdLaws E) {f g : Obj → Obj} (hf : Keeps E f) (hg : Keeps E g)
    {x : Obj} {p q : KeyPath} (h : Diverge E x p q) : x.OK E → KeyPath.WF p → KeyPath.WF q →
    upd E (upd E x p f) q g = upd E (upd E x q g) p f := by
  induction h with
  | here o k k' p q h =>
    intro ho hp hq
    have hk := h.steps.1
    have hk' := h.steps.2
    rw [upd_step E o hk, upd_step E o hk']
    cases hi : keyIdx E o k with
    | none =>
      cases hj : keyIdx E o k' with
      | none => simp only [upd_step E o hk, upd_step E o hk', hi, hj]
      | some j =>
        obtain ⟨w, hw1, hw2⟩ := keyIdx_kid hk' hj
        simp only [hw1]
        rw [upd_step _ _ hk, keyIdx_withKids (upd_fits hO hg ho hw2 hw1), hi, upd_step _ _ hk', hj]
        simp only [hw1]
    | some i =>
      obtain ⟨y, hy1, hy2⟩ := keyIdx_kid hk hi
      have f1 := upd_fits hO (p := p) hf ho hy2 hy1
      cases hj : keyIdx E o k' with
      | none =>
        simp only [hy1]
        rw [upd_step _ _ hk', keyIdx_withKids f1, hj, upd_step _ _ hk, hi]
        simp only [hy1]
      | some j =>
        obtain ⟨w, hw1, hw2⟩ := keyIdx_kid hk' hj
        have f2 := upd_fits hO (p := q) hg ho hw2 hw1
        have hne := apart_idx hO ho hp.head hq.head h hi hj
        simp only [hy1, hw1]
        rw [upd_step _ _ hk', keyIdx_withKids f1, hj, upd_step _ _ hk, keyIdx_withKids f2, hi]
        simp only [kids_withKids f1, kids_withKids f2, List.getElem?_set_ne hne,
          List.getElem?_set_ne (Ne.symm hne), hy1, hw1, withKids_withKids f1, withKids_withKids f2]
        rw [List.set_comm _ _ hne]
  | deeper o k k' y p q h hy hd ih =>
    intro ho hp hq
    have hk := h.steps.1
    have hk' := h.steps.2
    have hkk := same_idx hO ho hp.head hq.head h
    cases hi : keyIdx E o k with
    | none => rw [atKey_kid hk, hi] at hy; cases hy
    | some i =>
      obtain ⟨y', hy1, hy2⟩ := keyIdx_kid hk hi
      rw [hy] at hy2
      cases hy2
      have hi' : keyIdx E o k' = some i := hkk ▸ hi
      have f1 := upd_fits hO (p := p) hf ho hy hy1
      have f2 := upd_fits hO (p := q) hg ho hy hy1
      have hl := (List.getElem?_eq_some_iff.mp hy1).1
      rw [upd_step E o hk, upd_step E o hk', hi, hi']
      simp only [hy1]
      rw [upd_step _ _ hk', keyIdx_withKids f1, hi', upd_step _ _ hk, keyIdx_withKids f2, hi]
      simp only [kids_withKids f1, kids_withKids f2, withKids_withKids f1, withKids_withKids f2,
        List.getElem?_set_self hl, List.set_set]
      rw [ih (OK_atKey ho hy) hp.tail hq.tail]
  | left o v p q hd ih =>
    intro ho hp hq
    have hs := (hd.symm hO ho hp.tail hq).step
    rw [upd_variant, upd_variant, upd_variantName hO hg hs ho]
    split
    · exact ih ho hp.tail hq
    · rfl
  | right o v p q hd ih =>
    intro ho hp hq
    have hs := hd.step
    rw [upd_variant, upd_variant, upd_variantName hO hf hs ho]
    split
    · exact ih ho hp hq.tail
    · rfl

/-- Two changes at one place. -/
theorem upd_upd {E : Env} (hO : OrdLaws E) {f g : Obj → Obj} (hf : Keeps E f) {p : KeyPath}
    (hv : ∀ v, p.getLast? ≠ some (.variant v)) : ∀ {x : Obj}, x.OK E →
    upd E (upd E x p f) p g = upd E x p (fun y => g (f y)) := by
  induction p with
  | nil => intro x _; rfl
  | cons k p ih =>
    intro x hx
    have hv' : ∀ v, p.getLast? ≠ some (.variant v) := by
      intro v hl
      exact hv v (by rw [List.getLast?_cons, hl]; rfl)
    by_cases hk : k.sort = 3
    · cases k <;> simp [Key.sort] at hk
      next v =>
      have hs : ∃ k ∈ p, k.sort ≠ 3 := by
        cases hp : p.getLast? with
        | none =>
          rw [List.getLast?_eq_none_iff] at hp
          subst hp
          exact absurd rfl (hv v)
        | some k =>
          refine ⟨k, List.mem_of_getLast? hp, ?_⟩
          intro h3
          cases k <;> simp [Key.sort] at h3
          exact hv' _ hp
      rw [upd_variant, upd_variant, upd_variant]
      split
      · next hvn =>
        rw [upd_variantName hO hf hs hx, if_pos hvn]
        exact ih hv' hx
      · rfl
    · rw [upd_step E x hk, upd_step E x hk]
      cases hi : keyIdx E x k with
      | none => rw [upd_step E x hk, hi]
      | some i =>
        obtain ⟨y, hy1, hy2⟩ := keyIdx_kid hk hi
        have f1 := upd_fits hO (p := p) hf hx hy2 hy1
        have hl := (List.getElem?_eq_some_iff.mp hy1).1
        simp only [hy1]
        rw [upd_step _ _ hk, keyIdx_withKids f1, hi]
        simp only [kids_withKids f1, withKids_withKids f1, List.getElem?_set_self hl, List.set_set]
        rw [ih hv' (OK_atKey hx hy2)]

/-- The changed part is found where it was. -/
theorem upd_read {E : Env} (hO : OrdLaws E) {f : Obj → Obj} (hf : Keeps E f) {p : KeyPath}
    (hv : ∀ v, p.getLast? ≠ some (.variant v)) : ∀ {x y : Obj}, x.OK E → atPath E x p = some y →
    atPath E (upd E x p f) p = some (f y) := by
  induction p with
  | nil => intro x y _ h; cases h; rfl
  | cons k p ih =>
    intro x y hx h
    have hv' : ∀ v, p.getLast? ≠ some (.variant v) := by
      intro v hl
      exact hv v (by rw [List.getLast?_cons, hl]; rfl)
    by_cases hk : k.sort = 3
    · cases k <;> simp [Key.sort] at hk
      next v =>
      have hs : ∃ k ∈ p, k.sort ≠ 3 := by
        cases hp : p.getLast? with
        | none =>
          rw [List.getLast?_eq_none_iff] at hp
          subst hp
          exact absurd rfl (hv v)
        | some k =>
          refine ⟨k, List.mem_of_getLast? hp, ?_⟩
          intro h3
          cases k <;> simp [Key.sort] at h3
          exact hv' _ hp
      rw [atPath_cons, atKey_variant] at h
      split at h
      · next hvn =>
        rw [upd_variant, if_pos hvn, atPath_cons, atKey_variant, upd_variantName hO hf hs hx, if_pos hvn]
        exact ih hv' hx h
      · cases h
    · rw [atPath_cons] at h
      obtain ⟨z, hz, h⟩ := Option.bind_eq_some_iff.mp h
      have hz' := hz
      rw [atKey_kid hk] at hz'
      obtain ⟨i, hi, hz'⟩ := Option.bind_eq_some_iff.mp hz'
      have f1 := upd_fits hO (p := p) hf hx hz hz'
      have hl := (List.getElem?_eq_some_iff.mp hz').1
      rw [upd_step E x hk, hi]
      simp only [hz']
      rw [atPath_cons, atKey_kid hk, keyIdx_withKids f1, hi]
      simp only [Option.bind_some, kids_withKids f1, List.getElem?_set_self hl]
      exact ih hv' (OK_atKey hx hz) h

theorem upd_append (E : Env) (x : Obj) (p r : KeyPath) (f : Obj → Obj) :
    upd E x (p ++ r) f = upd E x p fun y => upd E y r f := by
  induction p generalizing x with
  | nil => rfl
  | cons k p ih =>
    rw [List.cons_append, upd_cons, upd_cons]
    cases x.atKeyMut E k with
    | none => rfl
    | some a => simp only [ih]

/-! ## Acts -/

theorem act_keeps {E : Env} (hO : OrdLaws E) {a : Act} (ha : a.Proper E) :
    Keeps E fun x => (a.run E x).2 := by
  intro S x hx
  obtain ⟨u, hu, hxu⟩ := hx.typeOf hO
  cases a with
  | patch v =>
    obtain ⟨t, hv⟩ := ha
    exact patch_hasTy hO v ⟨t, hv⟩ hx
  | assign y =>
    obtain ⟨t, hy⟩ := ha
    simp only [Act.run]
    split
    · next h =>
      obtain ⟨u', hu', hyu⟩ := hy.typeOf hO
      rw [hu, hu'] at h
      cases h
      exact hx.retype hO hu hyu
    · exact hx
  | list op =>
    simp only [Act.run]
    by_cases hv : ∃ t l, x = .vec t l
    · obtain ⟨t, l, rfl⟩ := hv
      cases hu
      refine hx.retype hO rfl ?_
      cases hxu with
      | vec _ _ hl =>
        rw [listOp_step]
        refine .vec _ _ ?_
        cases op with
        | push v =>
          obtain ⟨tv, hv⟩ := ha
          intro y hy
          rcases List.mem_append.mp hy with hy | hy
          · exact hl y hy
          · rw [Option.mem_toList] at hy
            exact fromReflect_sound hO t _ ⟨tv, hv⟩ hy
        | pop => intro y hy; exact hl y (List.dropLast_subset _ hy)
        | tryRemove i => intro y hy; exact hl y (List.eraseIdx_subset hy)
    · have : (op.run E x).2 = x := by
        cases x <;> first
          | exact absurd ⟨_, _, rfl⟩ hv
          | (cases op <;> simp [ListOp.run, Obj.listPush, Obj.listPop, Obj.listTryRemove])
      rwa [this]
  | map op =>
    simp only [Act.run]
    by_cases hv : ∃ kt vt l, x = .map kt vt l
    · obtain ⟨kt, vt, l, rfl⟩ := hv
      cases hu
      refine hx.retype hO rfl ?_
      exact (mapOp_step hO hxu ha ((represents_iff hO hxu).mpr fun _ _ => rfl)).2.1
    · have : (op.run E x).2 = x := by
        cases x <;> first
          | exact absurd ⟨_, _, _, rfl⟩ hv
          | (cases op <;> simp [MapOp.run, Obj.mapInsert, Obj.mapRemove])
      rwa [this]

theorem run_snd (E : Env) (x : Obj) (e : Edit) :
    (e.run E x).2 = upd E x e.path fun y => (e.act.run E y).2 := by
  unfold Edit.run upd
  cases atMutPath E x e.path <;> rfl

theorem run_fst (E : Env) (x : Obj) (e : Edit) :
    (e.run E x).1 = (atPath E x e.path).bind fun y => (e.act.run E y).1 := by
  have h := atMutPath_get E x e.path
  unfold Edit.run
  cases hp : atMutPath E x e.path with
  | none => rw [hp] at h; rw [← h]; rfl
  | some pl => rw [hp] at h; rw [← h]; rfl

theorem run_ok {E : Env} (hO : OrdLaws E) {x : Obj} {e : Edit} (he : e.Proper E) (hx : x.OK E) :
    ((e.run E x).2).OK E := by
  rw [run_snd]
  exact upd_ok hO (act_keeps hO he.2) hx

/-- An edit and a change elsewhere. -/
theorem run_upd {E : Env} (hO : OrdLaws E) {f : Obj → Obj} (hf : Keeps E f) {x : Obj} {a : KeyPath} {e : Edit}
    (he : e.Proper E) (ha : KeyPath.WF a) (hx : x.OK E) (hd : Diverge E x a e.path) :
    e.run E (upd E x a f) = ((e.run E x).1, upd E (e.run E x).2 a f) := by
  refine Prod.ext ?_ ?_
  · rw [run_fst, run_fst, upd_frame hO hf hd hx ha he.1]
  · simp only [run_snd]
    exact upd_comm hO hf (act_keeps hO he.2) hd hx ha he.1

/-- A history and a change elsewhere. -/
theorem runEdits_upd {E : Env} (hO : OrdLaws E) {f : Obj → Obj} (hf : Keeps E f) {a b : KeyPath}
    (ha : KeyPath.WF a) (hb : KeyPath.WF b) (r : KeyPath) (hr : KeyPath.WF r) {es : List Edit}
    (hes : ∀ e ∈ es, e.Proper E ∧ b <+: e.path) : ∀ {x : Obj}, x.OK E → Diverge E x a b →
    runEdits E (upd E x (a ++ r) f) es = ((runEdits E x es).1, upd E (runEdits E x es).2 (a ++ r) f) ∧
      Diverge E (runEdits E x es).2 a b := by
  induction es with
  | nil => intro x _ hd; exact ⟨rfl, hd⟩
  | cons e es ih =>
    intro x hx hd
    obtain ⟨he, ⟨s, hs⟩⟩ := hes e (by simp)
    have h1 := run_upd hO hf he (ha.append hr) hx (by rw [← hs]; exact hd.append r s)
    have hd' : Diverge E (e.run E x).2 a b := by
      rw [run_snd, ← hs]
      exact (((hd.symm hO hx ha hb).after_own hO (act_keeps hO he.2) s hx hb ha).symm hO
        (upd_ok hO (act_keeps hO he.2) hx) hb ha)
    have h2 := ih (fun e he => hes e (by simp [he])) (run_ok hO he hx) hd'
    simp only [runEdits]
    rw [h1]
    simp only
    rw [h2.1]
    exact ⟨rfl, h2.2⟩

theorem Separate.after {ι : Type} [DecidableEq ι] {E : Env} (hO : OrdLaws E) {x : Obj} {area : ι → KeyPath} {i : ι}
    {e : Edit} {s : List (ι × Edit)} (hx : x.OK E) (h : Separate E x area ((i, e) :: s)) :
    Separate E (e.run E x).2 area s where
  keys := h.keys
  stays p hp := h.stays p (by simp [hp])
  proper p hp := h.proper p (by simp [hp])
  apart j k hjk := by
    have he := h.proper (i, e) (by simp)
    obtain ⟨r, hr⟩ := h.stays (i, e) (by simp)
    have hf := act_keeps hO he.2
    have hp : KeyPath.WF (area i ++ r) := by rw [hr]; exact he.1
    simp only at hr
    rw [run_snd, ← hr]
    have hd := h.apart j k hjk
    by_cases hj : j = i
    · subst hj
      exact hd.after_own hO hf r hx (h.keys _) (h.keys _)
    · by_cases hk : k = i
      · subst hk
        exact ((hd.symm hO hx (h.keys _) (h.keys _)).after_own hO hf r hx (h.keys _) (h.keys _)).symm hO
          (upd_ok hO hf hx) (h.keys _) (h.keys _)
      · refine hd.after_other hO hf hx (h.keys _) (h.keys _) _ hp ?_ ?_
        · have := (h.apart i j (Ne.symm hj)).append r []
          rwa [List.append_nil] at this
        · have := (h.apart i k (Ne.symm hk)).append r []
          rwa [List.append_nil] at this

theorem mem_ownedBy {ι α : Type} [DecidableEq ι] {i : ι} {l : List (ι × α)} {a : α} :
    a ∈ ownedBy i l ↔ (i, a) ∈ l := by
  simp only [ownedBy, List.mem_map, List.mem_filter, decide_eq_true_eq]
  constructor
  · rintro ⟨⟨j, b⟩, ⟨h, rfl⟩, rfl⟩; exact h
  · intro h; exact ⟨_, ⟨h, rfl⟩, rfl⟩

theorem ownedBy_cons {ι α : Type} [DecidableEq ι] (i j : ι) (a : α) (l : List (ι × α)) :
    ownedBy i ((j, a) :: l) = if j = i then a :: ownedBy i l else ownedBy i l := by
  by_cases h : j = i <;> simp [ownedBy, h]

theorem ownedBy_append {ι α : Type} [DecidableEq ι] (i : ι) (l l' : List (ι × α)) :
    ownedBy i (l ++ l') = ownedBy i l ++ ownedBy i l' := by
  simp [ownedBy]

/-- A client notices nothing of the others. -/
theorem schedule_alone {ι : Type} [DecidableEq ι] {E : Env} (hO : OrdLaws E) {area : ι → KeyPath} (i : ι)
    {s : List (ι × Edit)} : ∀ {x : Obj}, x.OK E → Separate E x area s →
    ownedBy i (runSchedule E x s).1 = (runEdits E x (ownedBy i s)).1 ∧
    ∀ r, KeyPath.WF r → atPath E (runSchedule E x s).2 (area i ++ r) =
      atPath E (runEdits E x (ownedBy i s)).2 (area i ++ r) := by
  induction s with
  | nil => intro x _ _; exact ⟨rfl, fun _ _ => rfl⟩
  | cons q s ih =>
    intro x hx h
    obtain ⟨j, e⟩ := q
    have he := h.proper (j, e) (by simp)
    have ih' := ih (run_ok hO he hx) (h.after hO hx)
    simp only [runSchedule, ownedBy_cons]
    by_cases hji : j = i
    · subst hji
      simp only [if_true, runEdits]
      exact ⟨by rw [ih'.1], ih'.2⟩
    · simp only [if_neg hji]
      obtain ⟨r, hr⟩ := h.stays (j, e) (by simp)
      simp only at hr
      have hf := act_keeps hO he.2
      have hwf := he.1
      simp only at hwf
      rw [← hr] at hwf
      have key := runEdits_upd hO hf (h.keys j) (h.keys i) r hwf.of_append.2 (es := ownedBy i s)
        (fun e' he' => ⟨h.proper (i, e') (by simp [mem_ownedBy.mp he']),
          h.stays (i, e') (by simp [mem_ownedBy.mp he'])⟩) hx (h.apart j i hji)
      rw [run_snd, ← hr] at ih'
      rw [key.1] at ih'
      rw [run_snd, ← hr]
      refine ⟨ih'.1, fun r' hr' => (ih'.2 r' hr').trans ?_⟩
      have hok : ∀ {es : List Edit} {x : Obj}, x.OK E → (∀ e ∈ es, e.Proper E) →
          ((runEdits E x es).2).OK E := by
        intro es
        induction es with
        | nil => intro x hx _; exact hx
        | cons e es ih =>
          intro x hx hes
          exact ih (run_ok hO (hes e (by simp)) hx) fun e he => hes e (by simp [he])
      exact upd_frame hO hf (key.2.append r r')
        (hok hx fun e' he' => h.proper (i, e') (by simp [mem_ownedBy.mp he'])) hwf ((h.keys i).append hr')

/-- An edit can be moved before the edits of the others. -/
theorem schedule_move {ι : Type} [DecidableEq ι] {E : Env} (hO : OrdLaws E) {area : ι → KeyPath} {i : ι} {e : Edit}
    {t : List (ι × Edit)} {s : List (ι × Edit)} (hs : ∀ p ∈ s, p.1 ≠ i) : ∀ {x : Obj}, x.OK E →
    Separate E x area (s ++ (i, e) :: t) →
    (runSchedule E x (s ++ (i, e) :: t)).2 = (runSchedule E (e.run E x).2 (s ++ t)).2 ∧
      Separate E x area ((i, e) :: (s ++ t)) := by
  induction s with
  | nil => intro x _ h; exact ⟨rfl, h⟩
  | cons q s ih =>
    intro x hx h
    have hsep : Separate E x area ((i, e) :: (q :: s ++ t)) := {
      keys := h.keys
      apart := h.apart
      stays := fun p hp => h.stays p (by simp only [List.cons_append, List.mem_cons, List.mem_append] at hp ⊢; tauto)
      proper := fun p hp => h.proper p (by simp only [List.cons_append, List.mem_cons, List.mem_append] at hp ⊢; tauto) }
    refine ⟨?_, hsep⟩
    obtain ⟨j, e'⟩ := q
    have he' := h.proper (j, e') (by simp)
    have he := h.proper (i, e) (by simp)
    have ih' := (ih (fun p hp => hs p (by simp [hp])) (run_ok hO he' hx) (Separate.after hO hx h)).1
    simp only [List.cons_append, runSchedule]
    rw [ih']
    have hne : j ≠ i := hs (j, e') (by simp)
    obtain ⟨r, hr⟩ := h.stays (j, e') (by simp)
    obtain ⟨r', hr'⟩ := h.stays (i, e) (by simp)
    simp only at hr hr'
    have hd := (h.apart j i hne).append r r'
    rw [hr, hr'] at hd
    have := upd_comm hO (act_keeps hO he'.2) (act_keeps hO he.2) hd hx he'.1 he.1
    rw [run_snd, run_snd, run_snd E _ e', run_snd E x e, this]

theorem ownedBy_split {ι α : Type} [DecidableEq ι] {i : ι} {a : α} {r : List α} {l : List (ι × α)}
    (h : ownedBy i l = a :: r) : ∃ s t, l = s ++ (i, a) :: t ∧ ∀ p ∈ s, p.1 ≠ i := by
  induction l with
  | nil => cases h
  | cons q l ih =>
    obtain ⟨j, b⟩ := q
    rw [ownedBy_cons] at h
    by_cases hj : j = i
    · subst hj
      rw [if_pos rfl] at h
      cases h
      exact ⟨[], l, rfl, by simp⟩
    · rw [if_neg hj] at h
      obtain ⟨s, t, rfl, hs⟩ := ih h
      refine ⟨(j, b) :: s, t, rfl, ?_⟩
      intro p hp
      rcases List.mem_cons.mp hp with rfl | hp
      · exact hj
      · exact hs p hp

theorem schedule_same {ι : Type} [DecidableEq ι] {E : Env} (hO : OrdLaws E) {area : ι → KeyPath}
    {s : List (ι × Edit)} : ∀ {x : Obj} {s' : List (ι × Edit)}, x.OK E → Separate E x area s →
    Separate E x area s' → (∀ i, ownedBy i s = ownedBy i s') →
    (runSchedule E x s).2 = (runSchedule E x s').2 := by
  induction s with
  | nil =>
    intro x s' _ _ _ h
    cases s' with
    | nil => rfl
    | cons q s' =>
      have := h q.1
      rw [show q = (q.1, q.2) from rfl, ownedBy_cons, if_pos rfl] at this
      cases this
  | cons q s ih =>
    intro x s' hx h1 h2 h
    obtain ⟨i, e⟩ := q
    have hi := h i
    rw [ownedBy_cons, if_pos rfl] at hi
    obtain ⟨l, t, rfl, hl⟩ := ownedBy_split hi.symm
    obtain ⟨m1, m2⟩ := schedule_move hO hl hx h2
    rw [m1]
    simp only [runSchedule]
    refine ih (run_ok hO (h1.proper (i, e) (by simp)) hx) (h1.after hO hx) (m2.after hO hx) ?_
    intro j
    have hj := h j
    rw [ownedBy_cons, ownedBy_append, ownedBy_cons] at hj
    rw [ownedBy_append]
    by_cases hij : i = j
    · subst hij
      have hn : ownedBy i l = [] := by
        simp only [ownedBy, List.map_eq_nil_iff, List.filter_eq_nil_iff, decide_eq_true_eq]
        exact hl
      simp only [if_true, hn, List.nil_append, List.cons.injEq, true_and] at hj
      rw [hn, List.nil_append, hj]
    · simpa only [if_neg hij] using hj

/-- Edits below a path are edits of the part alone. -/
theorem runEdits_under {E : Env} (hO : OrdLaws E) {p : KeyPath} (hv : ∀ v, p.getLast? ≠ some (.variant v))
    {es : List Edit} (hes : ∀ e ∈ es, e.Proper E) : ∀ {x y : Obj}, x.OK E → atPath E x p = some y →
    (runEdits E x (es.map (Edit.under p))).1 = (runEdits E y es).1 ∧
    (runEdits E x (es.map (Edit.under p))).2 = upd E x p fun _ => (runEdits E y es).2 := by
  induction es with
  | nil =>
    intro x y hx hy
    refine ⟨rfl, ?_⟩
    simp only [List.map_nil, runEdits, upd]
    have h := atMutPath_get E x p
    rw [hy] at h
    cases hpl : atMutPath E x p with
    | none => rfl
    | some pl =>
      rw [hpl] at h
      cases h
      exact (put_self hpl).symm
  | cons e es ih =>
    intro x y hx hy
    have he := hes e (by simp)
    have hf := act_keeps hO he.2
    have hstep : ((Edit.under p e).run E x).2 = upd E x p fun y => (e.run E y).2 := by
      rw [run_snd]
      simp only [Edit.under, upd_append, run_snd]
    have hk : Keeps E fun y => (e.run E y).2 := by
      intro S z hz
      simp only [run_snd]
      exact upd_typed hO hf hz
    have hx' : (((Edit.under p e).run E x).2).OK E := by rw [hstep]; exact upd_ok hO hk hx
    have hy' : atPath E ((Edit.under p e).run E x).2 p = some (e.run E y).2 := by
      rw [hstep]
      exact upd_read hO hk hv hx hy
    obtain ⟨i1, i2⟩ := ih (fun e he => hes e (by simp [he])) hx' hy'
    simp only [List.map_cons, runEdits]
    refine ⟨?_, ?_⟩
    · rw [i1]
      congr 1
      rw [run_fst, run_fst]
      simp only [Edit.under, atPath_append, hy, Option.bind_some]
    · rw [i2, hstep]
      exact upd_upd hO hk hv hx

end Mirror
