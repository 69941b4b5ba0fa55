import Verif.Lemmas.Sound

set_option linter.unusedSimpArgs false

/-!
# Converting a value to its own type
-/

namespace Mirror

/-- Without skipped fields there is nothing to reset. -/
theorem HasTy.reset_eq {E : Env} (hN : NoSkips E) {t : Ty} {o : Obj} (h : HasTy E t o) :
    o.reset = o := by
  have named : ∀ {fds : List FieldDef} {fs : List (String × Obj)}, (∀ fd ∈ fds, fd.skip = false) →
      fs.map (·.1) = fds.map (·.name) →
      (∀ (i : Nat) fd p, fds[i]? = some fd → fs[i]? = some p → fd.skip = false → p.2.reset = p.2) →
      fs.map (fun p => (p.1, p.2.reset)) = fs := by
    intro fds fs hs h2 ih
    apply map_id_of_mem
    intro p hp
    obtain ⟨i, hi⟩ := List.getElem?_of_mem hp
    obtain ⟨fd, hfd, _⟩ := align_named h2 hi
    rw [ih i fd p hfd hi (hs fd (List.mem_of_getElem? hfd))]
  have pos : ∀ {fds : List FieldDef} {fs : List Obj}, (∀ fd ∈ fds, fd.skip = false) →
      fs.length = fds.length →
      (∀ (i : Nat) fd p, fds[i]? = some fd → fs[i]? = some p → fd.skip = false → p.reset = p) →
      fs.map (fun p => p.reset) = fs := by
    intro fds fs hs h2 ih
    apply map_id_of_mem
    intro p hp
    obtain ⟨i, hi⟩ := List.getElem?_of_mem hp
    obtain ⟨fd, hfd⟩ := align_pos h2 hi
    rw [ih i fd p hfd hi (hs fd (List.mem_of_getElem? hfd))]
  induction h with
  | scalar s => rw [Obj.reset]
  | nonzero k n h => rw [Obj.reset]
  | struct n fds c fs hd h2 h3 h4 ih => rw [Obj.reset, named (hN.1 n fds c hd) h2 ih]
  | enumS n vds c vn fds fs hd hv h2 h3 h4 ih =>
    rw [Obj.reset, named (hN.2.2 n vds c vn fds hd (.inl hv)) h2 ih]
  | tupleStruct n fds c fs hd h2 h3 h4 ih => rw [Obj.reset, pos (hN.2.1 n fds c hd) h2 ih]
  | enumT n vds c vn fds fs hd hv h2 h3 h4 ih =>
    rw [Obj.reset, pos (hN.2.2 n vds c vn fds hd (.inr hv)) h2 ih]
  | enumU n vds c vn hd hv => rw [Obj.reset]
  | tuple ts fs hl h ih =>
    rw [Obj.reset, map_id_of_mem]
    intro x hx
    obtain ⟨i, hi⟩ := List.getElem?_of_mem hx
    obtain ⟨t, ht⟩ := align_pos hl hi
    exact ih i t x ht hi
  | vec t xs h ih => rw [Obj.reset, map_id_of_mem ih]
  | array t xs h ih => rw [Obj.reset, map_id_of_mem ih]
  | map kt vt kvs hs hk hv ihk ihv =>
    rw [Obj.reset, map_id_of_mem]
    intro p hp
    rw [ihk p hp, ihv p hp]
  | box t o _ ih => exact ih
  | value v o h ho => subst ho; exact toObj_reset v
  | structValue ns fs o h ho => subst ho; exact toObj_reset _
  | tupleStructValue fs o h ho => subst ho; exact toObj_reset _
  | tupleValue fs o h ho => subst ho; exact toObj_reset _
  | enumValueS v ns fs o h ho => subst ho; exact toObj_reset _
  | enumValueT v fs o h ho => subst ho; exact toObj_reset _
  | enumValueU v o ho => subst ho; exact toObj_reset _

theorem optAll_exists {α β γ} {f : α → Option β} {l : List α} {g : β → γ} {k : α → γ}
    (h : ∀ x ∈ l, ∃ y, f x = some y ∧ g y = k x) :
    ∃ r, optAll (l.map f) = some r ∧ r.map g = l.map k := by
  induction l with
  | nil => exact ⟨[], rfl, rfl⟩
  | cons x l ih =>
    obtain ⟨y, hy, hg⟩ := h x (by simp)
    obtain ⟨r, hr, hg'⟩ := ih fun z hz => h z (by simp [hz])
    exact ⟨y :: r, by simp [optAll, hy, hr], by simp [hg, hg']⟩

/-- Element-wise existence for aligned lists. -/
theorem optAll_exists_idx {α β γ δ} {f : Nat → α → Option β} {l : List α} {fs : List δ} {g : β → γ}
    {k : δ → γ} (hl : fs.length = l.length)
    (h : ∀ (i : Nat) x p, l[i]? = some x → fs[i]? = some p → ∃ y, f i x = some y ∧ g y = k p) :
    ∃ r, optAll (l.mapIdx f) = some r ∧ r.map g = fs.map k := by
  induction l generalizing fs f with
  | nil =>
    have : fs = [] := by simpa using hl
    subst this
    exact ⟨[], rfl, rfl⟩
  | cons x l ih =>
    cases fs with
    | nil => simp at hl
    | cons p fs =>
      obtain ⟨y, hy, hg⟩ := h 0 x p (by simp) (by simp)
      obtain ⟨r, hr, hg'⟩ := ih (f := fun i => f (i + 1)) (fs := fs) (by simpa using hl)
        fun i x' p' hx hp => h (i + 1) x' p' (by simpa using hx) (by simpa using hp)
      exact ⟨y :: r, by simp [List.mapIdx_cons, optAll, hy, hr], by simp [hg, hg']⟩

/-- Converting a proper value to its own type succeeds when there is no fixed-size array inside, and
gives back the same value up to skipped fields. -/
theorem selfconv {E : Env} (hD : DeclsOK E) (hO : OrdLaws E) (hK : KeysShown E) {t : Ty} {o : Obj}
    (h : HasTy E t o) (ha : o.ArrayFree) :
    ∃ y, fromReflect E t o = some y ∧ y.reset = o.reset := by
  have conv : ∀ {c : Bool} {t : Ty} {x : Obj},
      (∃ y, fromReflect E t x = some y ∧ y.reset = x.reset) →
      ∃ y, convField E c t x = some y ∧ y.reset = x.reset := by
    intro c t x h
    simp only [convField]
    split
    · exact ⟨x, rfl, rfl⟩
    · exact h
  have named : ∀ {c : Bool} {fds : List FieldDef} {fs : List (String × Obj)} {src : Obj},
      (fds.map (·.name)).Nodup → fs.map (·.1) = fds.map (·.name) →
      (∀ (i : Nat) fd p, fds[i]? = some fd → fs[i]? = some p → fd.skip = true →
        p.2.isHidden = true) →
      (∀ (i : Nat) fd p, fds[i]? = some fd → fs[i]? = some p → fd.skip = false →
        HasTy E fd.ty p.2) →
      (∀ (i : Nat) fd p, fds[i]? = some fd → fs[i]? = some p → fd.skip = false →
        ∃ y, fromReflect E fd.ty p.2 = some y ∧ y.reset = p.2.reset) →
      (∀ n, src.field n = lookup n (visFields fs)) →
      ∃ r, optAll (fds.map (convNamed E c src)) = some r ∧
        r.map (fun p => (p.1, p.2.reset)) = fs.map (fun p => (p.1, p.2.reset)) := by
    intro c fds fs src hn h2 h3 h4 ih hsrc
    have hl : fs.length = fds.length := by simpa using congrArg List.length h2
    have := optAll_exists_idx (f := fun _ => convNamed E c src) (l := fds) (fs := fs)
      (g := fun p : String × Obj => (p.1, p.2.reset)) (k := fun p => (p.1, p.2.reset)) hl (by
        intro i fd p hfd hp
        obtain ⟨p', hp', he⟩ := align_named' h2 hfd
        rw [hp] at hp'; cases hp'
        simp only [convNamed]
        cases hs : fd.skip with
        | true =>
          have := h3 i fd p hfd hp hs
          obtain ⟨a, b⟩ := p
          cases b <;> simp [Obj.isHidden] at this
          exact ⟨(fd.name, .hidden 0), by simp, by simp [Obj.reset, he]⟩
        | false =>
          obtain ⟨y, hy, hr⟩ := conv (c := c) (ih i fd p hfd hp hs)
          have hlk := lookup_vis_of_idx (h2 ▸ hn) hp (h4 i fd p hfd hp hs).not_hidden
          exact ⟨(fd.name, y), by simp [hsrc, he, hlk, hy], by simp [he, hr]⟩)
    have he : fds.mapIdx (fun _ => convNamed E c src) = fds.map (convNamed E c src) := by
      apply List.ext_getElem?; intro i; simp
    rwa [he] at this
  have pos : ∀ {c : Bool} {fds : List FieldDef} {fs : List Obj} {src : Obj},
      fs.length = fds.length →
      (∀ (i : Nat) fd p, fds[i]? = some fd → fs[i]? = some p → fd.skip = true →
        p.isHidden = true) →
      (∀ (i : Nat) fd p, fds[i]? = some fd → fs[i]? = some p → fd.skip = false →
        HasTy E fd.ty p) →
      (∀ (i : Nat) fd p, fds[i]? = some fd → fs[i]? = some p → fd.skip = false →
        ∃ y, fromReflect E fd.ty p = some y ∧ y.reset = p.reset) →
      (∀ i, src.fieldAt i = visAt fs i) →
      ∃ r, optAll (fds.mapIdx (convPos E c src)) = some r ∧
        r.map (fun p => p.reset) = fs.map (fun p => p.reset) := by
    intro c fds fs src hl h3 h4 ih hsrc
    apply optAll_exists_idx hl
    intro i fd p hfd hp
    simp only [convPos]
    cases hs : fd.skip with
    | true =>
      have := h3 i fd p hfd hp hs
      cases p <;> simp [Obj.isHidden] at this
      exact ⟨.hidden 0, by simp, by simp [Obj.reset]⟩
    | false =>
      obtain ⟨y, hy, hr⟩ := conv (c := c) (ih i fd p hfd hp hs)
      exact ⟨y, by simp [hsrc, visAt, hp, (h4 i fd p hfd hp hs).not_hidden, hy], hr⟩
  induction h with
  | scalar s => exact ⟨.scalar s, by simp [fromReflect_scalar, Obj.isTy, Obj.typeOf], rfl⟩
  | nonzero k n h => exact ⟨.nonzero k n, by simp [fromReflect_nonzero, Obj.isTy, Obj.typeOf], rfl⟩
  | struct n fds c fs hd h2 h3 h4 ih =>
    cases ha with
    | struct _ _ ha =>
      obtain ⟨r, hr, he⟩ := named (c := c) (src := .struct (.derived n) fs)
        (hD.struct_names n fds c hd) h2 h3 h4
        (fun i fd p hfd hp hs => ih i fd p hfd hp hs (ha p (List.mem_of_getElem? hp)))
        (fun _ => rfl)
      exact ⟨.struct (.derived n) r, by rw [fromReflect_struct hd, hr]; simp [Obj.kind], by simp [Obj.reset, he]⟩
  | enumS n vds c vn fds fs hd hv h2 h3 h4 ih =>
    have hf : vds.find? (fun d => d.name = vn) = some _ :=
      find_variant (hD.variant_names n vds c hd) hv
    cases ha with
    | enumS _ _ _ ha =>
      obtain ⟨r, hr, he⟩ := named (c := c) (src := .enumS (.derived n) vn fs)
        (hD.variant_fields n vds c vn fds hd hv) h2 h3 h4
        (fun i fd p hfd hp hs => ih i fd p hfd hp hs (ha p (List.mem_of_getElem? hp)))
        (fun _ => rfl)
      refine ⟨.enumS (.derived n) vn r, ?_, by simp [Obj.reset, he]⟩
      rw [fromReflect_enum hd]
      simp only [Obj.variantName, Option.bind_some, hf, hr, Option.map_some]
  | tupleStruct n fds c fs hd h2 h3 h4 ih =>
    cases ha with
    | tupleStruct _ _ ha =>
      obtain ⟨r, hr, he⟩ := pos (c := c) (src := .tupleStruct (.derived n) fs) h2 h3 h4
        (fun i fd p hfd hp hs => ih i fd p hfd hp hs (ha p (List.mem_of_getElem? hp)))
        (fun _ => rfl)
      exact ⟨.tupleStruct (.derived n) r, by rw [fromReflect_tupleStruct hd, hr]; simp [Obj.kind], by simp [Obj.reset, he]⟩
  | enumT n vds c vn fds fs hd hv h2 h3 h4 ih =>
    have hf : vds.find? (fun d => d.name = vn) = some _ :=
      find_variant (hD.variant_names n vds c hd) hv
    cases ha with
    | enumT _ _ _ ha =>
      obtain ⟨r, hr, he⟩ := pos (c := c) (src := .enumT (.derived n) vn fs) h2 h3 h4
        (fun i fd p hfd hp hs => ih i fd p hfd hp hs (ha p (List.mem_of_getElem? hp)))
        (fun _ => rfl)
      refine ⟨.enumT (.derived n) vn r, ?_, by simp [Obj.reset, he]⟩
      rw [fromReflect_enum hd]
      simp only [Obj.variantName, Option.bind_some, hf, hr, Option.map_some]
  | enumU n vds c vn hd hv =>
    have hf : vds.find? (fun d => d.name = vn) = some _ :=
      find_variant (hD.variant_names n vds c hd) hv
    refine ⟨_, ?_, rfl⟩
    rw [fromReflect_enum hd]
    simp only [Obj.variantName, Option.bind_some, hf]
  | tuple ts fs hl h ih =>
    cases ha with
    | tuple _ _ ha =>
      obtain ⟨r, hr, he⟩ := optAll_exists_idx
        (f := fun i t => ((Obj.tuple (.typed ts) fs).fieldAt i).bind fun v => fromReflect E t v)
        (g := fun x : Obj => x.reset) (k := fun x : Obj => x.reset) hl (by
          intro i t x ht hx
          obtain ⟨y, hy, hr⟩ := ih i t x ht hx (ha x (List.mem_of_getElem? hx))
          exact ⟨y, by simp [Obj.fieldAt, visAt, hx, (h i t x ht hx).not_hidden, hy], hr⟩)
      exact ⟨.tuple (.typed ts) r, by rw [fromReflect_tuple, hr]; simp [Obj.kind], by simp [Obj.reset, he]⟩
  | vec t xs h ih =>
    cases ha with
    | vec _ _ ha =>
      obtain ⟨r, hr, he⟩ := optAll_exists (f := fun x => fromReflect E t x) (l := xs)
        (g := fun x : Obj => x.reset) (k := fun x : Obj => x.reset) fun x hx => ih x hx (ha x hx)
      exact ⟨.vec t r, by rw [fromReflect_vec, hr]; rfl, by simp [Obj.reset, he]⟩
  | array t xs h ih => cases ha
  | map kt vt kvs hs hk hv ihk ihv =>
    cases ha with
    | map _ _ _ ha1 ha2 =>
      obtain ⟨r, hr, he⟩ := optAll_exists
        (f := fun p : Obj × Obj => (fromReflect E kt p.1).bind fun k =>
          (fromReflect E vt p.2).map fun v => (k, v)) (l := kvs)
        (g := fun p : Obj × Obj => (p.1.reset, p.2.reset))
        (k := fun p : Obj × Obj => (p.1.reset, p.2.reset)) (by
          intro p hp
          obtain ⟨y, hy, e1⟩ := ihk p hp (ha1 p hp)
          obtain ⟨z, hz, e2⟩ := ihv p hp (ha2 p hp)
          exact ⟨(y, z), by simp [hy, hz], by simp [e1, e2]⟩)
      have hall : ∀ p ∈ r, HasTy E kt p.1 := by
        obtain ⟨hl, hi⟩ := optAll_map_inv hr
        intro p hp
        obtain ⟨i, hpi⟩ := List.getElem?_of_mem hp
        obtain ⟨x, hx⟩ := align_pos hl hpi
        have hm := List.mem_of_getElem? hx
        obtain ⟨k, hk', hh⟩ := Option.bind_eq_some_iff.mp (hi i x p hx hpi)
        obtain ⟨v, _, rfl⟩ := Option.map_eq_some_iff.mp hh
        exact fromReflect_sound hO kt x.1 ⟨_, hk x hm⟩ hk'
      have hsorted : BMSorted (E.kcmp kt) r := by
        have h1 := reset_sorted hO hK hs hk fun p hp => (hk p hp).reset hO hK
        rw [← he] at h1
        simp only [BMSorted, List.pairwise_map] at h1
        refine List.Pairwise.imp_of_mem ?_ h1
        intro p q hp hq hh
        rw [← kcmp_reset hO hK (hall p hp) (hall q hq) ((hall p hp).reset hO hK)
          ((hall q hq).reset hO hK)]
        exact hh
      refine ⟨.map kt vt r, ?_, by simp [Obj.reset, he]⟩
      rw [fromReflect_map, hr, Option.map_some, bmOfList_self (hO.cmpOn kt) hall hsorted]
  | box t o _ ih => rw [fromReflect_box]; exact ih ha
  | value v o h ho =>
    subst ho
    exact ⟨_, by rw [fromReflect_value, Value.toObj_toValue h], rfl⟩
  | structValue ns fs o h ho => subst ho; exact ⟨_, fromReflect_structValue h, rfl⟩
  | tupleStructValue fs o h ho => subst ho; exact ⟨_, fromReflect_tupleStructValue h, rfl⟩
  | tupleValue fs o h ho => subst ho; exact ⟨_, fromReflect_tupleValue h, rfl⟩
  | enumValueS v ns fs o h ho => subst ho; exact ⟨_, fromReflect_enumValueS h, rfl⟩
  | enumValueT v fs o h ho => subst ho; exact ⟨_, fromReflect_enumValueT h, rfl⟩
  | enumValueU v o ho => subst ho; exact ⟨_, fromReflect_enumValueU, rfl⟩

end Mirror
