import Verif.Spec.Visit
import Verif.Lemmas.Views
import Verif.Lemmas.RoundTrip

set_option linter.unusedSimpArgs false

/-!
# `try_visit`
-/

namespace Mirror

variable {E : Env}

/-! ## Loops -/

/-- A run that may end in a panic. -/
def thenPanic {σ ε : Type} (p : Bool) : Visited σ ε → Visited σ ε
  | .ok s => if p then .panic s else .ok s
  | x => x

theorem runVisit_append {σ ε : Type} (v : Visitor σ ε) (l m : List Leaf) (s : σ) :
    runVisit v (l ++ m) s = match runVisit v l s with | .ok s' => runVisit v m s' | x => x := by
  induction l generalizing s with
  | nil => rfl
  | cons a r ih =>
    simp only [List.cons_append, runVisit]
    split
    · exact ih _
    · rfl

theorem runVisit_not_panic {σ ε : Type} (v : Visitor σ ε) (l : List Leaf) (s s' : σ) :
    runVisit v l s ≠ .panic s' := by
  induction l generalizing s with
  | nil => simp [runVisit]
  | cons a r ih =>
    simp only [runVisit]
    split
    · exact ih _
    · simp

/-- Each iteration runs its own leaves: so does the loop. -/
theorem visitLoop_run {α : Type} {f : ∀ {σ ε : Type}, Visitor σ ε → α → σ → Visited σ ε} :
    ∀ {as : List α} {ls : List (List Leaf)},
    List.Forall₂ (fun a l => ∀ (σ ε : Type) (v : Visitor σ ε) s, f v a s = runVisit v l s) as ls →
    ∀ (σ ε : Type) (v : Visitor σ ε) s, visitLoop (f v) as s = runVisit v ls.flatten s := by
  intro as ls h
  induction h with
  | nil => intros; rfl
  | cons hd _ ih =>
    intro σ ε v s
    rw [List.flatten_cons, runVisit_append, visitLoop, hd]
    cases runVisit v _ s with
    | ok s' => exact ih _ _ _ _
    | err e s' => rfl
    | panic s' => rfl

theorem visitLoop_plan {α : Type} {f : ∀ {σ ε : Type}, Visitor σ ε → α → σ → Visited σ ε} (as : List α)
    (h : ∀ a ∈ as, ∃ l p, ∀ (σ ε : Type) (v : Visitor σ ε) s, f v a s = thenPanic p (runVisit v l s)) :
    ∃ l p, ∀ (σ ε : Type) (v : Visitor σ ε) s, visitLoop (f v) as s = thenPanic p (runVisit v l s) := by
  induction as with
  | nil => exact ⟨[], false, fun _ _ _ _ => rfl⟩
  | cons a r ih =>
    obtain ⟨l, p, ha⟩ := h a (by simp)
    obtain ⟨l', p', hr⟩ := ih fun b hb => h b (by simp [hb])
    cases p with
    | true =>
      refine ⟨l, true, fun σ ε v s => ?_⟩
      rw [visitLoop, ha]
      cases runVisit v l s <;> rfl
    | false =>
      refine ⟨l ++ l', p', fun σ ε v s => ?_⟩
      rw [visitLoop, ha, runVisit_append]
      cases runVisit v l s with
      | ok s' => exact hr _ _ _ _
      | err e s' => rfl
      | panic s' => rfl

theorem tryVisit_loop {σ ε : Type} {g : TypeGraph} {id : Ty} {node : TypeNode} (hn : g.node id = some node)
    (h1 : ∀ k, node ≠ .scalar k) (h2 : node ≠ .opaque) (v : Visitor σ ε) (o : Obj) (s : σ) :
    tryVisit g v id o s = visitLoop (fun st s =>
      match st with
      | none => .panic s
      | some (t, x) => tryVisit g v t x.1 s) (visitSteps g o node) s := by
  rw [tryVisit, hn]
  cases node with
  | scalar k => exact absurd rfl (h1 k)
  | «opaque» => exact absurd rfl h2
  | _ =>
    rfl

theorem visitLeaf_run {σ ε : Type} (v : Visitor σ ε) (l : Leaf) (s : σ) :
    visitLeaf v l s = runVisit v [l] s := by
  simp only [visitLeaf, runVisit]
  rcases v l s with ⟨_ | _, _⟩ <;> rfl

/-- Whatever value and type, `try_visit` calls the visitor on a sequence of leaves that does not depend
on the visitor, until it fails, and then perhaps panics. -/
theorem tryVisit_plan (g : TypeGraph) (id : Ty) (o : Obj) :
    ∃ l p, ∀ (σ ε : Type) (v : Visitor σ ε) s,
      tryVisit g v id o s = thenPanic p (runVisit v l s) := by
  induction o using Obj.ind generalizing id with
  | h o ih =>
    cases hn : g.node id with
    | none => exact ⟨[], true, fun σ ε v s => by rw [tryVisit, hn]; rfl⟩
    | some node =>
      by_cases h1 : ∃ k, node = .scalar k
      · obtain ⟨k, rfl⟩ := h1
        cases ho : o.asScalar with
        | none => exact ⟨[], true, fun σ ε v s => by rw [tryVisit, hn, ho]; rfl⟩
        | some a =>
          refine ⟨[.scalar a], false, fun σ ε v s => ?_⟩
          rw [tryVisit, hn, ho]
          simp only [visitLeaf_run]
          cases runVisit v [.scalar a] s <;> rfl
      · by_cases h2 : node = .opaque
        · subst h2
          refine ⟨[.opaque o id], false, fun σ ε v s => ?_⟩
          rw [tryVisit, hn]
          simp only [visitLeaf_run]
          cases runVisit v [.opaque o id] s <;> rfl
        · have hl := fun σ ε => tryVisit_loop (σ := σ) (ε := ε) hn (fun k hk => h1 ⟨k, hk⟩) h2
          obtain ⟨l, p, h⟩ := visitLoop_plan (f := fun {σ ε} v st s =>
              match st with
              | none => .panic s
              | some (t, x) => tryVisit (σ := σ) (ε := ε) g v t (Subtype.val x) s) (visitSteps g o node) (by
            rintro (_ | ⟨t, x⟩) _
            · exact ⟨[], true, fun _ _ _ _ => rfl⟩
            · exact ih x.1 x.2 t)
          exact ⟨l, p, fun σ ε v s => by rw [hl]; exact h σ ε v s⟩

theorem runVisit_cases {σ ε : Type} (v : Visitor σ ε) (l : List Leaf) (s : σ) :
    (∃ s', Accepts v l s s' ∧ runVisit v l s = .ok s') ∨
    (∃ pre a post s₁ e s₂, l = pre ++ a :: post ∧ Accepts v pre s s₁ ∧ v a s₁ = (some e, s₂) ∧
      runVisit v l s = .err e s₂) := by
  induction l generalizing s with
  | nil => exact .inl ⟨s, .nil s, rfl⟩
  | cons a r ih =>
    rcases hv : v a s with ⟨_ | e, s₁⟩
    · rcases ih s₁ with ⟨s', h1, h2⟩ | ⟨pre, b, post, s₂, e, s₃, rfl, h1, h2, h3⟩
      · exact .inl ⟨s', .cons _ _ _ _ _ hv h1, by rw [runVisit, hv]; exact h2⟩
      · exact .inr ⟨a :: pre, b, post, s₂, e, s₃, rfl, .cons _ _ _ _ _ hv h1, h2,
          by rw [runVisit, hv]; exact h3⟩
    · exact .inr ⟨[], a, r, s, e, s₁, rfl, .nil s, hv, by rw [runVisit, hv]⟩

/-! ## Leaves -/

theorem leaves_unbox {t : Ty} {o : Obj} {l : List Leaf} (h : Leaves E t.unbox o l) : Leaves E t o l := by
  induction t using Ty.unbox.induct with
  | case1 t ih => rw [Ty.unbox] at h; exact .box _ _ _ (ih h)
  | case2 t h' => rw [Ty.unbox] at h; exact h; exact h'

/-- The steps are exactly the parts. -/
def StepsAre (o : Obj) (st : List (Option (Ty × o.Part))) (ps : List (Ty × Obj)) : Prop :=
  List.Forall₂ (fun st p => ∃ h, st = some (p.1.unbox, ⟨p.2, h⟩)) st ps

theorem mapIdx_forall2 {α β γ} {f : Nat → α → γ} {R : γ → β → Prop} {as : List α} {bs : List β}
    (hl : as.length = bs.length)
    (h : ∀ (i : Nat) a b, as[i]? = some a → bs[i]? = some b → R (f i a) b) :
    List.Forall₂ R (as.mapIdx f) bs := by
  rw [List.forall₂_iff_get]
  refine ⟨by simpa using hl, fun i h1 h2 => ?_⟩
  simp only [List.get_eq_getElem, List.getElem_mapIdx]
  simp only [List.length_mapIdx] at h1
  exact h i _ _ (List.getElem?_eq_getElem h1) (List.getElem?_eq_getElem h2)

theorem part_some {o : Obj} {r : Option Obj} {h} {x : Obj} (hr : r = some x) :
    ∃ h', o.part r h = some ⟨x, h'⟩ := by
  subst hr; exact ⟨_, rfl⟩

theorem step_some {o : Obj} {t : Option Ty} {r : Option Obj} {h} {x : Obj} {u : Ty} (ht : t = some u)
    (hr : r = some x) : ∃ h', visitStep t (o.part r h) = some (u, ⟨x, h'⟩) := by
  obtain ⟨h', e⟩ := part_some (o := o) (h := h) hr
  exact ⟨h', by rw [e, ht]; rfl⟩

theorem zip_getElem {α β} {as : List α} {bs : List β} {i : Nat} {q : α × β}
    (h : (as.zip bs)[i]? = some q) : as[i]? = some q.1 ∧ bs[i]? = some q.2 := by
  rw [List.getElem?_zip_eq_some] at h; exact h

/-- The parts of a struct or struct variant. -/
theorem named_parts {fds : List FieldDef} {fs : List (String × Obj)}
    (hn : fs.map (·.1) = fds.map (·.name))
    (ht : ∀ (i : Nat) fd p, fds[i]? = some fd → fs[i]? = some p → fd.skip = false → HasTy E fd.ty p.2)
    (hnd : (fds.map (·.name)).Nodup) {names fields}
    (hf : namedTypes names fields = (fds.filter fun fd => !fd.skip).map fun fd => (fd.name, some fd.ty.unbox))
    {o : Obj} (ho : ∀ m, o.field m = lookup m (visFields fs)) :
    StepsAre o ((namedTypes names fields).map fun q =>
        visitStep q.2 (o.part (o.field q.1) fun _ h => Obj.field_size h))
      (((fds.zip fs).filter fun q => !q.1.skip).map fun q => (q.1.ty, q.2.2)) ∧
    ∀ p ∈ ((fds.zip fs).filter fun q => !q.1.skip).map (fun q => (q.1.ty, q.2.2)),
      HasTy E p.1 p.2 ∧ ∃ m, (m, some p.1.unbox) ∈ namedTypes names fields := by
  have hlen : fs.length = fds.length := by simpa using congrArg List.length hn
  have hfn : (fs.map (·.1)).Nodup := by rw [hn]; exact hnd
  constructor
  · rw [StepsAre, hf, List.map_map, List.forall₂_map_left_iff, List.forall₂_map_right_iff]
    refine filter_forall2 (by simp [hlen]) fun i fd q hfd hq => ?_
    obtain ⟨h1, h2⟩ := zip_getElem hq
    rw [hfd] at h1; cases h1
    refine ⟨rfl, fun hk => ?_⟩
    have hk' : q.1.skip = false := by simpa using hk
    have hty := ht i _ _ hfd h2 hk'
    have hname : q.2.1 = q.1.name := by
      have e : (fs.map (·.1))[i]? = (fds.map (·.name))[i]? := by rw [hn]
      simpa [h2, hfd] using e
    refine step_some rfl ?_
    show o.field q.1.name = some q.2.2
    rw [ho, ← hname]; exact lookup_vis_of_idx hfn h2 hty.not_hidden
  · intro p hp
    obtain ⟨q, hq, rfl⟩ := List.mem_map.mp hp
    obtain ⟨hq1, hq2⟩ := List.mem_filter.mp hq
    obtain ⟨i, hi⟩ := List.getElem?_of_mem hq1
    obtain ⟨h1, h2⟩ := zip_getElem hi
    refine ⟨ht i _ _ h1 h2 (by simpa using hq2), q.1.name, ?_⟩
    rw [hf]
    exact List.mem_map.mpr ⟨q.1, List.mem_filter.mpr ⟨List.mem_of_getElem? h1, hq2⟩, rfl⟩

/-- The parts of a tuple struct or tuple variant. -/
theorem pos_parts {fds : List FieldDef} {fs : List Obj} (hn : fs.length = fds.length)
    (hs : ∀ (i : Nat) fd x, fds[i]? = some fd → fs[i]? = some x → fd.skip = true → x.isHidden = true)
    (ht : ∀ (i : Nat) fd x, fds[i]? = some fd → fs[i]? = some x → fd.skip = false → HasTy E fd.ty x)
    (hl : HiddenLast fs) {o : Obj} (ho : ∀ i, o.fieldAt i = visAt fs i) :
    StepsAre o (((fds.filter fun fd => !fd.skip).map fun fd => fd.ty.unbox).mapIdx fun i t =>
        visitStep (some t) (o.part (o.fieldAt i) fun _ h => Obj.fieldAt_size h))
      (((fds.zip fs).filter fun q => !q.1.skip).map fun q => (q.1.ty, q.2)) ∧
    ∀ p ∈ ((fds.zip fs).filter fun q => !q.1.skip).map (fun q => (q.1.ty, q.2)),
      HasTy E p.1 p.2 ∧ p.1.unbox ∈ (fds.filter fun fd => !fd.skip).map fun fd => fd.ty.unbox := by
  have h1 : List.Forall₂ (fun fd q => q.1 = fd) (fds.filter fun fd => !fd.skip)
      ((fds.zip fs).filter fun q => !q.1.skip) := by
    refine filter_forall2 (by simp [hn]) fun i fd q hfd hq => ?_
    obtain ⟨h1, _⟩ := zip_getElem hq
    rw [hfd] at h1; cases h1
    exact ⟨rfl, fun _ => rfl⟩
  have h2 : List.Forall₂ (fun x q => q.2 = x) (visPos fs)
      ((fds.zip fs).filter fun q => !q.1.skip) := by
    refine filter_forall2 (by simp [hn]) fun i x q hx hq => ?_
    obtain ⟨h1, h2⟩ := zip_getElem hq
    rw [hx] at h2; cases h2
    refine ⟨?_, fun _ => rfl⟩
    cases hk : q.1.skip with
    | true => simp [hs i _ _ h1 hx hk]
    | false => simp [(ht i _ _ h1 hx hk).not_hidden]
  constructor
  · refine mapIdx_forall2 (by simpa using h1.length_eq) fun i t p ht' hp => ?_
    obtain ⟨fd, hfd, rfl⟩ := getElem?_map_some ht'
    obtain ⟨q, hq, rfl⟩ := getElem?_map_some hp
    obtain ⟨fd2, hfd2, he⟩ := forall2_right h1 hq
    rw [hfd] at hfd2; cases hfd2; subst he
    obtain ⟨x, hx, rfl⟩ := forall2_right h2 hq
    exact step_some rfl (by rw [ho, visAt_eq_filter hl]; exact hx)
  · intro p hp
    obtain ⟨q, hq, rfl⟩ := List.mem_map.mp hp
    obtain ⟨hq1, hq2⟩ := List.mem_filter.mp hq
    obtain ⟨i, hi⟩ := List.getElem?_of_mem hq1
    obtain ⟨h1, h2⟩ := zip_getElem hi
    refine ⟨ht i _ _ h1 h2 (by simpa using hq2), ?_⟩
    exact List.mem_map.mpr ⟨q.1, List.mem_filter.mpr ⟨List.mem_of_getElem? h1, hq2⟩, rfl⟩

theorem attach_forall2 {α β γ} {P : α → Prop} {f : { x // P x } → γ} {R : γ → β → Prop} {g : α → β}
    (l : List { x // P x }) (h : ∀ x, R (f x) (g x.1)) :
    List.Forall₂ R (l.map f) ((l.map (·.1)).map g) := by
  induction l with
  | nil => exact .nil
  | cons a r ih => exact .cons (h a) ih

theorem attach_flatMap2 {α β γ} {P : α → Prop} {f : { x // P x } → List γ} {R : γ → β → Prop}
    {g : α → List β} (l : List { x // P x }) (h : ∀ x, List.Forall₂ R (f x) (g x.1)) :
    List.Forall₂ R (l.flatMap f) ((l.map (·.1)).flatMap g) := by
  induction l with
  | nil => exact .nil
  | cons a r ih =>
    simp only [List.flatMap_cons, List.map_cons]
    exact List.rel_append (h a) ih

theorem namedTypes_ids {names : List String} {fields : List (String × Ty)} {m : String} {u : Ty}
    (h : (m, some u) ∈ namedTypes names fields) : u ∈ fields.map (·.2) := by
  obtain ⟨k, _, he⟩ := List.mem_map.mp h
  simp only [Prod.mk.injEq] at he
  exact namedType_mem (n := k) he.2

/-- The value itself has no skipped positional field before a reflected one. -/
def Obj.NoGapHere (o : Obj) : Prop :=
  (∀ tag fs, o = .tupleStruct tag fs → HiddenLast fs) ∧ (∀ tag v fs, o = .enumT tag v fs → HiddenLast fs)

theorem zip_vis {fds : List FieldDef} {fs : List Obj} (hn : fs.length = fds.length)
    (hs : ∀ (i : Nat) fd x, fds[i]? = some fd → fs[i]? = some x → fd.skip = true → x.isHidden = true)
    (ht : ∀ (i : Nat) fd x, fds[i]? = some fd → fs[i]? = some x → fd.skip = false → HasTy E fd.ty x)
    (y : Obj) : y ∈ visPos fs ↔
      ∃ p ∈ ((fds.zip fs).filter fun q => !q.1.skip).map (fun q => (q.1.ty, q.2)), p.2 = y := by
  simp only [visPos, List.mem_filter, List.mem_map]
  constructor
  · rintro ⟨hm, hv⟩
    obtain ⟨i, hi⟩ := List.getElem?_of_mem hm
    obtain ⟨fd, hfd⟩ := align_pos hn hi
    refine ⟨(fd.ty, y), ⟨(fd, y), ⟨?_, ?_⟩, rfl⟩, rfl⟩
    · exact List.mem_of_getElem? (List.getElem?_zip_eq_some.mpr ⟨hfd, hi⟩)
    · cases hk : fd.skip with
      | true => simp [hs i fd y hfd hi hk] at hv
      | false => rfl
  · rintro ⟨p, ⟨q, ⟨hq, hk⟩, rfl⟩, rfl⟩
    obtain ⟨i, hi⟩ := List.getElem?_of_mem hq
    obtain ⟨h1, h2⟩ := zip_getElem hi
    exact ⟨List.mem_of_getElem? h2, by simp [(ht i _ _ h1 h2 (by simpa using hk)).not_hidden]⟩

theorem zip_visN {fds : List FieldDef} {fs : List (String × Obj)} (hn : fs.map (·.1) = fds.map (·.name))
    (hs : ∀ (i : Nat) fd p, fds[i]? = some fd → fs[i]? = some p → fd.skip = true → p.2.isHidden = true)
    (ht : ∀ (i : Nat) fd p, fds[i]? = some fd → fs[i]? = some p → fd.skip = false → HasTy E fd.ty p.2)
    (y : Obj) : y ∈ (visFields fs).map (·.2) ↔
      ∃ p ∈ ((fds.zip fs).filter fun q => !q.1.skip).map (fun q => (q.1.ty, q.2.2)), p.2 = y := by
  have hn : fs.length = fds.length := by simpa using congrArg List.length hn
  simp only [visFields, List.mem_filter, List.mem_map]
  constructor
  · rintro ⟨r, ⟨hm, hv⟩, rfl⟩
    obtain ⟨i, hi⟩ := List.getElem?_of_mem hm
    obtain ⟨fd, hfd⟩ := align_pos hn hi
    refine ⟨(fd.ty, r.2), ⟨(fd, r), ⟨?_, ?_⟩, rfl⟩, rfl⟩
    · exact List.mem_of_getElem? (List.getElem?_zip_eq_some.mpr ⟨hfd, hi⟩)
    · cases hk : fd.skip with
      | true => simp [hs i fd r hfd hi hk] at hv
      | false => rfl
  · rintro ⟨p, ⟨q, ⟨hq, hk⟩, rfl⟩, rfl⟩
    obtain ⟨i, hi⟩ := List.getElem?_of_mem hq
    obtain ⟨h1, h2⟩ := zip_getElem hi
    exact ⟨q.2, ⟨List.mem_of_getElem? h2, by simp [(ht i _ _ h1 h2 (by simpa using hk)).not_hidden]⟩, rfl⟩

/-- The parts with their types are all the parts. -/
theorem Parts.parts_iff (hD : DeclsOK E) {t : Ty} {x : Obj} {ps : List (Ty × Obj)} (h : Parts E t x ps) (hx : HasTy E t x)
    (y : Obj) : y ∈ x.parts ↔ ∃ p ∈ ps, p.2 = y := by
  cases h with
  | struct n fds c fs hd =>
    cases hx with
    | struct _ fds' c' _ hd' e1 e2 e3 => rw [hd] at hd'; cases hd'; exact zip_visN e1 e2 e3 y
  | tupleStruct n fds c fs hd =>
    cases hx with
    | tupleStruct _ fds' c' _ hd' e1 e2 e3 => rw [hd] at hd'; cases hd'; exact zip_vis e1 e2 e3 y
  | enumS n vds c vn fds fs hd hm =>
    cases hx with
    | enumS _ vds' c' _ fds' _ hd' hm' e1 e2 e3 =>
      rw [hd] at hd'; cases hd'
      cases variantDef_unique (hD.variant_names n vds c hd) hm hm' rfl
      exact zip_visN e1 e2 e3 y
  | enumT n vds c vn fds fs hd hm =>
    cases hx with
    | enumT _ vds' c' _ fds' _ hd' hm' e1 e2 e3 =>
      rw [hd] at hd'; cases hd'
      cases variantDef_unique (hD.variant_names n vds c hd) hm hm' rfl
      exact zip_vis e1 e2 e3 y
  | enumU n vds c vn hd hm => simp [Obj.parts]
  | tuple ts fs =>
    have hv := tuple_visible hx
    cases hx with
    | tuple _ _ hl _ =>
      simp only [Obj.parts, visPos, List.mem_filter]
      constructor
      · rintro ⟨hm, _⟩
        obtain ⟨i, hi⟩ := List.getElem?_of_mem hm
        obtain ⟨t, ht⟩ := align_pos hl hi
        exact ⟨(t, y), List.mem_of_getElem? (List.getElem?_zip_eq_some.mpr ⟨ht, hi⟩), rfl⟩
      · rintro ⟨p, hp, rfl⟩
        obtain ⟨i, hi⟩ := List.getElem?_of_mem hp
        have := List.mem_of_getElem? (zip_getElem hi).2
        exact ⟨this, by simp [hv _ this]⟩
  | vec t xs => simp [Obj.parts]
  | array t xs => simp [Obj.parts]
  | map k v kvs =>
    simp only [Obj.parts, List.mem_append, List.mem_map, List.mem_flatMap, List.mem_cons,
      List.not_mem_nil, or_false]
    constructor
    · rintro (⟨q, hq, rfl⟩ | ⟨q, hq, rfl⟩)
      · exact ⟨_, ⟨q, hq, .inl rfl⟩, rfl⟩
      · exact ⟨_, ⟨q, hq, .inr rfl⟩, rfl⟩
    · rintro ⟨p, ⟨q, hq, rfl | rfl⟩, rfl⟩
      · exact .inl ⟨q, hq, rfl⟩
      · exact .inr ⟨q, hq, rfl⟩

/-- The steps on a value of the described type are its parts. -/
theorem steps_parts (hD : DeclsOK E) {g : TypeGraph} {id node} (hd : Describes E id node)
    (hc : ∀ j ∈ node.ids, ∃ m, g.node j = some m) {x : Obj} (hx : HasTy E id x) (hg : x.NoGapHere) (h1 : ∀ k, node ≠ .scalar k) (h2 : node ≠ .opaque) :
    ∃ ps, Parts E id x ps ∧ StepsAre x (visitSteps g x node) ps ∧
      ∀ p ∈ ps, HasTy E p.1 p.2 ∧ p.1.unbox ∈ node.ids := by
  have isSome : ∀ t : Ty, t.unbox ∈ node.ids → (g.node t.unbox).isSome = true := by
    intro t ht
    obtain ⟨m, hm⟩ := hc _ ht
    rw [hm]; rfl
  cases hd with
  | scalar k => exact absurd rfl (h1 k)
  | nonzero | value | structValue | tupleStructValue | tupleValue | enumValue => exact absurd rfl h2
  | vec t =>
    cases hx with
    | vec _ xs h =>
      refine ⟨_, .vec t xs, ?_, ?_⟩
      · rw [visitSteps, if_pos ⟨(by rfl : (Obj.vec t xs).kind = .list), isSome t (by simp [TypeNode.ids])⟩]
        have := attach_forall2 (f := fun x => some (t.unbox, (⟨x.1, Obj.posIter_size x.2⟩ : (Obj.vec t xs).Part)))
          (g := fun y => (t, y)) (R := fun st p => ∃ h, st = some (p.1.unbox, ⟨p.2, h⟩))
          (Obj.vec t xs).posIter.attach (fun x => ⟨_, rfl⟩)
        rwa [List.attach_map_subtype_val] at this
      · intro p hp
        obtain ⟨y, hy, rfl⟩ := List.mem_map.mp hp
        exact ⟨h y hy, by simp [TypeNode.ids]⟩
  | array t n =>
    cases hx with
    | array _ xs h =>
      refine ⟨_, .array t xs, ?_, ?_⟩
      · rw [visitSteps, if_pos ⟨(by rfl : (Obj.array t xs).kind = .array), isSome t (by simp [TypeNode.ids])⟩]
        have := attach_forall2 (f := fun x => some (t.unbox, (⟨x.1, Obj.posIter_size x.2⟩ : (Obj.array t xs).Part)))
          (g := fun y => (t, y)) (R := fun st p => ∃ h, st = some (p.1.unbox, ⟨p.2, h⟩))
          (Obj.array t xs).posIter.attach (fun x => ⟨_, rfl⟩)
        rwa [List.attach_map_subtype_val] at this
      · intro p hp
        obtain ⟨y, hy, rfl⟩ := List.mem_map.mp hp
        exact ⟨h y hy, by simp [TypeNode.ids]⟩
  | map k v =>
    cases hx with
    | map _ _ kvs _ hk hv =>
      refine ⟨_, .map k v kvs, ?_, ?_⟩
      · rw [visitSteps, if_pos ⟨(by rfl : (Obj.map k v kvs).kind = .map), isSome k (by simp [TypeNode.ids]),
          isSome v (by simp [TypeNode.ids])⟩]
        have := attach_flatMap2 (f := fun p => [some (k.unbox, (⟨p.1.1, (Obj.mapIter_size p.2).1⟩ : (Obj.map k v kvs).Part)),
            some (v.unbox, ⟨p.1.2, (Obj.mapIter_size p.2).2⟩)])
          (g := fun p => [(k, p.1), (v, p.2)]) (R := fun st p => ∃ h, st = some (p.1.unbox, ⟨p.2, h⟩))
          (Obj.map k v kvs).mapIter.attach (fun x => .cons ⟨_, rfl⟩ (.cons ⟨_, rfl⟩ .nil))
        rwa [List.attach_map_subtype_val] at this
      · intro p hp
        obtain ⟨q, hq, hp⟩ := List.mem_flatMap.mp hp
        simp only [List.mem_cons, List.not_mem_nil, or_false] at hp
        rcases hp with rfl | rfl
        · exact ⟨hk q hq, by simp [TypeNode.ids]⟩
        · exact ⟨hv q hq, by simp [TypeNode.ids]⟩
  | tuple ts =>
    have hx' := hx
    cases hx with
    | tuple _ fs hl h =>
      have hv := tuple_visible hx'
      refine ⟨_, .tuple ts fs, ?_, ?_⟩
      · rw [visitSteps, if_pos (by rfl : (Obj.tuple (.typed ts) fs).kind = .tuple)]
        refine mapIdx_forall2 (by simp [hl]) fun i t p ht hp => ?_
        obtain ⟨u, hu, rfl⟩ := getElem?_map_some ht
        obtain ⟨h1, h2⟩ := zip_getElem hp
        rw [hu] at h1; cases h1
        refine step_some rfl ?_
        simp [Obj.fieldAt, visAt, h2, hv _ (List.mem_of_getElem? h2)]
      · intro p hp
        obtain ⟨i, hi⟩ := List.getElem?_of_mem hp
        obtain ⟨h1, h2⟩ := zip_getElem hi
        refine ⟨h i _ _ h1 h2, ?_⟩
        exact List.mem_map.mpr ⟨p.1, List.mem_of_getElem? h1, rfl⟩
  | struct n fds c names fields hd hf hlen hso =>
    cases hx with
    | struct _ fds' c' fs hd' e1 e2 e3 =>
      rw [hd] at hd'; cases hd'
      obtain ⟨hs, hp⟩ := named_parts e1 e3 (hD.struct_names n fds c hd) hf
        (o := .struct (.derived n) fs) (fun _ => rfl)
      refine ⟨_, .struct n fds c fs hd, ?_, fun p hp' => ?_⟩
      · rw [visitSteps, if_pos (by rfl : (Obj.struct (.derived n) fs).kind = .struct)]; exact hs
      · obtain ⟨a, m, b⟩ := hp p hp'
        exact ⟨a, namedTypes_ids b⟩
    | tupleStruct _ _ _ _ hd' => rw [hd] at hd'; cases hd'
    | enumS _ _ _ _ _ _ hd' => rw [hd] at hd'; cases hd'
    | enumT _ _ _ _ _ _ hd' => rw [hd] at hd'; cases hd'
    | enumU _ _ _ _ hd' => rw [hd] at hd'; cases hd'
  | tupleStruct n fds c hd =>
    cases hx with
    | tupleStruct _ fds' c' fs hd' e1 e2 e3 =>
      rw [hd] at hd'; cases hd'
      have hl : HiddenLast fs := hg.1 _ _ rfl
      obtain ⟨hs, hp⟩ := pos_parts e1 e2 e3 hl (o := .tupleStruct (.derived n) fs) (fun _ => rfl)
      refine ⟨_, .tupleStruct n fds c fs hd, ?_, hp⟩
      rw [visitSteps, if_pos (by rfl : (Obj.tupleStruct (.derived n) fs).kind = .tupleStruct)]; exact hs
    | struct _ _ _ _ hd' => rw [hd] at hd'; cases hd'
    | enumS _ _ _ _ _ _ hd' => rw [hd] at hd'; cases hd'
    | enumT _ _ _ _ _ _ hd' => rw [hd] at hd'; cases hd'
    | enumU _ _ _ _ hd' => rw [hd] at hd'; cases hd'
  | enum n vds c vs hd hlen hv =>
    have find : ∀ {vd : VariantDef}, vd ∈ vds → ∃ v ∈ vs, DescribesVariant vd v ∧
        findVariant vs vd.name = some v := by
      intro vd hm
      obtain ⟨v, hvm, hdv, hu⟩ := enum_variant_node hD hd hlen hv hm
      refine ⟨v, hvm, hdv, ?_⟩
      have hname := describesVariant_name hdv
      cases hfv : findVariant vs vd.name with
      | none =>
        have := List.find?_eq_none.mp hfv v hvm
        simp [hname] at this
      | some w =>
        have h1 := List.find?_some hfv
        have h2 := List.mem_of_find?_eq_some hfv
        rw [hu w h2 (by simpa [hname] using h1)]
    rcases enum_inv hd hx with ⟨vn, fds, fs, hm, rfl, e1, e2, e3⟩ | ⟨vn, fds, fs, hm, rfl, e1, e2, e3⟩ |
        ⟨vn, hm, rfl⟩
    · obtain ⟨v, hvm, hdv, hf⟩ := find hm
      cases hdv with
      | struct _ _ names fields hff hlen' hso =>
        obtain ⟨hs, hp⟩ := named_parts e1 e3 (hD.variant_fields n vds c vn fds hd hm) hff
          (o := .enumS (.derived n) vn fs) (fun _ => rfl)
        refine ⟨_, .enumS n vds c vn fds fs hd hm, ?_, fun p hp' => ?_⟩
        · rw [visitSteps]
          simp only [Obj.variantName, Option.bind_some]
          rw [show findVariant vs vn = _ from hf]; exact hs
        · obtain ⟨a, m, b⟩ := hp p hp'
          exact ⟨a, List.mem_flatMap.mpr ⟨_, hvm, namedTypes_ids b⟩⟩
    · obtain ⟨v, hvm, hdv, hf⟩ := find hm
      cases hdv with
      | tuple =>
        have hl : HiddenLast fs := hg.2 _ _ _ rfl
        obtain ⟨hs, hp⟩ := pos_parts e1 e2 e3 hl (o := .enumT (.derived n) vn fs) (fun _ => rfl)
        refine ⟨_, .enumT n vds c vn fds fs hd hm, ?_, fun p hp' => ?_⟩
        · rw [visitSteps]
          simp only [Obj.variantName, Option.bind_some]
          rw [show findVariant vs vn = _ from hf]; exact hs
        · obtain ⟨a, b⟩ := hp p hp'
          exact ⟨a, List.mem_flatMap.mpr ⟨_, hvm, b⟩⟩
    · obtain ⟨v, hvm, hdv, hf⟩ := find hm
      cases hdv with
      | unit =>
        refine ⟨_, .enumU n vds c vn hd hm, ?_, by simp⟩
        rw [visitSteps]
        simp only [Obj.variantName, Option.bind_some]
        rw [show findVariant vs vn = _ from hf]; exact .nil

/-- Visiting a value with its own type runs the visitor over its leaves. -/
theorem tryVisit_leaves (hD : DeclsOK E) {g : TypeGraph} (hG : GraphOK E g) {id : Ty}
    {node : TypeNode} (hn : g.node id = some node) {x : Obj} (hx : HasTy E id x) (hg : x.NoGaps) :
    ∃ l, Leaves E id x l ∧ ∀ (σ ε : Type) (v : Visitor σ ε) s, tryVisit g v id x s = runVisit v l s := by
  induction x using Obj.ind generalizing id node with
  | h x ih =>
    obtain ⟨hd, hc⟩ := hG id node hn
    by_cases h1 : ∃ k, node = .scalar k
    · obtain ⟨k, rfl⟩ := h1
      cases hd
      generalize he : Ty.scalar k = q at hx
      cases hx <;> cases he
      rename_i s'
      refine ⟨_, .scalar s', fun σ ε v s => ?_⟩
      rw [tryVisit, hn]
      simp only [Obj.asScalar, visitLeaf_run]
    · by_cases h2 : node = .opaque
      · subst h2
        refine ⟨[.opaque x id], .opaque _ _ ?_, fun σ ε v s => ?_⟩
        · cases hd <;> trivial
        · rw [tryVisit, hn]
          simp only [visitLeaf_run]
      · obtain ⟨ps, hps, hst, hty⟩ := steps_parts hD hd hc hx hg.here (fun k hk => h1 ⟨k, hk⟩) h2
        have hl := fun σ ε => tryVisit_loop (σ := σ) (ε := ε) hn (fun k hk => h1 ⟨k, hk⟩) h2
        have key : ∀ {st : List (Option (Ty × x.Part))} {ps : List (Ty × Obj)}, StepsAre x st ps →
            (∀ p ∈ ps, (HasTy E p.1 p.2 ∧ p.1.unbox ∈ node.ids) ∧ p.2.NoGaps) →
            ∃ ls : List (List Leaf), List.Forall₂ (fun (p : Ty × Obj) l => Leaves E p.1 p.2 l) ps ls ∧
              List.Forall₂ (fun (a : Option (Ty × x.Part)) l => ∀ (σ ε : Type) (v : Visitor σ ε) s,
                (match a with
                  | none => .panic s
                  | some (t, x) => tryVisit g v t (Subtype.val x) s) = runVisit v l s) st ls := by
          intro st ps h
          induction h with
          | nil => exact fun _ => ⟨[], .nil, .nil⟩
          | cons hr _ ih' =>
            intro hty
            obtain ⟨hsz, rfl⟩ := hr
            obtain ⟨ls, i1, i2⟩ := ih' fun p hp => hty p (by simp [hp])
            obtain ⟨⟨t1, t2⟩, t3⟩ := hty _ (List.mem_cons_self ..)
            obtain ⟨m, hm⟩ := hc _ t2
            obtain ⟨l, j1, j2⟩ := ih _ hsz hm (hasTy_unbox.mpr t1) t3
            exact ⟨l :: ls, .cons (leaves_unbox j1) i1, .cons j2 i2⟩
        obtain ⟨ls, k1, k2⟩ := key hst fun p hp =>
          ⟨hty p hp, hg.parts ((hps.parts_iff hD hx _).mpr ⟨p, hp, rfl⟩)⟩
        refine ⟨ls.flatten, .parts _ _ ps ls hps k1.length_eq.symm ?_, fun σ ε v s => ?_⟩
        · intro i p l hp hl
          obtain ⟨l', hl', hr⟩ := forall2_left k1 hp
          rw [hl] at hl'; cases hl'; exact hr
        · rw [hl]
          exact visitLoop_run (f := fun {σ ε} v (st : Option (Ty × x.Part)) s =>
              match st with
              | none => .panic s
              | some (t, x) => tryVisit (σ := σ) (ε := ε) g v t (Subtype.val x) s) k2 σ ε v s

/-- If every position up to the number of reflected fields holds one, they come first. -/
theorem hiddenLast_of_steps {fds : List FieldDef} {fs : List Obj} (hn : fs.length = fds.length)
    (hs : ∀ (i : Nat) fd x, fds[i]? = some fd → fs[i]? = some x → fd.skip = true → x.isHidden = true)
    (ht : ∀ (i : Nat) fd x, fds[i]? = some fd → fs[i]? = some x → fd.skip = false → HasTy E fd.ty x)
    (h : ∀ i < (fds.filter fun fd => !fd.skip).length, visAt fs i ≠ none) : HiddenLast fs := by
  have hlen : (fds.filter fun fd => !fd.skip).length = (visPos fs).length := by
    have h2 : List.Forall₂ (fun _ _ => True) (visPos fs) (fds.filter fun fd => !fd.skip) := by
      refine filter_forall2 hn fun i x q hx hq => ⟨?_, fun _ => trivial⟩
      cases hk : q.skip with
      | true => simp [hs i _ _ hq hx hk]
      | false => simp [(ht i _ _ hq hx hk).not_hidden]
    exact h2.length_eq.symm
  rw [hlen] at h
  intro i j x y hx hy hxh hyh
  rcases Nat.lt_trichotomy j i with hlt | rfl | hgt
  · exact hlt
  · rw [hx] at hy; cases hy; rw [hxh] at hyh; cases hyh
  · exfalso
    have hi : (visPos fs).length ≤ i := by
      by_contra hc
      have := h i (by omega)
      simp [visAt, hx, hxh] at this
    have hjl : j < fs.length := (List.getElem?_eq_some_iff.mp hy).1
    have hall : ∀ a ∈ fs.take (visPos fs).length, (!a.isHidden) = true := by
      intro a ha
      obtain ⟨m, hm⟩ := List.getElem?_of_mem ha
      rw [List.getElem?_take] at hm
      split at hm
      · next hlt =>
        have := h m hlt
        cases hk : a.isHidden with
        | true => simp [visAt, hm, hk] at this
        | false => rfl
      · cases hm
    have hsplit : visPos fs = fs.take (visPos fs).length ++
        (fs.drop (visPos fs).length).filter fun a => !a.isHidden := by
      conv_lhs => rw [visPos, ← List.take_append_drop (visPos fs).length fs, List.filter_append]
      rw [List.filter_eq_self.mpr hall]
    have hl2 := congrArg List.length hsplit
    rw [List.length_append, List.length_take] at hl2
    have : 0 < ((fs.drop (visPos fs).length).filter fun a => !a.isHidden).length := by
      apply List.length_pos_of_mem (a := y)
      refine List.mem_filter.mpr ⟨?_, by simp [hyh]⟩
      refine List.mem_of_getElem? (i := j - (visPos fs).length) ?_
      rw [List.getElem?_drop, ← hy]; congr 1; omega
    omega

theorem step_isSome {o : Obj} {t : Option Ty} {r : Option Obj} {h}
    (hn : visitStep t (o.part r h) ≠ none) : r ≠ none := by
  rintro rfl; exact hn rfl

/-- If no step panics, reflected fields come first. -/
theorem steps_noGapHere {g : TypeGraph} {id node} (hD : DeclsOK E) (hd : Describes E id node) {x : Obj}
    (hx : HasTy E id x) (h1 : node ≠ .opaque) (h : none ∉ visitSteps g x node) : x.NoGapHere := by
  have pos : ∀ {fds : List FieldDef} {fs : List Obj} {o : Obj}, (∀ i, o.fieldAt i = visAt fs i) →
      none ∉ (((fds.filter fun fd => !fd.skip).map fun fd => fd.ty.unbox).mapIdx fun i t =>
        visitStep (some t) (o.part (o.fieldAt i) fun _ h => Obj.fieldAt_size h)) →
      ∀ i < (fds.filter fun fd => !fd.skip).length, visAt fs i ≠ none := by
    intro fds fs o ho hno i hi
    rw [← ho]
    refine step_isSome (o := o) (t := some ((fds.filter fun fd => !fd.skip)[i].ty.unbox))
      (h := fun _ h => Obj.fieldAt_size h) fun hc => hno ?_
    refine List.mem_of_getElem? (i := i) ?_
    rw [List.getElem?_mapIdx, List.getElem?_map, List.getElem?_eq_getElem hi]
    simp only [Option.map_some, hc]
  cases hd with
  | tupleStruct n fds c hd =>
    cases hx with
    | tupleStruct _ fds' c' fs hd' e1 e2 e3 =>
      rw [hd] at hd'; cases hd'
      rw [visitSteps, if_pos (by rfl : (Obj.tupleStruct (.derived n) fs).kind = .tupleStruct)] at h
      refine ⟨fun tag fs' he => ?_, nofun⟩
      cases he
      exact hiddenLast_of_steps e1 e2 e3 (pos (o := .tupleStruct (.derived n) fs) (fun _ => rfl) h)
    | struct _ _ _ _ hd' => rw [hd] at hd'; cases hd'
    | enumS _ _ _ _ _ _ hd' => rw [hd] at hd'; cases hd'
    | enumT _ _ _ _ _ _ hd' => rw [hd] at hd'; cases hd'
    | enumU _ _ _ _ hd' => rw [hd] at hd'; cases hd'
  | enum n vds c vs hd hlen hv =>
    rcases enum_inv hd hx with ⟨vn, fds, fs, hm, rfl, e1, e2, e3⟩ | ⟨vn, fds, fs, hm, rfl, e1, e2, e3⟩ |
        ⟨vn, hm, rfl⟩
    · exact ⟨nofun, nofun⟩
    · obtain ⟨v, hvm, hdv, hu⟩ := enum_variant_node hD hd hlen hv hm
      have hname := describesVariant_name hdv
      have hf : findVariant vs vn = some v := by
        cases hfv : findVariant vs vn with
        | none =>
          have := List.find?_eq_none.mp hfv v hvm
          simp [← hname, VariantDef.name] at this
        | some w =>
          have h1 := List.find?_some hfv
          have h2 := List.mem_of_find?_eq_some hfv
          rw [hu w h2 (by simpa [← hname, VariantDef.name] using h1)]
      cases hdv with
      | tuple =>
        rw [visitSteps] at h
        simp only [Obj.variantName, Option.bind_some] at h
        rw [hf] at h
        refine ⟨nofun, fun tag v fs' he => ?_⟩
        cases he
        exact hiddenLast_of_steps e1 e2 e3 (pos (o := .enumT (.derived n) vn fs) (fun _ => rfl) h)
    · exact ⟨nofun, nofun⟩
  | struct n fds c names fields hd =>
    cases hx with
    | struct => exact ⟨nofun, nofun⟩
    | tupleStruct _ _ _ _ hd' => rw [hd] at hd'; cases hd'
    | enumS => exact ⟨nofun, nofun⟩
    | enumT _ _ _ _ _ _ hd' => rw [hd] at hd'; cases hd'
    | enumU => exact ⟨nofun, nofun⟩
  | scalar k =>
    generalize he : Ty.scalar k = q at hx
    cases hx <;> cases he
    exact ⟨nofun, nofun⟩
  | vec | tuple | map => cases hx; exact ⟨nofun, nofun⟩
  | array t n => cases hx; exact ⟨nofun, nofun⟩
  | _ => exact absurd rfl h1

theorem visitLoop_ok {α σ ε : Type} {f : α → σ → Visited σ ε} {l : List α} {s s' : σ}
    (h : visitLoop f l s = .ok s') : ∀ a ∈ l, ∃ s₁ s₂, f a s₁ = .ok s₂ := by
  induction l generalizing s with
  | nil => nofun
  | cons b r ih =>
    intro a ha
    rw [visitLoop] at h
    cases hb : f b s with
    | ok s₁ =>
      rw [hb] at h
      rcases List.mem_cons.mp ha with rfl | ha
      · exact ⟨s, s₁, hb⟩
      · exact ih h a ha
    | err => rw [hb] at h; cases h
    | panic => rw [hb] at h; cases h

/-- A visit that comes to its end has met no misplaced skip. -/
theorem noGaps_of_tryVisit (hD : DeclsOK E) {g : TypeGraph} (hG : GraphOK E g) {id : Ty}
    {node : TypeNode} (hn : g.node id = some node) {x : Obj} (hx : HasTy E id x) {σ ε : Type}
    {v : Visitor σ ε} {s s' : σ} (h : tryVisit g v id x s = .ok s') : x.NoGaps := by
  induction x using Obj.ind generalizing id node s s' with
  | h x ih =>
    obtain ⟨hd, hc⟩ := hG id node hn
    by_cases h2 : node = .opaque
    · subst h2
      cases hd with
      | nonzero k => cases hx; exact .mk _ ⟨nofun, nofun⟩ nofun
      | value => cases hx with | value v _ hv he => subst he; exact hv.noGaps
      | structValue => cases hx with | structValue _ _ _ hv he => subst he; exact hv.noGaps
      | tupleStructValue => cases hx with | tupleStructValue _ _ hv he => subst he; exact hv.noGaps
      | tupleValue => cases hx with | tupleValue _ _ hv he => subst he; exact hv.noGaps
      | enumValue =>
        cases hx with
        | enumValueS _ _ _ _ hv he => subst he; exact hv.noGaps
        | enumValueT _ _ _ hv he => subst he; exact hv.noGaps
        | enumValueU v _ he =>
          rw [he, Value.toObj]
          exact .mk _ ⟨nofun, nofun⟩ nofun
    · by_cases h1 : ∃ k, node = .scalar k
      · obtain ⟨k, rfl⟩ := h1
        cases hd
        generalize he : Ty.scalar k = q at hx
        cases hx <;> cases he
        exact .mk _ ⟨nofun, nofun⟩ nofun
      · rw [tryVisit_loop hn (fun k hk => h1 ⟨k, hk⟩) h2] at h
        have hall := visitLoop_ok h
        have hgf := steps_noGapHere hD hd hx h2 (fun hm => by
          obtain ⟨_, _, h⟩ := hall none hm; cases h)
        obtain ⟨ps, hps, hst, hty⟩ := steps_parts hD hd hc hx hgf (fun k hk => h1 ⟨k, hk⟩) h2
        refine .mk _ hgf fun y hy => ?_
        obtain ⟨p, hp, rfl⟩ := (hps.parts_iff hD hx y).mp hy
        obtain ⟨i, hi⟩ := List.getElem?_of_mem hp
        obtain ⟨st, hst', hsz, rfl⟩ := forall2_right hst hi
        obtain ⟨s₁, s₂, hok⟩ := hall _ (List.mem_of_getElem? hst')
        obtain ⟨t1, t2⟩ := hty p hp
        obtain ⟨m, hm⟩ := hc _ t2
        exact ih _ hsz hm (hasTy_unbox.mpr t1) hok

end Mirror
