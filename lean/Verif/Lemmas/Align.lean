import Verif.Lemmas.TypeInfo
import Verif.Lemmas.PatchEq
import Verif.Lemmas.Path

set_option linter.unusedSimpArgs false

/-!
# Values beside their declarations

The reflected fields of a value, and the non-skipped fields of its declaration, run in parallel.
-/

namespace Mirror

variable {E : Env}

theorem filter_forall2 {α β} {R : α → β → Prop} {P : α → Bool} {Q : β → Bool} :
    ∀ {as : List α} {bs : List β}, as.length = bs.length →
    (∀ (i : Nat) a b, as[i]? = some a → bs[i]? = some b → P a = Q b ∧ (Q b = true → R a b)) →
    List.Forall₂ R (as.filter P) (bs.filter Q)
  | [], [], _, _ => .nil
  | [], _ :: _, h, _ => by simp at h
  | _ :: _, [], h, _ => by simp at h
  | a :: as, b :: bs, hl, h => by
    have h0 := h 0 a b rfl rfl
    have ih := filter_forall2 (R := R) (P := P) (Q := Q) (as := as) (bs := bs) (by simpa using hl)
      (fun i a b ha hb => h (i + 1) a b (by simpa using ha) (by simpa using hb))
    cases hq : Q b with
    | true =>
      rw [List.filter_cons_of_pos (by rw [h0.1, hq]), List.filter_cons_of_pos hq]
      exact .cons (h0.2 hq) ih
    | false =>
      rw [List.filter_cons_of_neg (by rw [h0.1, hq]; simp), List.filter_cons_of_neg (by simp [hq])]
      exact ih

/-- Named fields. -/
theorem alignNamed {fds : List FieldDef} {fs : List (String × Obj)}
    (hn : fs.map (·.1) = fds.map (·.name))
    (hs : ∀ (i : Nat) fd p, fds[i]? = some fd → fs[i]? = some p → fd.skip = true → p.2.isHidden = true)
    (ht : ∀ (i : Nat) fd p, fds[i]? = some fd → fs[i]? = some p → fd.skip = false → HasTy E fd.ty p.2) :
    List.Forall₂ (fun p fd => p.1 = fd.name ∧ HasTy E fd.ty p.2) (visFields fs) (visDefs fds) := by
  refine filter_forall2 (by simpa using congrArg List.length hn) ?_
  intro i p fd hp hfd
  cases hk : fd.skip with
  | true => simp [hs i fd p hfd hp hk]
  | false =>
    have := ht i fd p hfd hp hk
    refine ⟨by simp [this.not_hidden], fun _ => ⟨?_, this⟩⟩
    have h1 : (fs.map (·.1))[i]? = (fds.map (·.name))[i]? := by rw [hn]
    simpa [hp, hfd] using h1

/-- Positional fields. -/
theorem alignPos {fds : List FieldDef} {fs : List Obj} (hn : fs.length = fds.length)
    (hs : ∀ (i : Nat) fd x, fds[i]? = some fd → fs[i]? = some x → fd.skip = true → x.isHidden = true)
    (ht : ∀ (i : Nat) fd x, fds[i]? = some fd → fs[i]? = some x → fd.skip = false → HasTy E fd.ty x) :
    List.Forall₂ (fun x fd => HasTy E fd.ty x) (fs.filter fun x => !x.isHidden) (visDefs fds) := by
  refine filter_forall2 hn ?_
  intro i p fd hp hfd
  cases hk : fd.skip with
  | true => simp [hs i fd p hfd hp hk]
  | false =>
    have := ht i fd p hfd hp hk
    exact ⟨by simp [this.not_hidden], fun _ => this⟩

theorem forall2_left {α β} {R : α → β → Prop} {as : List α} {bs : List β} (h : List.Forall₂ R as bs)
    {i : Nat} {a : α} (ha : as[i]? = some a) : ∃ b, bs[i]? = some b ∧ R a b := by
  induction h generalizing i with
  | nil => simp at ha
  | cons hr _ ih =>
    cases i with
    | zero => simp at ha; subst ha; exact ⟨_, rfl, hr⟩
    | succ i => simpa using ih (by simpa using ha)

theorem forall2_right {α β} {R : α → β → Prop} {as : List α} {bs : List β} (h : List.Forall₂ R as bs)
    {i : Nat} {b : β} (hb : bs[i]? = some b) : ∃ a, as[i]? = some a ∧ R a b := by
  induction h generalizing i with
  | nil => simp at hb
  | cons hr _ ih =>
    cases i with
    | zero => simp at hb; subst hb; exact ⟨_, rfl, hr⟩
    | succ i => simpa using ih (by simpa using hb)

theorem forall2_names {fds : List FieldDef} {fs : List (String × Obj)}
    (h : List.Forall₂ (fun p fd => p.1 = fd.name ∧ HasTy E fd.ty p.2) fs fds) :
    fs.map (·.1) = fds.map (·.name) := by
  induction h with
  | nil => rfl
  | cons hr _ ih => simp [hr.1, ih]

/-- What `field` finds is typed as declared. -/
theorem forall2_lookup {fds : List FieldDef} {fs : List (String × Obj)}
    (h : List.Forall₂ (fun p fd => p.1 = fd.name ∧ HasTy E fd.ty p.2) fs fds) {n : String} {x : Obj}
    (hx : lookup n fs = some x) : ∃ fd ∈ fds, fd.name = n ∧ HasTy E fd.ty x := by
  obtain ⟨i, hi⟩ := List.getElem?_of_mem (lookup_mem hx)
  obtain ⟨fd, hfd, h1, h2⟩ := forall2_left h hi
  exact ⟨fd, List.mem_of_getElem? hfd, h1.symm, h2⟩

/-- If no skipped position precedes a reflected one, access by declared index is access by index among
the reflected fields. -/
theorem visAt_eq_filter {fs : List Obj}
    (hl : ∀ (i j : Nat) x y, fs[i]? = some x → fs[j]? = some y → x.isHidden = true → y.isHidden = false →
      j < i) (i : Nat) : visAt fs i = (fs.filter fun x => !x.isHidden)[i]? := by
  induction fs generalizing i with
  | nil => simp [visAt]
  | cons x r ih =>
    cases hx : x.isHidden with
    | true =>
      have hall : ∀ y ∈ r, y.isHidden = true := by
        intro y hy
        obtain ⟨j, hj⟩ := List.getElem?_of_mem hy
        cases hh : y.isHidden with
        | true => rfl
        | false => exact absurd (hl 0 (j + 1) x y rfl (by simpa using hj) hx hh) (by omega)
      have hnil : (x :: r).filter (fun x => !x.isHidden) = [] := by
        rw [List.filter_eq_nil_iff]; intro y hy
        rcases List.mem_cons.mp hy with rfl | hy
        · simp [hx]
        · simp [hall y hy]
      rw [hnil]
      cases i with
      | zero => simp [visAt, hx]
      | succ i =>
        simp only [visAt, List.getElem?_cons_succ]
        cases hr : r[i]? with
        | none => rfl
        | some y => simp [hall y (List.mem_of_getElem? hr)]
    | false =>
      rw [List.filter_cons_of_pos (by simp [hx])]
      cases i with
      | zero => simp [visAt, hx]
      | succ i =>
        rw [List.getElem?_cons_succ, ← ih]
        · simp [visAt]
        · intro i j a b ha hb hi hj
          have := hl (i + 1) (j + 1) a b (by simpa using ha) (by simpa using hb) hi hj
          omega

/-- From the declaration to the value. -/
theorem hidden_last {fds : List FieldDef} {fs : List Obj} (hn : fs.length = fds.length)
    (hs : ∀ (i : Nat) fd x, fds[i]? = some fd → fs[i]? = some x → fd.skip = true → x.isHidden = true)
    (ht : ∀ (i : Nat) fd x, fds[i]? = some fd → fs[i]? = some x → fd.skip = false → HasTy E fd.ty x)
    (hl : ∀ (i j : Nat) fd fd', fds[i]? = some fd → fds[j]? = some fd' → fd.skip = true →
      fd'.skip = false → j < i) :
    ∀ (i j : Nat) x y, fs[i]? = some x → fs[j]? = some y → x.isHidden = true → y.isHidden = false →
      j < i := by
  intro i j x y hi hj hx hy
  obtain ⟨hi', _⟩ := List.getElem?_eq_some_iff.mp hi
  obtain ⟨hj', _⟩ := List.getElem?_eq_some_iff.mp hj
  have hfi : fds[i]? = some fds[i] := List.getElem?_eq_getElem (by omega)
  have hfj : fds[j]? = some fds[j] := List.getElem?_eq_getElem (by omega)
  refine hl i j _ _ hfi hfj ?_ ?_
  · cases hk : (fds[i]).skip with
    | true => rfl
    | false => simp [(ht i _ x hfi hi hk).not_hidden] at hx
  · cases hk : (fds[j]).skip with
    | false => rfl
    | true => simp [hs j _ y hfj hj hk] at hy

/-- A value of a type is a value of the unboxed type. -/
theorem hasTy_unbox {t : Ty} {o : Obj} : HasTy E t.unbox o ↔ HasTy E t o := by
  induction t using Ty.unbox.induct with
  | case1 t ih =>
    rw [Ty.unbox, ih]
    exact ⟨.box _ _, fun h => by cases h; assumption⟩
  | case2 t h => rw [Ty.unbox]; exact h

/-- Values of an enum, case by case. -/
theorem enum_inv {n : String} {vds : List VariantDef} {c : Bool} {x : Obj}
    (hd : E.decl n = some ⟨.enum vds, c⟩) (h : HasTy E (.named n) x) :
    (∃ vn fds fs, VariantDef.struct vn fds ∈ vds ∧ x = .enumS (.derived n) vn fs ∧
      fs.map (·.1) = fds.map (·.name) ∧
      (∀ (i : Nat) fd p, fds[i]? = some fd → fs[i]? = some p → fd.skip = true → p.2.isHidden = true) ∧
      (∀ (i : Nat) fd p, fds[i]? = some fd → fs[i]? = some p → fd.skip = false → HasTy E fd.ty p.2)) ∨
    (∃ vn fds fs, VariantDef.tuple vn fds ∈ vds ∧ x = .enumT (.derived n) vn fs ∧
      fs.length = fds.length ∧
      (∀ (i : Nat) fd x, fds[i]? = some fd → fs[i]? = some x → fd.skip = true → x.isHidden = true) ∧
      (∀ (i : Nat) fd x, fds[i]? = some fd → fs[i]? = some x → fd.skip = false → HasTy E fd.ty x)) ∨
    (∃ vn, VariantDef.unit vn ∈ vds ∧ x = .enumU (.derived n) vn) := by
  cases h with
  | struct _ fds' _ _ hd' => rw [hd] at hd'; simp at hd'
  | tupleStruct _ fds' _ _ hd' => rw [hd] at hd'; simp at hd'
  | enumS _ vds' _ vn fds fs hd' hm h1 h2 h3 =>
    rw [hd] at hd'; cases hd'; exact .inl ⟨_, _, _, hm, rfl, h1, h2, h3⟩
  | enumT _ vds' _ vn fds fs hd' hm h1 h2 h3 =>
    rw [hd] at hd'; cases hd'; exact .inr (.inl ⟨_, _, _, hm, rfl, h1, h2, h3⟩)
  | enumU _ vds' _ vn hd' hm => rw [hd] at hd'; cases hd'; exact .inr (.inr ⟨_, hm, rfl⟩)

/-- What a described struct says about a name. -/
theorem namedType_iff {fds : List FieldDef} {names fields}
    (hnd : (fds.map (·.name)).Nodup)
    (hf : namedTypes names fields = (fds.filter fun fd => !fd.skip).map fun fd => (fd.name, some fd.ty.unbox))
    (hlen : fields.length = (fds.filter fun fd => !fd.skip).length) (hso : BMSorted strCmp fields)
    {n : String} {u : Ty} :
    namedType fields n = some u ↔ ∃ fd ∈ visDefs fds, fd.name = n ∧ fd.ty.unbox = u := by
  obtain ⟨_, h2⟩ := namedTypes_unique hnd hf hlen hso
  have hn' : (((visDefs fds).map fun fd => (fd.name, fd.ty.unbox)).map (·.1)).Nodup := by
    rw [List.map_map]
    exact ((List.filter_sublist (p := fun fd => !fd.skip) (l := fds)).map (·.name)).nodup hnd
  have hp := bmOfList_str_perm hn'
  rw [← h2] at hp
  rw [namedType, bmGet_iff strCmpOn (by simp) hso trivial]
  constructor
  · rintro ⟨k, hk, he⟩
    rw [strCmp_eq_iff] at he; subst he
    obtain ⟨fd, hfd, h⟩ := List.mem_map.mp (hp.mem_iff.mp hk)
    simp only [Prod.mk.injEq] at h
    exact ⟨fd, hfd, h.1, h.2⟩
  · rintro ⟨fd, hfd, rfl, rfl⟩
    exact ⟨fd.name, hp.mem_iff.mpr (List.mem_map.mpr ⟨fd, hfd, rfl⟩), (strCmp_eq_iff _ _).mpr rfl⟩

end Mirror
