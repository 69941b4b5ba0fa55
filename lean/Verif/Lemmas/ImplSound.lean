import Verif.Lemmas.ImplPatch
import Verif.Spec.ImplSound

/-!
# Lemmas: what is read or patched from a hand-written implementation keeps its type
-/

namespace Mirror

theorem seqAll_get {α : Type} {l : List (Option (Option α))} {xs : List α}
    (h : seqAll l = some (some xs)) :
    xs.length = l.length ∧ ∀ (i : Nat) q x, l[i]? = some q → xs[i]? = some x → q = some (some x) := by
  replace h := (seqAll_some _ _).mp h
  induction h with
  | nil => exact ⟨rfl, fun i q x hq => by simp at hq⟩
  | cons hq _ ih =>
    refine ⟨by simp [ih.1], fun i q x h1 h2 => ?_⟩
    cases i with
    | zero => simp at h1 h2; rw [← h1, ← h2]; exact hq
    | succ i => exact ih.2 i q x (by simpa using h1) (by simpa using h2)

theorem optAll_get {α : Type} {l : List (Option α)} {xs : List α} (h : optAll l = some xs) :
    xs.length = l.length ∧ ∀ (i : Nat) q x, l[i]? = some q → xs[i]? = some x → q = some x := by
  rw [optAll_eq_some] at h
  subst h
  refine ⟨by simp, fun i q x h1 h2 => ?_⟩
  rw [List.getElem?_map, h2] at h1
  simpa using h1.symm

section
variable {A : Type} {S : SrcImpl A} {E : Env}

theorem SrcImpl.Proper.down (hS : S.Proper E) (hO : OrdLaws E) {a : A} {t : Ty} {o : Obj}
    (h : S.down a t = some o) : HasTy E t o := by
  unfold SrcImpl.down at h
  split at h
  · next o' ho =>
    split at h
    · next ht => cases h; exact Obj.OK.isTy hO (hS.any a _ ho) ht
    · cases h
  · cases h

theorem SrcImpl.Proper.fieldFrom (hS : S.Proper E) (hO : OrdLaws E)
    {conv : Ty → A → Option (Option Obj)} (hc : ∀ t a y, conv t a = some (some y) → HasTy E t y)
    {c : Bool} {t : Ty} {v : A} {y : Obj} (h : S.fieldFrom conv c t v = some (some y)) : HasTy E t y := by
  unfold SrcImpl.fieldFrom at h
  split at h
  · exact hc _ _ _ h
  · split at h
    · next o ho => cases h; exact hS.down hO ho
    · exact hc _ _ _ h

theorem SrcImpl.Proper.namedFields (hS : S.Proper E) (hO : OrdLaws E)
    {conv : Ty → A → Option (Option Obj)} (hc : ∀ t a y, conv t a = some (some y) → HasTy E t y)
    {c : Bool} {field : String → Option A} {fds : List FieldDef} {fs : List (String × Obj)}
    (h : S.namedFields conv c field fds = some (some fs)) :
    fs.map (·.1) = fds.map (·.name) ∧
      (∀ (i : Nat) fd p, fds[i]? = some fd → fs[i]? = some p → fd.skip = true → p.2.isHidden = true) ∧
      (∀ (i : Nat) fd p, fds[i]? = some fd → fs[i]? = some p → fd.skip = false → HasTy E fd.ty p.2) := by
  obtain ⟨hl, hg⟩ := seqAll_get h
  rw [List.length_map] at hl
  have each : ∀ (i : Nat) fd p, fds[i]? = some fd → fs[i]? = some p →
      p.1 = fd.name ∧ (fd.skip = true → p.2.isHidden = true) ∧ (fd.skip = false → HasTy E fd.ty p.2) := by
    intro i fd p hfd hp
    have := hg i _ p (by rw [List.getElem?_map, hfd]; rfl) hp
    dsimp only at this
    split at this
    · next hs => cases this; exact ⟨rfl, fun _ => rfl, fun h => by rw [hs] at h; cases h⟩
    · next hs =>
      split at this
      · cases this
      · next v hv =>
        obtain ⟨q, hq, this⟩ := Option.map_eq_some_iff.mp this
        obtain ⟨y, rfl, rfl⟩ := Option.map_eq_some_iff.mp this
        exact ⟨rfl, fun h => absurd h hs, fun _ => hS.fieldFrom hO hc hq⟩
  refine ⟨?_, fun i fd p h1 h2 => (each i fd p h1 h2).2.1, fun i fd p h1 h2 => (each i fd p h1 h2).2.2⟩
  apply List.ext_getElem?
  intro i
  simp only [List.getElem?_map]
  cases hfd : fds[i]? with
  | none =>
    have : fs[i]? = none := by rw [List.getElem?_eq_none_iff] at hfd ⊢; omega
    simp [this]
  | some fd =>
    obtain ⟨p, hp⟩ := align_pos hl.symm hfd
    simp [hp, (each i fd p hfd hp).1]

theorem SrcImpl.Proper.posFields (hS : S.Proper E) (hO : OrdLaws E)
    {conv : Ty → A → Option (Option Obj)} (hc : ∀ t a y, conv t a = some (some y) → HasTy E t y)
    {c : Bool} {fieldAt : Nat → Option A} {fds : List FieldDef} {fs : List Obj}
    (h : S.posFields conv c fieldAt fds = some (some fs)) :
    fs.length = fds.length ∧
      (∀ (i : Nat) fd p, fds[i]? = some fd → fs[i]? = some p → fd.skip = true → p.isHidden = true) ∧
      (∀ (i : Nat) fd p, fds[i]? = some fd → fs[i]? = some p → fd.skip = false → HasTy E fd.ty p) := by
  obtain ⟨hl, hg⟩ := seqAll_get h
  rw [List.length_mapIdx] at hl
  have each : ∀ (i : Nat) fd p, fds[i]? = some fd → fs[i]? = some p →
      (fd.skip = true → p.isHidden = true) ∧ (fd.skip = false → HasTy E fd.ty p) := by
    intro i fd p hfd hp
    have := hg i _ p (by rw [List.getElem?_mapIdx, hfd]; rfl) hp
    dsimp only at this
    split at this
    · next hs => cases this; exact ⟨fun _ => rfl, fun h => by rw [hs] at h; cases h⟩
    · next hs =>
      split at this
      · cases this
      · exact ⟨fun h => absurd h hs, fun _ => hS.fieldFrom hO hc this⟩
  exact ⟨hl, fun i fd p h1 h2 => (each i fd p h1 h2).1, fun i fd p h1 h2 => (each i fd p h1 h2).2⟩

theorem listFrom_all {conv : A → Option (Option Obj)} {P : Obj → Prop}
    (hc : ∀ a y, conv a = some (some y) → P y) {get : Nat → Option A} {n : Nat} {ys : List Obj}
    (h : listFrom conv get n = some (some ys)) : ∀ y ∈ ys, P y := by
  intro y hy
  obtain ⟨i, hi⟩ := List.getElem?_of_mem hy
  have := (collectLoop_some _ n 0 ys h).2 i y hi
  obtain ⟨a, _, ha⟩ := Option.map_eq_some_iff.mp this
  exact hc a y ha

theorem entriesFrom_all {ck cv : A → Option (Option Obj)} {P Q : Obj → Prop}
    (hk : ∀ a y, ck a = some (some y) → P y) (hv : ∀ a y, cv a = some (some y) → Q y)
    {entries : Nat → Option (A × A)} {n : Nat} {ys : List (Obj × Obj)}
    (h : entriesFrom ck cv entries n = some (some ys)) : ∀ p ∈ ys, P p.1 ∧ Q p.2 := by
  intro y hy
  obtain ⟨i, hi⟩ := List.getElem?_of_mem hy
  have := (collectLoop_some _ n 0 ys h).2 i y hi
  obtain ⟨a, _, ha⟩ := Option.map_eq_some_iff.mp this
  split at ha
  · cases ha
  · cases ha
  · next k hk' =>
    obtain ⟨q, hq, ha⟩ := Option.map_eq_some_iff.mp ha
    obtain ⟨v, rfl, rfl⟩ := Option.map_eq_some_iff.mp ha
    exact ⟨hk _ _ hk', hv _ _ hq⟩

/-- Whatever `from_reflect` returns is a value of the target type, whoever implemented the source. -/
theorem SrcImpl.from_sound (hO : OrdLaws E) (hS : S.Proper E) (n : Nat) :
    ∀ t a y, S.from E n t a = some (some y) → HasTy E t y := by
  induction n with
  | zero => intro t a y h; cases h
  | succ n ih =>
    intro t a y h
    cases t with
    | scalar k =>
      simp only [SrcImpl.from, Option.some.injEq] at h
      exact hS.down hO h
    | nonzero k =>
      simp only [SrcImpl.from] at h
      split at h
      · next o ho => cases h; exact hS.down hO ho
      · split at h
        · simp only [Option.some.injEq] at h
          split at h
          · next hne => cases h; exact .nonzero k _ hne
          · cases h
        · cases h
    | named m =>
      simp only [SrcImpl.from] at h
      split at h
      · next fds c hd =>
        split at h
        · obtain ⟨q, hq, h⟩ := Option.map_eq_some_iff.mp h
          obtain ⟨fs, rfl, rfl⟩ := Option.map_eq_some_iff.mp h
          obtain ⟨h1, h2, h3⟩ := hS.namedFields hO ih hq
          exact .struct m fds c fs hd h1 h2 h3
        · cases h
      · next fds c hd =>
        split at h
        · obtain ⟨q, hq, h⟩ := Option.map_eq_some_iff.mp h
          obtain ⟨fs, rfl, rfl⟩ := Option.map_eq_some_iff.mp h
          obtain ⟨h1, h2, h3⟩ := hS.posFields hO ih hq
          exact .tupleStruct m fds c fs hd h1 h2 h3
        · cases h
      · next vds c hd =>
        split at h
        · split at h
          · cases h
          · next vn fds hvd =>
            obtain ⟨q, hq, h⟩ := Option.map_eq_some_iff.mp h
            obtain ⟨fs, rfl, rfl⟩ := Option.map_eq_some_iff.mp h
            obtain ⟨h1, h2, h3⟩ := hS.namedFields hO ih hq
            exact .enumS m vds c vn fds fs hd (List.mem_of_find?_eq_some hvd) h1 h2 h3
          · next vn fds hvd =>
            obtain ⟨q, hq, h⟩ := Option.map_eq_some_iff.mp h
            obtain ⟨fs, rfl, rfl⟩ := Option.map_eq_some_iff.mp h
            obtain ⟨h1, h2, h3⟩ := hS.posFields hO ih hq
            exact .enumT m vds c vn fds fs hd (List.mem_of_find?_eq_some hvd) h1 h2 h3
          · next vn hvd => cases h; exact .enumU m vds c vn hd (List.mem_of_find?_eq_some hvd)
        · cases h
      · cases h
    | tuple ts =>
      simp only [SrcImpl.from] at h
      split at h
      · obtain ⟨q, hq, h⟩ := Option.map_eq_some_iff.mp h
        obtain ⟨fs, rfl, rfl⟩ := Option.map_eq_some_iff.mp h
        obtain ⟨hl, hg⟩ := seqAll_get hq
        rw [List.length_mapIdx] at hl
        refine .tuple ts fs hl fun i t x ht hx => ?_
        have := hg i _ x (by rw [List.getElem?_mapIdx, ht]; rfl) hx
        dsimp only at this
        split at this
        · cases this
        · exact ih _ _ _ this
      · cases h
    | vec t =>
      simp only [SrcImpl.from] at h
      split at h
      · obtain ⟨q, hq, h⟩ := Option.map_eq_some_iff.mp h
        obtain ⟨ys, rfl, rfl⟩ := Option.map_eq_some_iff.mp h
        exact .vec t ys (listFrom_all (ih t) hq)
      · cases h
    | array t len =>
      simp only [SrcImpl.from] at h
      split at h
      · obtain ⟨q, hq, h⟩ := Option.map_eq_some_iff.mp h
        split at h
        · next ys =>
          split at h
          · next hlen => cases h; subst hlen; exact .array t ys (listFrom_all (ih t) hq)
          · cases h
        · cases h
      · cases h
    | map kt vt =>
      simp only [SrcImpl.from] at h
      split at h
      · obtain ⟨q, hq, h⟩ := Option.map_eq_some_iff.mp h
        obtain ⟨ys, rfl, rfl⟩ := Option.map_eq_some_iff.mp h
        have hall := entriesFrom_all (ih kt) (ih vt) hq
        exact .map kt vt _ (bmOfList_sorted (hO.cmpOn kt) fun p hp => (hall p hp).1)
          (bmOfList_keys (hO.cmpOn kt) fun p hp => (hall p hp).1)
          (bmOfList_vals fun p hp => (hall p hp).2)
      · cases h
    | box t => exact .box t y (ih t a y (by simpa only [SrcImpl.from] using h))
    | value =>
      simp only [SrcImpl.from, Option.some.injEq] at h
      subst h
      exact .value _ _ (hS.toValue a) rfl
    | structValue =>
      simp only [SrcImpl.from] at h
      split at h
      · obtain ⟨q, hq, h⟩ := Option.map_eq_some_iff.mp h
        obtain ⟨l, rfl, rfl⟩ := Option.map_eq_some_iff.mp h
        refine .structValue _ _ _ ?_ rfl
        rw [svOfList_eq]
        apply svWF
        intro p hp
        obtain ⟨q, _, rfl⟩ := List.mem_map.mp hp
        exact hS.toValue _
      · cases h
    | tupleStructValue =>
      simp only [SrcImpl.from] at h
      split at h
      · obtain ⟨q, hq, h⟩ := Option.map_eq_some_iff.mp h
        obtain ⟨l, rfl, rfl⟩ := Option.map_eq_some_iff.mp h
        refine .tupleStructValue _ _ (.tupleStruct _ fun p hp => ?_) rfl
        obtain ⟨q, _, rfl⟩ := List.mem_map.mp hp
        exact hS.toValue _
      · cases h
    | tupleValue =>
      simp only [SrcImpl.from] at h
      split at h
      · obtain ⟨q, hq, h⟩ := Option.map_eq_some_iff.mp h
        obtain ⟨l, rfl, rfl⟩ := Option.map_eq_some_iff.mp h
        refine .tupleValue _ _ (.tuple _ fun p hp => ?_) rfl
        obtain ⟨q, _, rfl⟩ := List.mem_map.mp hp
        exact hS.toValue _
      · cases h
    | enumValue =>
      simp only [SrcImpl.from] at h
      split at h
      · obtain ⟨q, hq, h⟩ := Option.map_eq_some_iff.mp h
        obtain ⟨l, rfl, rfl⟩ := Option.map_eq_some_iff.mp h
        refine .enumValueS _ _ _ _ ?_ rfl
        rw [svOfList_eq]
        apply evWF
        intro p hp
        obtain ⟨q, _, rfl⟩ := List.mem_map.mp hp
        exact hS.toValue _
      · obtain ⟨q, hq, h⟩ := Option.map_eq_some_iff.mp h
        obtain ⟨l, rfl, rfl⟩ := Option.map_eq_some_iff.mp h
        refine .enumValueT _ _ _ (.enumT _ _ fun p hp => ?_) rfl
        obtain ⟨q, _, rfl⟩ := List.mem_map.mp hp
        exact hS.toValue _
      · cases h
        exact .enumValueU _ _ rfl
      · cases h

/-! ## `patch` -/

/-- What becomes of a part: it stays, or it is patched with something. -/
def StaysOr (pat : Obj → A → Option Obj) (x y : Obj) : Prop :=
  y = x ∨ x.isHidden = false ∧ ∃ w, pat x w = some y

theorem patchNamedA_kept {pat : Obj → A → Option Obj} {field : String → Option A}
    {fs gs : List (String × Obj)} (h : patchNamedA pat field fs = some gs) :
    gs.map (·.1) = fs.map (·.1) ∧
      ∀ (i : Nat) p q, fs[i]? = some p → gs[i]? = some q → StaysOr pat p.2 q.2 := by
  obtain ⟨hl, hg⟩ := optAll_get h
  rw [List.length_map] at hl
  have each : ∀ (i : Nat) p q, fs[i]? = some p → gs[i]? = some q → q.1 = p.1 ∧ StaysOr pat p.2 q.2 := by
    intro i p q hp hq
    have := hg i _ q (by rw [List.getElem?_map, hp]; rfl) hq
    dsimp only at this
    split at this
    · cases this; exact ⟨rfl, .inl rfl⟩
    · next hh =>
      split at this
      · cases this; exact ⟨rfl, .inl rfl⟩
      · next w _ =>
        obtain ⟨y, hy, rfl⟩ := Option.map_eq_some_iff.mp this
        exact ⟨rfl, .inr ⟨by simpa using hh, w, hy⟩⟩
  refine ⟨?_, fun i p q hp hq => (each i p q hp hq).2⟩
  apply List.ext_getElem?
  intro i
  simp only [List.getElem?_map]
  cases hp : fs[i]? with
  | none =>
    have : gs[i]? = none := by rw [List.getElem?_eq_none_iff] at hp ⊢; omega
    simp [this]
  | some p =>
    obtain ⟨q, hq⟩ := align_pos hl.symm hp
    simp [hq, (each i p q hp hq).1]

theorem patchPosA_kept {pat : Obj → A → Option Obj} {get : Nat → Option A} {fs gs : List Obj}
    (h : patchPosA pat get fs = some gs) :
    gs.length = fs.length ∧ ∀ (i : Nat) x y, fs[i]? = some x → gs[i]? = some y → StaysOr pat x y := by
  obtain ⟨hl, hg⟩ := optAll_get h
  rw [List.length_mapIdx] at hl
  refine ⟨hl, fun i x y hx hy => ?_⟩
  have := hg i _ y (by rw [List.getElem?_mapIdx, hx]; rfl) hy
  dsimp only at this
  split at this
  · cases this; exact .inl rfl
  · next hh =>
    split at this
    · cases this; exact .inl rfl
    · next w _ => exact .inr ⟨by simpa using hh, w, this⟩

theorem patchLoop_kept {pat : Obj → A → Option Obj} {get : Nat → Option A} {Q : Obj → Prop}
    (hQ : ∀ x w y, Q x → pat x w = some y → Q y) {n i : Nat} {xs ys : List Obj}
    (h : patchLoop pat get n i xs = some ys) (hx : ∀ x ∈ xs, Q x) :
    ys.length = xs.length ∧ ∀ y ∈ ys, Q y := by
  obtain ⟨k, _, _, _, hl, hp⟩ := patchLoop_some n i xs ys h
  refine ⟨hl, fun y hy => ?_⟩
  obtain ⟨j, hj⟩ := List.getElem?_of_mem hy
  obtain ⟨x, hxj⟩ := align_pos hl.symm.symm hj
  have := hp j x y hxj hj
  unfold PatchedTo at this
  split at this
  · obtain ⟨w, _, hw⟩ := this
    exact hQ x w y (hx x (List.mem_of_getElem? hxj)) hw
  · rw [this]; exact hx x (List.mem_of_getElem? hxj)

theorem patchMapLoop_kept {cmp : Obj → Obj → Ordering} {conv : A → Option (Option Obj)}
    {pat : Obj → A → Option Obj} {entries : Nat → Option (A × A)} {Q : Obj → Prop}
    (hQ : ∀ x w y, Q x → pat x w = some y → Q y) (n i : Nat) (m m' : List (Obj × Obj))
    (h : patchMapLoop cmp conv pat entries n i m = some m') (hm : ∀ p ∈ m, Q p.2) :
    m'.map (·.1) = m.map (·.1) ∧ ∀ p ∈ m', Q p.2 := by
  induction n generalizing i m with
  | zero => cases h
  | succ n ih =>
    simp only [patchMapLoop] at h
    split at h
    · cases h; exact ⟨rfl, hm⟩
    · split at h
      · cases h
      · exact ih _ _ h hm
      · next k _ =>
        split at h
        · exact ih _ _ h hm
        · next y hy =>
          obtain ⟨y', hy', h⟩ := Option.bind_eq_some_iff.mp h
          have hq : Q y' := by
            obtain ⟨k', hmem, _⟩ := bmGet_mem hy
            exact hQ _ _ _ (hm _ hmem) hy'
          have := ih _ _ h fun p hp => by
            rcases bmModify_mem hp with hp | ⟨v, _, he, _⟩
            · exact hm p hp
            · rw [he]; exact hq
          exact ⟨this.1.trans (bmModify_keys ..), this.2⟩

/-- Patching preserves the type of the patched value, whoever implemented the patch. -/
theorem SrcImpl.patch_sound (hO : OrdLaws E) (hS : S.Proper E) (n : Nat) :
    ∀ {t x} (a : A) (y : Obj), HasTy E t x → S.patch E n x a = some y → HasTy E t y := by
  induction n with
  | zero => intro t x a y _ h; cases h
  | succ n ih =>
    have pres : ∀ t x w y, HasTy E t x → S.patch E n x w = some y → HasTy E t y :=
      fun t x w y => ih w y
    have kept : ∀ t x y, HasTy E t x → StaysOr (S.patch E n) x y → HasTy E t y := by
      rintro t x y hx (rfl | ⟨_, w, hw⟩)
      · exact hx
      · exact ih w y hx hw
    have hid : ∀ x y : Obj, x.isHidden = true → StaysOr (S.patch E n) x y → y.isHidden = true := by
      rintro x y hx (rfl | ⟨h, _⟩)
      · exact hx
      · rw [hx] at h; cases h
    have named : ∀ {field : String → Option A} {fds : List FieldDef} {fs gs : List (String × Obj)},
        patchNamedA (S.patch E n) field fs = some gs →
        fs.map (·.1) = fds.map (·.name) →
        (∀ (i : Nat) fd p, fds[i]? = some fd → fs[i]? = some p → fd.skip = true →
          p.2.isHidden = true) →
        (∀ (i : Nat) fd p, fds[i]? = some fd → fs[i]? = some p → fd.skip = false →
          HasTy E fd.ty p.2) →
        gs.map (·.1) = fds.map (·.name) ∧
        (∀ (i : Nat) fd p, fds[i]? = some fd → gs[i]? = some p → fd.skip = true →
          p.2.isHidden = true) ∧
        (∀ (i : Nat) fd p, fds[i]? = some fd → gs[i]? = some p → fd.skip = false →
          HasTy E fd.ty p.2) := by
      intro field fds fs gs h h2 h3 h4
      obtain ⟨hk, hg⟩ := patchNamedA_kept h
      have hl : gs.length = fs.length := by simpa using congrArg List.length hk
      refine ⟨hk.trans h2, fun i fd p hfd hp hs => ?_, fun i fd p hfd hp hs => ?_⟩
      · obtain ⟨q, hq⟩ := align_pos hl hp
        exact hid _ _ (h3 i fd q hfd hq hs) (hg i q p hq hp)
      · obtain ⟨q, hq⟩ := align_pos hl hp
        exact kept _ _ _ (h4 i fd q hfd hq hs) (hg i q p hq hp)
    have pos : ∀ {get : Nat → Option A} {fds : List FieldDef} {fs gs : List Obj},
        patchPosA (S.patch E n) get fs = some gs →
        fs.length = fds.length →
        (∀ (i : Nat) fd p, fds[i]? = some fd → fs[i]? = some p → fd.skip = true →
          p.isHidden = true) →
        (∀ (i : Nat) fd p, fds[i]? = some fd → fs[i]? = some p → fd.skip = false →
          HasTy E fd.ty p) →
        gs.length = fds.length ∧
        (∀ (i : Nat) fd p, fds[i]? = some fd → gs[i]? = some p → fd.skip = true →
          p.isHidden = true) ∧
        (∀ (i : Nat) fd p, fds[i]? = some fd → gs[i]? = some p → fd.skip = false →
          HasTy E fd.ty p) := by
      intro get fds fs gs h h2 h3 h4
      obtain ⟨hl, hg⟩ := patchPosA_kept h
      refine ⟨hl.trans h2, fun i fd p hfd hp hs => ?_, fun i fd p hfd hp hs => ?_⟩
      · obtain ⟨q, hq⟩ := align_pos hl hp
        exact hid _ _ (h3 i fd q hfd hq hs) (hg i q p hq hp)
      · obtain ⟨q, hq⟩ := align_pos hl hp
        exact kept _ _ _ (h4 i fd q hfd hq hs) (hg i q p hq hp)
    -- dynamic parts
    have dynNamed : ∀ {field : String → Option A} {fs : List (String × Value)} {gs : List (String × Obj)},
        patchNamedA (S.patch E n) field (fs.map fun p => (p.1, p.2.toObj)) = some gs →
        (∀ p ∈ fs, p.2.WF) → BMSorted strCmp fs →
        ∃ fs' : List (String × Value), gs = fs'.map (fun p => (p.1, p.2.toObj)) ∧
          (∀ p ∈ fs', p.2.WF) ∧ fs'.map (·.1) = fs.map (·.1) ∧ BMSorted strCmp fs' := by
      intro field fs gs h hw hs
      obtain ⟨hk, hg⟩ := patchNamedA_kept h
      have hl : gs.length = (fs.map fun p => (p.1, p.2.toObj)).length := by
        simpa using congrArg List.length hk
      obtain ⟨fs', hw', he⟩ := fields_of_values (xs := gs) (by
          intro p hp
          obtain ⟨i, hi⟩ := List.getElem?_of_mem hp
          obtain ⟨q, hq⟩ := align_pos hl hi
          have hkq := hg i q p hq hi
          obtain ⟨r, hr, rfl⟩ := getElem?_map_some hq
          exact (kept .value _ _ (.value _ _ (hw r (List.mem_of_getElem? hr)) rfl) hkq).value_inv)
      have hk' : fs'.map (·.1) = fs.map (·.1) := by
        rw [he] at hk
        simpa [Function.comp_def] using hk
      exact ⟨fs', he, hw', hk', sorted_of_keys_eq hk' hs⟩
    have dynPos : ∀ {get : Nat → Option A} {fs : List Value} {gs : List Obj},
        patchPosA (S.patch E n) get (fs.map fun x => x.toObj) = some gs → (∀ x ∈ fs, x.WF) →
        ∃ fs' : List Value, gs = fs'.map (fun x => x.toObj) ∧ (∀ x ∈ fs', x.WF) := by
      intro get fs gs h hw
      obtain ⟨hl, hg⟩ := patchPosA_kept h
      obtain ⟨fs', hw', he⟩ := list_of_values (xs := gs) (by
        intro x hx
        obtain ⟨i, hi⟩ := List.getElem?_of_mem hx
        obtain ⟨q, hq⟩ := align_pos hl hi
        have hkq := hg i q x hq hi
        obtain ⟨r, hr, rfl⟩ := getElem?_map_some hq
        exact (kept .value _ _ (.value _ _ (hw r (List.mem_of_getElem? hr)) rfl) hkq).value_inv)
      exact ⟨fs', he, hw'⟩
    have dStruct : ∀ {ns fs a y}, (Value.struct ns fs).WF →
        S.patch E (n + 1) (Value.struct ns fs).toObj a = some y → HasTy E .structValue y := by
      intro ns fs a y h hp
      rw [Value.toObj] at hp
      simp only [SrcImpl.patch] at hp
      split at hp
      · obtain ⟨gs, hgs, rfl⟩ := Option.map_eq_some_iff.mp hp
        cases h with
        | struct _ _ h1 h2 h3 =>
          obtain ⟨fs', he, hw, hk, hs⟩ := dynNamed hgs h3 h2
          rw [he]
          exact .structValue ns fs' _ (.struct _ _ (by rw [hk]; exact h1) hs hw) (by rw [Value.toObj])
      · cases hp; exact .structValue ns fs _ h (by rw [Value.toObj])
    have dTS : ∀ {fs a y}, (Value.tupleStruct fs).WF →
        S.patch E (n + 1) (Value.tupleStruct fs).toObj a = some y → HasTy E .tupleStructValue y := by
      intro fs a y h hp
      rw [Value.toObj] at hp
      simp only [SrcImpl.patch] at hp
      split at hp
      · obtain ⟨gs, hgs, rfl⟩ := Option.map_eq_some_iff.mp hp
        cases h with
        | tupleStruct _ h =>
          obtain ⟨fs', he, hw⟩ := dynPos hgs h
          rw [he]
          exact .tupleStructValue fs' _ (.tupleStruct _ hw) (by rw [Value.toObj])
      · cases hp; exact .tupleStructValue fs _ h (by rw [Value.toObj])
    have dT : ∀ {fs a y}, (Value.tuple fs).WF →
        S.patch E (n + 1) (Value.tuple fs).toObj a = some y → HasTy E .tupleValue y := by
      intro fs a y h hp
      rw [Value.toObj] at hp
      simp only [SrcImpl.patch] at hp
      split at hp
      · obtain ⟨gs, hgs, rfl⟩ := Option.map_eq_some_iff.mp hp
        cases h with
        | tuple _ h =>
          obtain ⟨fs', he, hw⟩ := dynPos hgs h
          rw [he]
          exact .tupleValue fs' _ (.tuple _ hw) (by rw [Value.toObj])
      · cases hp; exact .tupleValue fs _ h (by rw [Value.toObj])
    have getD : ∀ {t : Ty} {x y : Obj} {a : A}, HasTy E t x →
        (S.from E n t a).map (·.getD x) = some y → HasTy E t y := by
      intro t x y a h hy
      obtain ⟨q, hq, rfl⟩ := Option.map_eq_some_iff.mp hy
      cases q with
      | none => exact h
      | some z => exact S.from_sound hO hS n t a z hq
    have dynE : ∀ {x y : Obj} {a : A}, x.kind = .enum → x.typeOf = some .enumValue →
        HasTy E .enumValue x →
        (∀ (field : String → Option A) get z, patchVariantA (S.patch E n) field get x = some z →
          HasTy E .enumValue z) →
        S.patch E (n + 1) x a = some y → HasTy E .enumValue y := by
      intro x y a hk ht hx hz hp
      rw [S.patch_dynamic E n hk ht] at hp
      unfold SrcImpl.patchDynamic at hp
      split at hp
      · split at hp
        · exact hz _ _ _ hp
        · exact getD hx hp
      · cases hp; exact hx
    have dE : ∀ {x y : Obj} {a : A}, HasTy E .enumValue x → S.patch E (n + 1) x a = some y →
        HasTy E .enumValue y := by
      intro x y a h hp
      have hx := h
      cases h with
      | enumValueS vn ns fs _ h ho =>
        subst ho
        refine dynE (by simp [Value.toObj, Obj.kind]) (by simp [Value.toObj, Obj.typeOf]) hx
          (fun field get z hz => ?_) hp
        rw [Value.toObj] at hz
        simp only [patchVariantA] at hz
        obtain ⟨gs, hgs, rfl⟩ := Option.map_eq_some_iff.mp hz
        cases h with
        | enumS _ _ _ h1 h2 h3 =>
          obtain ⟨fs', he, hw, hk, hs⟩ := dynNamed hgs h3 h2
          rw [he]
          exact .enumValueS vn ns fs' _ (.enumS _ _ _ (by rw [hk]; exact h1) hs hw)
            (by rw [Value.toObj])
      | enumValueT vn fs _ h ho =>
        subst ho
        refine dynE (by simp [Value.toObj, Obj.kind]) (by simp [Value.toObj, Obj.typeOf]) hx
          (fun field get z hz => ?_) hp
        rw [Value.toObj] at hz
        simp only [patchVariantA] at hz
        obtain ⟨gs, hgs, rfl⟩ := Option.map_eq_some_iff.mp hz
        cases h with
        | enumT _ _ h =>
          obtain ⟨fs', he, hw⟩ := dynPos hgs h
          rw [he]
          exact .enumValueT vn fs' _ (.enumT _ _ hw) (by rw [Value.toObj])
      | enumValueU vn _ ho =>
        subst ho
        refine dynE (by simp [Value.toObj, Obj.kind]) (by simp [Value.toObj, Obj.typeOf]) hx
          (fun field get z hz => ?_) hp
        rw [Value.toObj] at hz
        simp only [patchVariantA, Option.some.injEq] at hz
        subst hz
        exact .enumValueU vn _ (by rw [Value.toObj])
    have dMap : ∀ {kt vt kvs a y}, BMSorted (E.kcmp kt) kvs → (∀ p ∈ kvs, HasTy E kt p.1) →
        (∀ p ∈ kvs, HasTy E vt p.2) → S.patch E (n + 1) (.map kt vt kvs) a = some y →
        HasTy E (.map kt vt) y := by
      intro kt vt kvs a y h1 h2 h3 hp
      simp only [SrcImpl.patch] at hp
      split at hp
      · obtain ⟨m, hm, rfl⟩ := Option.map_eq_some_iff.mp hp
        obtain ⟨hk, hq⟩ := patchMapLoop_kept (Q := HasTy E vt) (pres vt) n 0 kvs m hm h3
        refine .map kt vt _ (sorted_of_keys_eq hk h1) (fun p hp => ?_) hq
        have : p.1 ∈ m.map (·.1) := List.mem_map_of_mem hp
        rw [hk] at this
        obtain ⟨q, hq, he⟩ := List.mem_map.mp this
        rw [← he]; exact h2 q hq
      · cases hp; exact .map kt vt kvs h1 h2 h3
    have enumD : ∀ {m x y} {a : A}, x.kind = .enum → x.typeOf = some (.named m) → HasTy E (.named m) x →
        (∀ (field : String → Option A) get z, patchVariantA (S.patch E n) field get x = some z →
          HasTy E (.named m) z) →
        S.patch E (n + 1) x a = some y → HasTy E (.named m) y := by
      intro m x y a hk ht hx hz hp
      rw [S.patch_derived E n hk ht] at hp
      unfold SrcImpl.patchDerived at hp
      split at hp
      · next o ho =>
        cases hp
        split at ho
        · cases ho
        · exact hS.down hO ho
      · unfold SrcImpl.patchRest at hp
        split at hp
        · split at hp
          · cases hp
          · next z hz' => cases hp; exact S.from_sound hO hS n _ _ _ hz'
          · split at hp
            · exact hz _ _ _ hp
            · cases hp; exact hx
        · cases hp; exact hx
    intro t x a y h hp
    induction h generalizing y with
    | scalar s =>
      simp only [SrcImpl.patch, Option.some.injEq] at hp
      cases hd : S.down a (.scalar s.kind) with
      | none => rw [hd] at hp; subst hp; exact .scalar s
      | some o => rw [hd] at hp; subst hp; exact hS.down hO hd
    | nonzero k m h =>
      simp only [SrcImpl.patch] at hp
      exact getD (.nonzero k m h) hp
    | struct m fds c fs hd h2 h3 h4 _ =>
      simp only [SrcImpl.patch] at hp
      split at hp
      · obtain ⟨gs, hgs, rfl⟩ := Option.map_eq_some_iff.mp hp
        obtain ⟨a, b, d⟩ := named hgs h2 h3 h4
        exact .struct m fds c _ hd a b d
      · cases hp; exact .struct m fds c fs hd h2 h3 h4
    | tupleStruct m fds c fs hd h2 h3 h4 _ =>
      simp only [SrcImpl.patch] at hp
      split at hp
      · obtain ⟨gs, hgs, rfl⟩ := Option.map_eq_some_iff.mp hp
        obtain ⟨a, b, d⟩ := pos hgs h2 h3 h4
        exact .tupleStruct m fds c _ hd a b d
      · cases hp; exact .tupleStruct m fds c fs hd h2 h3 h4
    | enumS m vds c vn fds fs hd hvd h2 h3 h4 _ =>
      refine enumD rfl rfl (.enumS m vds c vn fds fs hd hvd h2 h3 h4) (fun field get z hz => ?_) hp
      simp only [patchVariantA] at hz
      obtain ⟨gs, hgs, rfl⟩ := Option.map_eq_some_iff.mp hz
      obtain ⟨a, b, d⟩ := named hgs h2 h3 h4
      exact .enumS m vds c vn fds _ hd hvd a b d
    | enumT m vds c vn fds fs hd hvd h2 h3 h4 _ =>
      refine enumD rfl rfl (.enumT m vds c vn fds fs hd hvd h2 h3 h4) (fun field get z hz => ?_) hp
      simp only [patchVariantA] at hz
      obtain ⟨gs, hgs, rfl⟩ := Option.map_eq_some_iff.mp hz
      obtain ⟨a, b, d⟩ := pos hgs h2 h3 h4
      exact .enumT m vds c vn fds _ hd hvd a b d
    | enumU m vds c vn hd hvd =>
      refine enumD rfl rfl (.enumU m vds c vn hd hvd) (fun field get z hz => ?_) hp
      simp only [patchVariantA, Option.some.injEq] at hz
      subst hz
      exact .enumU m vds c vn hd hvd
    | tuple ts fs hl h _ =>
      simp only [SrcImpl.patch] at hp
      split at hp
      · obtain ⟨gs, hgs, rfl⟩ := Option.map_eq_some_iff.mp hp
        obtain ⟨hl', hg⟩ := patchPosA_kept hgs
        refine .tuple ts _ (hl'.trans hl) fun i t x ht hx => ?_
        obtain ⟨q, hq⟩ := align_pos hl' hx
        exact kept t _ _ (h i t q ht hq) (hg i q x hq hx)
      · cases hp; exact .tuple ts fs hl h
    | vec t xs h _ =>
      simp only [SrcImpl.patch] at hp
      split at hp
      · obtain ⟨ys, hys, rfl⟩ := Option.map_eq_some_iff.mp hp
        exact .vec t _ (patchLoop_kept (Q := HasTy E t) (pres t) hys h).2
      · cases hp; exact .vec t xs h
    | array t xs h _ =>
      simp only [SrcImpl.patch] at hp
      split at hp
      · obtain ⟨ys, hys, rfl⟩ := Option.map_eq_some_iff.mp hp
        obtain ⟨hl, hall⟩ := patchLoop_kept (Q := HasTy E t) (pres t) hys h
        rw [← hl]
        exact .array t _ hall
      · cases hp; exact .array t xs h
    | map kt vt kvs h1 h2 h3 _ _ => exact dMap h1 h2 h3 hp
    | box t o _ ih => exact .box t _ (ih y hp)
    | value v o h ho =>
      subst ho
      cases v with
      | scalar s =>
        rw [Value.toObj] at hp
        simp only [SrcImpl.patch, Option.some.injEq] at hp
        cases hd : S.down a (.scalar s.kind) with
        | none => rw [hd] at hp; subst hp; exact .value (.scalar s) _ h (by rw [Value.toObj]; rfl)
        | some o =>
          rw [hd] at hp; subst hp
          have := hS.down hO hd
          generalize s.kind = k at this
          cases this with
          | scalar s' => exact .value (.scalar s') _ (.scalar s') (by rw [Value.toObj]; rfl)
      | struct ns fs =>
        cases dStruct h hp with | structValue ns' fs' _ h' ho' => exact .value _ _ h' ho'
      | tupleStruct fs =>
        cases dTS h hp with | tupleStructValue fs' _ h' ho' => exact .value _ _ h' ho'
      | tuple fs =>
        cases dT h hp with | tupleValue fs' _ h' ho' => exact .value _ _ h' ho'
      | enumS vn ns fs => exact (dE (.enumValueS vn ns fs _ h rfl) hp).of_enumValue
      | enumT vn fs => exact (dE (.enumValueT vn fs _ h rfl) hp).of_enumValue
      | enumU vn => exact (dE (.enumValueU vn _ rfl) hp).of_enumValue
      | list xs =>
        rw [Value.toObj] at hp
        simp only [SrcImpl.patch] at hp
        split at hp
        · obtain ⟨ys, hys, rfl⟩ := Option.map_eq_some_iff.mp hp
          cases h with
          | list _ h =>
            have := (patchLoop_kept (Q := HasTy E .value) (pres .value) hys (by
              intro x hx
              obtain ⟨z, hz, rfl⟩ := List.mem_map.mp hx
              exact .value _ _ (h z hz) rfl)).2
            obtain ⟨fs', hw, he⟩ := list_of_values (xs := ys) fun x hx => (this x hx).value_inv
            rw [he]
            exact .value (.list fs') _ (.list _ hw) (by rw [Value.toObj])
        · cases hp; exact .value (.list xs) _ h (by rw [Value.toObj])
      | map kvs =>
        cases h with
        | map _ h1 h2 h3 =>
          have hm := valueMap_hasTy hO h1 h2 h3
          rw [Value.toObj] at hm hp
          cases hm with
          | map _ _ _ a b c =>
            obtain ⟨kvs', hw, ho⟩ := (dMap a b c hp).map_value_inv hO
            exact .value _ _ hw ho
    | structValue ns fs o h ho => subst ho; exact dStruct h hp
    | tupleStructValue fs o h ho => subst ho; exact dTS h hp
    | tupleValue fs o h ho => subst ho; exact dT h hp
    | enumValueS a ns fs o h ho => exact dE (.enumValueS a ns fs o h ho) hp
    | enumValueT a fs o h ho => exact dE (.enumValueT a fs o h ho) hp
    | enumValueU a o ho => exact dE (.enumValueU a o ho) hp

end

end Mirror
