import Verif.Spec.SpeedyExact
import Verif.Lemmas.SpeedyLe
import Verif.Lemmas.SerdeExact
import Mathlib.Data.List.Forall2

set_option linter.unusedSimpArgs false

/-!
# Lemmas on which bytes are read
-/

namespace Mirror

/-! ## Collecting -/

section
variable {κ α : Type} {cmp : κ → κ → Ordering}

theorem bmPut_mem_iff (hc : CmpOn (fun _ : κ => True) cmp) {k : κ} {v : α} {l : List (κ × α)}
    (hs : BMSorted cmp l) (p : κ × α) :
    p ∈ bmPut cmp k v l ↔ p = (k, v) ∨ (p ∈ l ∧ cmp p.1 k ≠ .eq) := by
  induction l with
  | nil => simp [bmPut]
  | cons q r ih =>
    obtain ⟨k', v'⟩ := q
    simp only [BMSorted, List.pairwise_cons] at hs
    have ih := ih hs.2
    simp only [bmPut]
    split
    · next h =>
      have key : ∀ x ∈ (k', v') :: r, cmp x.1 k ≠ .eq := by
        intro x hx he
        have hlt : cmp k x.1 = .lt := by
          rcases List.mem_cons.mp hx with rfl | hx
          · exact h
          · exact hc.lt_trans _ _ _ trivial trivial trivial h (hs.1 x hx)
        rw [hc.eq_symm trivial trivial he] at hlt; cases hlt
      rw [List.mem_cons]
      exact ⟨fun hp => hp.imp_right fun hp => ⟨hp, key p hp⟩, fun hp => hp.imp_right (·.1)⟩
    · next h =>
      have key : ∀ x ∈ r, cmp x.1 k ≠ .eq := by
        intro x hx he
        have h1 := hs.1 x hx
        have h2 := hc.eq_trans _ _ x.1 trivial trivial trivial (hc.eq_symm trivial trivial h)
        rw [h2, hc.eq_symm trivial trivial he] at h1
        cases h1
      rw [List.mem_cons, List.mem_cons]
      constructor
      · rintro (hp | hp)
        · exact .inl hp
        · exact .inr ⟨.inr hp, key p hp⟩
      · rintro (hp | ⟨rfl | hp, hne⟩)
        · exact .inl hp
        · exact absurd (hc.eq_symm trivial trivial h) hne
        · exact .inr hp
    · next h =>
      rw [List.mem_cons, List.mem_cons, ih]
      constructor
      · rintro (rfl | hp | ⟨hp, hne⟩)
        · refine .inr ⟨.inl rfl, fun he => ?_⟩
          rw [hc.eq_symm trivial trivial he] at h; cases h
        · exact .inl hp
        · exact .inr ⟨.inr hp, hne⟩
      · rintro (hp | ⟨hp | hp, hne⟩)
        · exact .inr (.inl hp)
        · exact .inl hp
        · exact .inr (.inr ⟨hp, hne⟩)

theorem collected_collect (hc : CmpOn (fun _ : κ => True) cmp) (l : List (κ × α)) :
    Collected cmp l (bmCollect cmp l) := by
  refine ⟨bmCollect_sorted hc (fun _ _ => trivial), ?_⟩
  have gen : ∀ m : List (κ × α), ∀ p, p ∈ bmCollect cmp m.reverse ↔
      m.find? (fun q => cmp p.1 q.1 == .eq) = some p := by
    intro m
    induction m with
    | nil => intro p; simp [bmCollect]
    | cons q m ih =>
      intro p
      have hs : BMSorted cmp (bmCollect cmp m.reverse) := bmCollect_sorted hc (fun _ _ => trivial)
      have e : bmCollect cmp (q :: m).reverse = bmPut cmp q.1 q.2 (bmCollect cmp m.reverse) := by
        simp [bmCollect, List.foldl_append]
      rw [e, bmPut_mem_iff hc hs, ih, List.find?_cons]
      by_cases he : cmp p.1 q.1 = .eq
      · simp only [he, beq_self_eq_true, ne_eq, not_true_eq_false, and_false, or_false, Option.some.injEq]
        exact ⟨fun h => h.symm, fun h => h.symm⟩
      · have hb : (cmp p.1 q.1 == .eq) = false := by simp [he]
        simp only [hb, ne_eq, he, not_false_eq_true, and_true]
        refine ⟨?_, fun h => .inr h⟩
        rintro (h | h)
        · subst h; exact absurd (hc.refl _ trivial) he
        · exact h
  intro p
  simpa using gen l.reverse p

theorem collected_iff (hc : CmpOn (fun _ : κ => True) cmp) {l fs : List (κ × α)} :
    Collected cmp l fs ↔ fs = bmCollect cmp l := by
  constructor
  · intro h
    have h' := collected_collect hc l
    have hmem : ∀ p, p ∈ fs ↔ p ∈ bmCollect cmp l := fun p => (h.2 p).trans (h'.2 p).symm
    have nd : ∀ {m : List (κ × α)}, BMSorted cmp m → m.Nodup := by
      intro m hm
      refine List.Pairwise.imp ?_ hm
      rintro a _ hab rfl
      rw [hc.refl _ trivial] at hab; cases hab
    have hp : fs.Perm (bmCollect cmp l) := (List.perm_ext_iff_of_nodup (nd h.1) (nd h'.1)).mpr hmem
    have h1 := bmOfList_eq_of_perm hc (fun _ _ => trivial) h'.1 hp
    have h2 := bmOfList_self hc (fun _ _ => trivial) h.1
    rw [← h1, h2]
  · rintro rfl; exact collected_collect hc l

end

/-! ## Readers of exactly the bytes that are in a relation -/

/-- The reader reads the things that the bytes spell, where it uses less than `n` bytes; it never reads
anything else. -/
structure RExact {α : Type} (n : Nat) (r : List UInt8 → Option (α × List UInt8)) (R : List UInt8 → α → Prop) :
    Prop where
  sound : ∀ bs a rest, r bs = some (a, rest) → ∃ u, bs = u ++ rest ∧ R u a
  complete : ∀ u a rest, u.length < n → R u a → r (u ++ rest) = some (a, rest)

/-- One after the other. -/
def RCat {α β : Type} (R : List UInt8 → α → Prop) (S : List UInt8 → β → Prop) (u : List UInt8) (p : α × β) : Prop :=
  ∃ x y, u = x ++ y ∧ R x p.1 ∧ S y p.2

/-- Made into something else. -/
def RMap {α β : Type} (mk : α → β) (R : List UInt8 → α → Prop) (u : List UInt8) (b : β) : Prop :=
  ∃ a, R u a ∧ mk a = b

section
variable {α β : Type} {n : Nat}

theorem RExact.congr {r : List UInt8 → Option (α × List UInt8)} {R S : List UInt8 → α → Prop} (h : RExact n r R)
    (hRS : ∀ u a, R u a ↔ S u a) : RExact n r S := by
  have : R = S := by funext u a; exact propext (hRS u a)
  exact this ▸ h

theorem Bin.Local.exact {c : Bin α} (h : c.Local) : RExact n c.r c.Spells :=
  ⟨h, fun _ _ rest _ hs => hs rest⟩

theorem RExact.bind {r : List UInt8 → Option (α × List UInt8)} {R : List UInt8 → α → Prop}
    {k : α → List UInt8 → Option (β × List UInt8)} {S : α → List UInt8 → β → Prop}
    (h : RExact n r R) (hk : ∀ a, RExact n (k a) (S a)) :
    RExact n (fun bs => (r bs).bind fun p => k p.1 p.2) fun u b => ∃ x y a, u = x ++ y ∧ R x a ∧ S a y b := by
  constructor
  · intro bs b rest hb
    obtain ⟨⟨a, bs'⟩, h1, h2⟩ := Option.bind_eq_some_iff.mp hb
    obtain ⟨x, rfl, hx⟩ := h.sound _ _ _ h1
    obtain ⟨y, rfl, hy⟩ := (hk a).sound _ _ _ h2
    exact ⟨x ++ y, by simp, x, y, a, rfl, hx, hy⟩
  · rintro _ b rest hl ⟨x, y, a, rfl, hx, hy⟩
    simp only [List.length_append] at hl
    rw [List.append_assoc, h.complete x a (y ++ rest) (by omega) hx]
    exact (hk a).complete y b rest (by omega) hy

theorem RExact.map {r : List UInt8 → Option (α × List UInt8)} {R : List UInt8 → α → Prop} (h : RExact n r R)
    (mk : α → β) : RExact n (fun bs => (r bs).map fun p => (mk p.1, p.2)) (RMap mk R) := by
  constructor
  · intro bs b rest hb
    obtain ⟨⟨a, bs'⟩, h1, h2⟩ := Option.map_eq_some_iff.mp hb
    cases h2
    obtain ⟨x, rfl, hx⟩ := h.sound _ _ _ h1
    exact ⟨x, rfl, a, hx, rfl⟩
  · rintro u b rest hl ⟨a, ha, rfl⟩
    simp only [h.complete u a rest hl ha, Option.map_some]

theorem RExact.pure (a : α) : RExact n (fun bs => some (a, bs)) fun u b => u = [] ∧ b = a := by
  constructor
  · intro bs b rest h
    cases h
    exact ⟨[], rfl, rfl, rfl⟩
  · rintro _ _ rest _ ⟨rfl, rfl⟩
    rfl

theorem RExact.none : RExact n (fun _ => (Option.none : Option (α × List UInt8))) fun _ _ => False :=
  ⟨fun _ _ _ h => (nomatch h), fun _ _ _ _ h => h.elim⟩

theorem RExact.pair {r : List UInt8 → Option (α × List UInt8)} {R : List UInt8 → α → Prop}
    {s : List UInt8 → Option (β × List UInt8)} {S : List UInt8 → β → Prop} (h : RExact n r R) (h' : RExact n s S) :
    RExact n (rpair r s) (RCat R S) := by
  refine (h.bind (k := fun a bs => (s bs).map fun q => ((a, q.1), q.2)) fun a => h'.map (Prod.mk a)).congr ?_
  intro u p
  constructor
  · rintro ⟨x, y, a, rfl, hx, b, hy, rfl⟩
    exact ⟨x, y, rfl, hx, hy⟩
  · rintro ⟨x, y, rfl, hx, hy⟩
    exact ⟨x, y, p.1, rfl, hx, p.2, hy, rfl⟩

theorem RExact.many {r : List UInt8 → Option (α × List UInt8)} {R : List UInt8 → α → Prop} (h : RExact n r R) (k : Nat) :
    RExact n (rmany r k) fun u xs => xs.length = k ∧ ∃ parts, u = parts.flatten ∧ List.Forall₂ R parts xs := by
  induction k with
  | zero =>
    refine (RExact.pure (n := n) ([] : List α)).congr ?_
    intro u xs
    constructor
    · rintro ⟨rfl, rfl⟩; exact ⟨rfl, [], rfl, .nil⟩
    · rintro ⟨h0, parts, rfl, hp⟩
      obtain rfl := List.length_eq_zero_iff.mp h0
      cases hp
      exact ⟨rfl, rfl⟩
  | succ k ih =>
    refine (h.bind (k := fun a bs => (rmany r k bs).map fun q => (a :: q.1, q.2)) fun a => ih.map (List.cons a)).congr ?_
    intro u xs
    constructor
    · rintro ⟨x, _, a, rfl, hx, as, ⟨hl, parts, rfl, hp⟩, rfl⟩
      exact ⟨by simp [hl], x :: parts, rfl, .cons hx hp⟩
    · rintro ⟨hl, parts, rfl, hp⟩
      cases hp with
      | nil => cases hl
      | cons h1 h2 => exact ⟨_, _, _, rfl, h1, _, ⟨by simpa using hl, _, rfl, h2⟩, rfl⟩

variable {F : Speedy}

theorem RExact.vec (hL : F.Local) {r : List UInt8 → Option (α × List UInt8)} {R : List UInt8 → α → Prop}
    (h : RExact n r R) : RExact n (F.rvec r) (SpellsSeq F R) := by
  refine ((hL.len.exact (n := n)).bind fun k => h.many k).congr ?_
  intro u xs
  constructor
  · rintro ⟨x, _, a, rfl, hx, rfl, parts, rfl, hp⟩
    exact ⟨x, parts, rfl, hx, hp⟩
  · rintro ⟨l, parts, rfl, hl, hp⟩
    exact ⟨l, _, _, rfl, hl, rfl, parts, rfl, hp⟩

theorem forall₂_cat {κ : Type} {K : List UInt8 → κ → Prop} {R : List UInt8 → α → Prop} {us : List (List UInt8)}
    {raw : List (κ × α)} (h : List.Forall₂ (RCat K R) us raw) :
    ∃ parts : List (List UInt8 × List UInt8), us = parts.map (fun p => p.1 ++ p.2) ∧
      List.Forall₂ (fun (p : List UInt8 × List UInt8) (q : κ × α) => K p.1 q.1 ∧ R p.2 q.2) parts raw := by
  induction h with
  | nil => exact ⟨[], rfl, .nil⟩
  | cons h1 _ ih =>
    obtain ⟨x, y, rfl, hx, hy⟩ := h1
    obtain ⟨parts, rfl, hp⟩ := ih
    exact ⟨(x, y) :: parts, rfl, .cons ⟨hx, hy⟩ hp⟩

theorem cat_forall₂ {κ : Type} {K : List UInt8 → κ → Prop} {R : List UInt8 → α → Prop}
    {parts : List (List UInt8 × List UInt8)} {raw : List (κ × α)}
    (h : List.Forall₂ (fun (p : List UInt8 × List UInt8) (q : κ × α) => K p.1 q.1 ∧ R p.2 q.2) parts raw) :
    List.Forall₂ (RCat K R) (parts.map fun p => p.1 ++ p.2) raw := by
  induction h with
  | nil => exact .nil
  | cons h1 _ ih => exact .cons ⟨_, _, rfl, h1.1, h1.2⟩ ih

theorem RExact.btree (hL : F.Local) {κ : Type} {cmp : κ → κ → Ordering} (hc : CmpOn (fun _ : κ => True) cmp)
    {k : List UInt8 → Option (κ × List UInt8)} {K : List UInt8 → κ → Prop}
    {r : List UInt8 → Option (α × List UInt8)} {R : List UInt8 → α → Prop}
    (hk : RExact n k K) (h : RExact n r R) : RExact n (F.rbtree cmp k r) (SpellsMap F cmp K R) := by
  refine ((RExact.vec hL (hk.pair h)).map (bmCollect cmp)).congr ?_
  intro u xs
  constructor
  · rintro ⟨raw, ⟨l, us, rfl, hl, hu⟩, rfl⟩
    obtain ⟨parts, rfl, hp⟩ := forall₂_cat hu
    exact ⟨l, parts, raw, rfl, hl, hp, (collected_iff hc).mpr rfl⟩
  · rintro ⟨l, parts, raw, rfl, hl, hp, hcol⟩
    exact ⟨raw, ⟨l, _, rfl, hl, cat_forall₂ hp⟩, ((collected_iff hc).mp hcol).symm⟩

theorem RExact.option (hL : F.Local) {c : Bin α} {R : List UInt8 → α → Prop} (h : RExact n c.r R) :
    RExact n (F.option c).r (SpellsOption F R) := by
  have key : ∀ b : Bool, RExact n
      (fun bs => if b then (c.r bs).map fun q => (some q.1, q.2) else some (Option.none, bs))
      (fun u x => if b then RMap some R u x else u = [] ∧ x = Option.none) := by
    intro b
    cases b
    · simpa using RExact.pure (n := n) (Option.none : Option α)
    · simpa using h.map some
  refine ((hL.flag.exact (n := n)).bind key).congr ?_
  intro u x
  constructor
  · rintro ⟨f, p, b, rfl, hf, hp⟩
    cases b
    · obtain ⟨rfl, rfl⟩ : p = [] ∧ x = Option.none := by simpa using hp
      simpa [SpellsOption] using hf
    · obtain ⟨a, ha, rfl⟩ : RMap some R p x := by simpa using hp
      exact ⟨f, p, rfl, hf, ha⟩
  · intro hx
    cases x with
    | none => exact ⟨u, [], false, by simp, hx, by simp⟩
    | some a =>
      obtain ⟨f, p, rfl, hf, hp⟩ := hx
      exact ⟨f, p, true, rfl, hf, by simpa using ⟨a, hp, rfl⟩⟩

theorem RExact.mono {m : Nat} {r : List UInt8 → Option (α × List UInt8)} {R : List UInt8 → α → Prop}
    (h : RExact n r R) (hm : m ≤ n) : RExact m r R :=
  ⟨h.sound, fun u a rest hl => h.complete u a rest (Nat.lt_of_lt_of_le hl hm)⟩

/-- Reading the tag of a variant leaves fewer bytes. -/
theorem RExact.tagged (hF : F.Lawful) (hL : F.Local) {k : Nat → List UInt8 → Option (α × List UInt8)}
    {R : Nat → List UInt8 → α → Prop} (hk : ∀ i, RExact n (k i) (R i)) :
    RExact (n + 1) (fun bs => (F.tag.r bs).bind fun p => k p.1 p.2)
      fun u a => ∃ t p i, u = t ++ p ∧ F.tag.Spells t i ∧ R i p a := by
  constructor
  · intro bs b rest hb
    obtain ⟨⟨a, bs'⟩, h1, h2⟩ := Option.bind_eq_some_iff.mp hb
    obtain ⟨x, rfl, hx⟩ := hL.tag _ _ _ h1
    obtain ⟨y, rfl, hy⟩ := (hk a).sound _ _ _ h2
    exact ⟨x ++ y, by simp, x, y, a, rfl, hx, hy⟩
  · rintro _ b rest hl ⟨x, y, a, rfl, hx, hy⟩
    have h0 := hF.tagMoves _ _ _ (hx [])
    simp only [List.length_append, List.length_nil] at hl h0
    rw [List.append_assoc, hx (y ++ rest)]
    exact (hk a).complete y b rest (by omega) hy

theorem RExact.tagged' (hF : F.Lawful) (hL : F.Local) {k : Nat → List UInt8 → Option (α × List UInt8)}
    {R : Nat → List UInt8 → α → Prop} (hk : ∀ i, RExact n (k i) (R i)) :
    RExact n (fun bs => (F.tag.r bs).bind fun p => k p.1 p.2)
      fun u a => ∃ t p i, u = t ++ p ∧ F.tag.Spells t i ∧ R i p a :=
  (RExact.tagged hF hL hk).mono (Nat.le_succ n)

theorem RExact.enum (hF : F.Lawful) (hL : F.Local) {idx : α → Nat} {w : α → Option (List UInt8)}
    {k : Nat → List UInt8 → Option (α × List UInt8)}
    {R : Nat → List UInt8 → α → Prop} (hk : ∀ i, RExact n (k i) (R i)) :
    RExact n (F.enum idx w k).r fun u a => ∃ t p i, u = t ++ p ∧ F.tag.Spells t i ∧ R i p a :=
  RExact.tagged' hF hL hk

/-! ## Values -/

theorem strs_exact (hL : F.Local) : RExact n F.strs.r (SpellsStrs F) := RExact.vec hL hL.str.exact

theorem rscalar_exact (hL : F.Local) (k : ScalarKind) :
    RExact n (F.rscalar k) fun u s => s.kind = k ∧ SpellsScalar F u s := by
  cases k with
  | int k =>
    refine (((hL.int k).exact (n := n)).map (Scalar.int k)).congr fun u s => ?_
    constructor
    · rintro ⟨a, ha, rfl⟩; exact ⟨rfl, ha⟩
    · rintro ⟨hk, hs⟩
      cases s <;> simp only [Scalar.kind, reduceCtorEq, ScalarKind.int.injEq] at hk
      subst hk; exact ⟨_, hs, rfl⟩
  | bool =>
    refine ((hL.bool.exact (n := n)).map Scalar.bool).congr fun u s => ?_
    constructor
    · rintro ⟨a, ha, rfl⟩; exact ⟨rfl, ha⟩
    · rintro ⟨hk, hs⟩
      cases s <;> simp only [Scalar.kind, reduceCtorEq] at hk
      exact ⟨_, hs, rfl⟩
  | char =>
    refine ((hL.char.exact (n := n)).map Scalar.char).congr fun u s => ?_
    constructor
    · rintro ⟨a, ha, rfl⟩; exact ⟨rfl, ha⟩
    · rintro ⟨hk, hs⟩
      cases s <;> simp only [Scalar.kind, reduceCtorEq] at hk
      exact ⟨_, hs, rfl⟩
  | f32 =>
    refine ((hL.f32.exact (n := n)).map Scalar.f32).congr fun u s => ?_
    constructor
    · rintro ⟨a, ha, rfl⟩; exact ⟨rfl, ha⟩
    · rintro ⟨hk, hs⟩
      cases s <;> simp only [Scalar.kind, reduceCtorEq] at hk
      exact ⟨_, hs, rfl⟩
  | f64 =>
    refine ((hL.f64.exact (n := n)).map Scalar.f64).congr fun u s => ?_
    constructor
    · rintro ⟨a, ha, rfl⟩; exact ⟨rfl, ha⟩
    · rintro ⟨hk, hs⟩
      cases s <;> simp only [Scalar.kind, reduceCtorEq] at hk
      exact ⟨_, hs, rfl⟩
  | string =>
    refine ((hL.str.exact (n := n)).map Scalar.string).congr fun u s => ?_
    constructor
    · rintro ⟨a, ha, rfl⟩; exact ⟨rfl, ha⟩
    · rintro ⟨hk, hs⟩
      cases s <;> simp only [Scalar.kind, reduceCtorEq] at hk
      exact ⟨_, hs, rfl⟩

/-- The two fields of a struct value. -/
def RStruct (F : Speedy) (R : List UInt8 → Value → Prop) : List UInt8 → List String × List (String × Value) → Prop :=
  RCat (SpellsStrs F) (SpellsMap F strCmp F.str.Spells R)

theorem rstruct_exact (hL : F.Local) {rv} {R : List UInt8 → Value → Prop} (h : RExact n rv R) :
    RExact n (F.rstruct rv) (RStruct F R) :=
  (strs_exact hL).pair (RExact.btree hL strCmpOn hL.str.exact h)

/-- The payloads of the kinds of an enum value by position. -/
def RKindArm (F : Speedy) (R : List UInt8 → Value → Prop) (n : String) (i : Nat) : List UInt8 → Value → Prop :=
  match i with
  | 0 => RMap (fun q => .enumS n q.1 q.2) (RStruct F R)
  | 1 => RMap (fun q => .enumT n q) (SpellsSeq F R)
  | 2 => fun u v => u = [] ∧ v = .enumU n
  | _ => fun _ _ => False

theorem rkindArm_exact (hL : F.Local) {rv} {R : List UInt8 → Value → Prop} (h : RExact n rv R) (s : String) (i : Nat) :
    RExact n (F.rkindArm rv s i) (RKindArm F R s i) := by
  match i with
  | 0 => exact (rstruct_exact hL h).map (fun q : List String × List (String × Value) => Value.enumS s q.1 q.2)
  | 1 => exact (RExact.vec hL h).map (Value.enumT s)
  | 2 => exact RExact.pure _
  | _ + 3 => exact RExact.none

/-- The payloads of the variants of a value by position. -/
def RValueArm (F : Speedy) (R : List UInt8 → Value → Prop) (i : Nat) : List UInt8 → Value → Prop :=
  match i with
  | 16 => RMap (fun q => .struct q.1 q.2) (RStruct F R)
  | 17 => fun u v => ∃ x y s, u = x ++ y ∧ F.str.Spells x s ∧
      ∃ t p i, y = t ++ p ∧ F.tag.Spells t i ∧ RKindArm F R s i p v
  | 18 => RMap (fun q => .tupleStruct q) (SpellsSeq F R)
  | 19 => RMap (fun q => .tuple q) (SpellsSeq F R)
  | 20 => RMap (fun q => .list q) (SpellsSeq F R)
  | 21 => RMap (fun q => .map q) (SpellsMap F Value.cmp R R)
  | i => fun u v => ∃ k, ScalarKind.ofIdx i = some k ∧ ∃ s : Scalar, (s.kind = k ∧ SpellsScalar F u s) ∧ .scalar s = v

theorem rvalue_exact (hF : F.Lawful) (hL : F.Local) {rv} {R : List UInt8 → Value → Prop} (h : RExact n rv R) (i : Nat) :
    RExact n (F.rvalue rv i) (RValueArm F R i) := by
  rw [show RExact n (F.rvalue rv i) (RValueArm F R i) = RExact n (fun bs => F.rvalue rv i bs) (fun u v => RValueArm F R i u v)
    from rfl]
  unfold Speedy.rvalue RValueArm
  split
  · exact (rstruct_exact hL h).map (fun q : List String × List (String × Value) => Value.struct q.1 q.2)
  · exact (hL.str.exact (n := n)).bind fun s => RExact.tagged' hF hL fun i => rkindArm_exact hL h s i
  · exact (RExact.vec hL h).map Value.tupleStruct
  · exact (RExact.vec hL h).map Value.tuple
  · exact (RExact.vec hL h).map Value.list
  · exact (RExact.btree hL valueCmpOn h h).map Value.map
  · next j h1 h2 h3 h4 h5 h6 =>
    have e : (fun u v => RValueArm F R i u v) = fun u v => ∃ k, ScalarKind.ofIdx i = some k ∧
        ∃ s : Scalar, (s.kind = k ∧ SpellsScalar F u s) ∧ .scalar s = v := by
      funext u v
      unfold RValueArm
      split
      · exact (h1 rfl).elim
      · exact (h2 rfl).elim
      · exact (h3 rfl).elim
      · exact (h4 rfl).elim
      · exact (h5 rfl).elim
      · exact (h6 rfl).elim
      · rfl
    refine RExact.congr (R := fun u v => RValueArm F R i u v) ?_ fun _ _ => Iff.rfl
    rw [e]
    cases hk : ScalarKind.ofIdx i with
    | none => exact RExact.none.congr (by simp)
    | some k =>
      refine ((rscalar_exact hL k).map Value.scalar).congr fun u v => ?_
      constructor
      · rintro ⟨s, hs, e⟩; exact ⟨k, rfl, s, hs, e⟩
      · rintro ⟨k', hk', s, hs, e⟩
        cases hk'
        exact ⟨s, hs, e⟩

theorem ScalarKind.rust_get (k : ScalarKind) : valueForms[k.idx]? = some k.rust ∧ scalarForms[k.idx]? = some k.rust := by
  cases k with
  | int k => cases k <;> exact ⟨rfl, rfl⟩
  | _ => exact ⟨rfl, rfl⟩

theorem ofIdx_forms {i : Nat} {k : ScalarKind} (h : ScalarKind.ofIdx i = some k) :
    valueForms[i]? = some k.rust ∧ scalarForms[i]? = some k.rust := by
  have : k.idx = i := by
    unfold ScalarKind.ofIdx at h
    split at h <;> cases h <;> rfl
  exact this ▸ k.rust_get

theorem tag_at {names : List String} (hn : names.Nodup) {i : Nat} {s : String} (hi : names[i]? = some s)
    {t : List UInt8} : F.Tag names t s ↔ F.tag.Spells t i := by
  constructor
  · rintro ⟨j, hj, ht⟩
    have : j = i := by
      obtain ⟨h1, e1⟩ := List.getElem?_eq_some_iff.mp hi
      obtain ⟨h2, e2⟩ := List.getElem?_eq_some_iff.mp hj
      exact (List.Nodup.getElem_inj_iff hn).mp (e2.trans e1.symm)
    exact this ▸ ht
  · intro h; exact ⟨i, hi, h⟩

theorem valueForms_nodup : valueForms.Nodup := by decide

theorem zip_forall₂ {R : List UInt8 → α → Prop} {parts : List (List UInt8)} {xs : List α} :
    List.Forall₂ R parts xs ↔ parts.length = xs.length ∧ ∀ p ∈ parts.zip xs, R p.1 p.2 := by
  rw [List.forall₂_iff_zip]
  exact ⟨fun h => ⟨h.1, fun p hp => h.2 hp⟩, fun h => ⟨h.1, fun hp => h.2 _ hp⟩⟩

theorem zip_forall₂' {κ : Type} {K : List UInt8 → κ → Prop} {R : List UInt8 → α → Prop}
    {parts : List (List UInt8 × List UInt8)} {xs : List (κ × α)} :
    List.Forall₂ (fun (p : List UInt8 × List UInt8) (q : κ × α) => K p.1 q.1 ∧ R p.2 q.2) parts xs ↔
      parts.length = xs.length ∧ (∀ p ∈ parts.zip xs, K p.1.1 p.2.1) ∧ ∀ p ∈ parts.zip xs, R p.1.2 p.2.2 := by
  rw [List.forall₂_iff_zip]
  exact ⟨fun h => ⟨h.1, fun p hp => (h.2 hp).1, fun p hp => (h.2 hp).2⟩,
    fun h => ⟨h.1, fun hp => ⟨h.2.1 _ hp, h.2.2 _ hp⟩⟩⟩

theorem spells_iff {u : List UInt8} {v : Value} :
    (∃ t p i, u = t ++ p ∧ F.tag.Spells t i ∧ RValueArm F (Spells F) i p v) ↔ Spells F u v := by
  have hv : ∀ {i s t}, valueForms[i]? = some s → (F.Tag valueForms t s ↔ F.tag.Spells t i) := fun h =>
    tag_at valueForms_nodup h
  have hk : ∀ {i s t}, ["Struct", "Tuple", "Unit"][i]? = some s →
      (F.Tag ["Struct", "Tuple", "Unit"] t s ↔ F.tag.Spells t i) := fun h => tag_at (by decide) h
  constructor
  · rintro ⟨t, p, i, rfl, ht, hp⟩
    unfold RValueArm at hp
    split at hp
    · obtain ⟨⟨ns, fs⟩, ⟨n, y, rfl, hn, l, parts, raw, rfl, hl, hz, hc⟩, rfl⟩ := hp
      obtain ⟨z1, z2, z3⟩ := zip_forall₂'.mp hz
      exact .struct t n l parts ns raw fs ((hv rfl).mpr ht) hn hl z1 z2 z3 hc
    · obtain ⟨x, _, s, rfl, hx, k, p, i, rfl, hki, hp⟩ := hp
      unfold RKindArm at hp
      split at hp
      · obtain ⟨⟨ns, fs⟩, ⟨n, y, rfl, hn, l, parts, raw, rfl, hl, hz, hc⟩, rfl⟩ := hp
        obtain ⟨z1, z2, z3⟩ := zip_forall₂'.mp hz
        exact .enumS t x k n l parts s ns raw fs ((hv rfl).mpr ht) hx ((hk rfl).mpr hki) hn hl z1 z2 z3 hc
      · obtain ⟨fs, ⟨l, parts, rfl, hl, hz⟩, rfl⟩ := hp
        obtain ⟨z1, z2⟩ := zip_forall₂.mp hz
        exact .enumT t x k l parts s fs ((hv rfl).mpr ht) hx ((hk rfl).mpr hki) hl z1 z2
      · obtain ⟨rfl, rfl⟩ := hp
        rw [List.append_nil]
        exact .enumU t x k s ((hv rfl).mpr ht) hx ((hk rfl).mpr hki)
      · exact hp.elim
    · obtain ⟨fs, ⟨l, parts, rfl, hl, hz⟩, rfl⟩ := hp
      obtain ⟨z1, z2⟩ := zip_forall₂.mp hz
      exact .tupleStruct t l parts fs ((hv rfl).mpr ht) hl z1 z2
    · obtain ⟨fs, ⟨l, parts, rfl, hl, hz⟩, rfl⟩ := hp
      obtain ⟨z1, z2⟩ := zip_forall₂.mp hz
      exact .tuple t l parts fs ((hv rfl).mpr ht) hl z1 z2
    · obtain ⟨fs, ⟨l, parts, rfl, hl, hz⟩, rfl⟩ := hp
      obtain ⟨z1, z2⟩ := zip_forall₂.mp hz
      exact .list t l parts fs ((hv rfl).mpr ht) hl z1 z2
    · obtain ⟨fs, ⟨l, parts, raw, rfl, hl, hz, hc⟩, rfl⟩ := hp
      obtain ⟨z1, z2, z3⟩ := zip_forall₂'.mp hz
      exact .map t l parts raw fs ((hv rfl).mpr ht) hl z1 z2 z3 hc
    · obtain ⟨k, hk, s, ⟨rfl, hs⟩, rfl⟩ := hp
      exact .scalar t p s ((hv (ofIdx_forms hk).1).mpr ht) hs
  · intro h
    cases h with
    | scalar t u s ht hs =>
      refine ⟨t, u, s.kind.idx, rfl, (hv (s.kind.rust_get).1).mp ht, ?_⟩
      have hi := s.kind.idx_lt
      have ho := s.kind.ofIdx_idx'
      generalize s.kind.idx = i at hi ho
      unfold RValueArm
      split <;> first | omega | exact ⟨_, ho, s, ⟨rfl, hs⟩, rfl⟩
    | struct t n l parts ns raw fs ht hn hl z1 z2 z3 hc =>
      exact ⟨t, _, 16, rfl, (hv rfl).mp ht, (ns, fs),
        ⟨n, _, rfl, hn, l, parts, raw, rfl, hl, zip_forall₂'.mpr ⟨z1, z2, z3⟩, hc⟩, rfl⟩
    | enumS t x k n l parts s ns raw fs ht hx hki hn hl z1 z2 z3 hc =>
      exact ⟨t, _, 17, rfl, (hv rfl).mp ht, x, _, s, rfl, hx, k, _, 0, rfl, (hk rfl).mp hki, (ns, fs),
        ⟨n, _, rfl, hn, l, parts, raw, rfl, hl, zip_forall₂'.mpr ⟨z1, z2, z3⟩, hc⟩, rfl⟩
    | enumT t x k l parts s fs ht hx hki hl z1 z2 =>
      exact ⟨t, _, 17, rfl, (hv rfl).mp ht, x, _, s, rfl, hx, k, _, 1, rfl, (hk rfl).mp hki, fs,
        ⟨l, parts, rfl, hl, zip_forall₂.mpr ⟨z1, z2⟩⟩, rfl⟩
    | enumU t x k s ht hx hki =>
      exact ⟨t, _, 17, rfl, (hv rfl).mp ht, x, _, s, rfl, hx, k, [], 2, by simp, (hk rfl).mp hki, rfl, rfl⟩
    | tupleStruct t l parts fs ht hl z1 z2 =>
      exact ⟨t, _, 18, rfl, (hv rfl).mp ht, fs, ⟨l, parts, rfl, hl, zip_forall₂.mpr ⟨z1, z2⟩⟩, rfl⟩
    | tuple t l parts fs ht hl z1 z2 =>
      exact ⟨t, _, 19, rfl, (hv rfl).mp ht, fs, ⟨l, parts, rfl, hl, zip_forall₂.mpr ⟨z1, z2⟩⟩, rfl⟩
    | list t l parts fs ht hl z1 z2 =>
      exact ⟨t, _, 20, rfl, (hv rfl).mp ht, fs, ⟨l, parts, rfl, hl, zip_forall₂.mpr ⟨z1, z2⟩⟩, rfl⟩
    | map t l parts raw fs ht hl z1 z2 z3 hc =>
      exact ⟨t, _, 21, rfl, (hv rfl).mp ht, fs, ⟨l, parts, raw, rfl, hl, zip_forall₂'.mpr ⟨z1, z2, z3⟩, hc⟩, rfl⟩

theorem br_exact (hF : F.Lawful) (hL : F.Local) (f : Nat) : RExact f (Value.br F f) (Spells F) := by
  induction f with
  | zero => exact ⟨fun _ _ _ h => by simp [Value.br] at h, fun _ _ _ h => by omega⟩
  | succ f ih => exact (RExact.tagged hF hL fun i => rvalue_exact hF hL ih i).congr fun u v => spells_iff

theorem value_exact (hF : F.Lawful) (hL : F.Local) : RExact n F.value.r (Spells F) := by
  constructor
  · intro bs a rest h
    exact (br_exact hF hL _).sound bs a rest h
  · intro u a rest _ h
    exact (br_exact hF hL ((u ++ rest).length + 1)).complete u a rest (by simp; omega) h

/-! ## Key paths -/

theorem nat_exact (hF : F.Lawful) (hL : F.Local) {k : IntKind} (hk : ∀ i : Int, k.InRange i → 0 ≤ i) :
    RExact n ((F.int k).iso Int.toNat Nat.cast).r (SpellsNat F k) := by
  constructor
  · intro bs a rest h
    obtain ⟨⟨i, rest'⟩, h1, h2⟩ := Option.map_eq_some_iff.mp h
    cases h2
    obtain ⟨u, rfl, hu⟩ := hL.int k _ _ _ h1
    refine ⟨u, rfl, ?_⟩
    have h0 : (0 : Int) ≤ i := hk i ((hF.int k).only _ _ _ h1).1
    show (F.int k).Spells u ((i.toNat : Nat) : Int)
    rw [Int.toNat_of_nonneg h0]
    exact hu
  · intro u a rest _ h
    simp only [Bin.iso, h rest, Option.map_some, Int.toNat_natCast]

theorem usize_exact (hF : F.Lawful) (hL : F.Local) : RExact n F.usize.r (SpellsNat F .usize) :=
  nat_exact hF hL fun i h => by simpa [IntKind.InRange, IntKind.signed] using h.1

theorem id_exact (hF : F.Lawful) (hL : F.Local) : RExact n F.id.r (SpellsNat F .u64) :=
  nat_exact hF hL fun i h => by simpa [IntKind.InRange, IntKind.signed] using h.1

/-- The payloads of names and numbers by position. -/
def RNameArm (F : Speedy) (i : Nat) : List UInt8 → String ⊕ Nat → Prop :=
  match i with
  | 0 => RMap Sum.inl F.str.Spells
  | 1 => RMap Sum.inr (SpellsNat F .usize)
  | _ => fun _ _ => False

/-- A name or a number. -/
def RName (F : Speedy) (u : List UInt8) (x : String ⊕ Nat) : Prop :=
  ∃ t p i, u = t ++ p ∧ F.tag.Spells t i ∧ RNameArm F i p x

theorem namedOrNumbered_exact (hF : F.Lawful) (hL : F.Local) : RExact n F.namedOrNumbered.r (RName F) := by
  refine RExact.enum hF hL (R := RNameArm F) ?_
  intro i
  match i with
  | 0 => exact (hL.str.exact (n := n)).map _
  | 1 => exact (usize_exact hF hL).map _
  | _ + 2 => exact RExact.none

theorem arm_exact {c : Bin α} {R : List UInt8 → α → Prop} (h : RExact n c.r R) (mk : α → β) :
    RExact n (c.arm mk) (RMap mk R) := h.map mk

theorem key_exact (hF : F.Lawful) (hL : F.Local) : RExact n F.key.r (SpellsKey F) := by
  have hk : ∀ {i s t}, ["Field", "Get", "Variant"][i]? = some s →
      (F.Tag ["Field", "Get", "Variant"] t s ↔ F.tag.Spells t i) := fun h => tag_at (by decide) h
  have hn : ∀ {i s t}, ["Named", "Numbered"][i]? = some s →
      (F.Tag ["Named", "Numbered"] t s ↔ F.tag.Spells t i) := fun h => tag_at (by decide) h
  refine (RExact.enum hF hL (R := fun i => match i with
      | 0 => RMap (fun x : String ⊕ Nat => match x with | .inl n => Key.named n | .inr i => Key.numbered i) (RName F)
      | 1 => RMap Key.get (Spells F)
      | 2 => RMap Key.variant F.str.Spells
      | _ => fun _ _ => False) ?_).congr ?_
  · intro i
    match i with
    | 0 => exact arm_exact (namedOrNumbered_exact hF hL) _
    | 1 => exact (value_exact hF hL).map _
    | 2 => exact (hL.str.exact (n := n)).map _
    | _ + 3 => exact RExact.none
  · intro u x
    constructor
    · rintro ⟨t, p, i, rfl, ht, h⟩
      split at h
      · obtain ⟨y, ⟨k, q, j, rfl, hkj, h⟩, rfl⟩ := h
        unfold RNameArm at h
        split at h
        · obtain ⟨s, hs, rfl⟩ := h
          exact .named t k q s ((hk rfl).mpr ht) ((hn rfl).mpr hkj) hs
        · obtain ⟨s, hs, rfl⟩ := h
          exact .numbered t k q s ((hk rfl).mpr ht) ((hn rfl).mpr hkj) hs
        · exact h.elim
      · obtain ⟨v, hv, rfl⟩ := h
        exact .get t p v ((hk rfl).mpr ht) hv
      · obtain ⟨v, hv, rfl⟩ := h
        exact .variant t p v ((hk rfl).mpr ht) hv
      · exact h.elim
    · intro h
      cases h with
      | named t k q s ht hkj hs =>
        exact ⟨t, _, 0, rfl, (hk rfl).mp ht, .inl s, ⟨k, q, 0, rfl, (hn rfl).mp hkj, s, hs, rfl⟩, rfl⟩
      | numbered t k q s ht hkj hs =>
        exact ⟨t, _, 0, rfl, (hk rfl).mp ht, .inr s, ⟨k, q, 1, rfl, (hn rfl).mp hkj, s, hs, rfl⟩, rfl⟩
      | get t q v ht hv => exact ⟨t, q, 1, rfl, (hk rfl).mp ht, v, hv, rfl⟩
      | variant t q v ht hv => exact ⟨t, q, 2, rfl, (hk rfl).mp ht, v, hv, rfl⟩

theorem keyPath_exact (hF : F.Lawful) (hL : F.Local) : RExact n F.keyPath.r (SpellsPath F) :=
  RExact.vec hL (key_exact hF hL)

/-! ## Type descriptors -/

theorem iso_exact {c : Bin α} {R : List UInt8 → α → Prop} (h : RExact n c.r R) {mk : α → β} {un : β → α}
    {S : List UInt8 → β → Prop} (hS : ∀ u b, RMap mk R u b ↔ S u b) : RExact n (c.iso mk un).r S :=
  (h.map mk).congr hS

theorem metadata_exact (hF : F.Lawful) (hL : F.Local) : RExact n F.metadata.r (SpellsMeta F) :=
  RExact.btree hL strCmpOn hL.str.exact (value_exact hF hL)

theorem named_exact (hF : F.Lawful) (hL : F.Local) : RExact n F.named.r (SpellsNamed F) := by
  refine iso_exact ((hL.str.exact (n := n)).pair ((id_exact hF hL).pair ((metadata_exact hF hL).pair (strs_exact hL)))) ?_
  intro u x
  constructor
  · rintro ⟨_, ⟨a, _, rfl, ha, b, _, rfl, hb, c, d, rfl, hc, hd⟩, rfl⟩
    exact ⟨a, b, c, d, rfl, ha, hb, hc, hd⟩
  · rintro ⟨a, b, c, d, rfl, ha, hb, hc, hd⟩
    exact ⟨(_, _, _, _), ⟨a, _, rfl, ha, b, _, rfl, hb, c, d, rfl, hc, hd⟩, rfl⟩

theorem unnamed_exact (hF : F.Lawful) (hL : F.Local) : RExact n F.unnamed.r (SpellsUnnamed F) := by
  refine iso_exact ((id_exact hF hL).pair ((metadata_exact hF hL).pair (strs_exact hL))) ?_
  intro u x
  constructor
  · rintro ⟨_, ⟨b, _, rfl, hb, c, d, rfl, hc, hd⟩, rfl⟩
    exact ⟨b, c, d, rfl, hb, hc, hd⟩
  · rintro ⟨b, c, d, rfl, hb, hc, hd⟩
    exact ⟨(_, _, _), ⟨b, _, rfl, hb, c, d, rfl, hc, hd⟩, rfl⟩

theorem namedFields_exact (hF : F.Lawful) (hL : F.Local) : RExact n F.namedFields.r (SpellsFields F) :=
  RExact.btree hL strCmpOn hL.str.exact (named_exact hF hL)

theorem struct_exact (hF : F.Lawful) (hL : F.Local) : RExact n F.struct.r (SpellsStruct F) := by
  refine iso_exact ((hL.str.exact (n := n)).pair ((namedFields_exact hF hL).pair ((strs_exact hL).pair
    ((metadata_exact hF hL).pair (strs_exact hL))))) ?_
  intro u x
  constructor
  · rintro ⟨_, ⟨a, _, rfl, ha, b, _, rfl, hb, e, _, rfl, he, c, d, rfl, hc, hd⟩, rfl⟩
    exact ⟨a, b, e, c, d, rfl, ha, hb, he, hc, hd⟩
  · rintro ⟨a, b, e, c, d, rfl, ha, hb, he, hc, hd⟩
    exact ⟨(_, _, _, _, _), ⟨a, _, rfl, ha, b, _, rfl, hb, e, _, rfl, he, c, d, rfl, hc, hd⟩, rfl⟩

theorem tuple_exact (hF : F.Lawful) (hL : F.Local) : RExact n F.tuple.r (SpellsTuple F) := by
  refine iso_exact ((hL.str.exact (n := n)).pair ((RExact.vec hL (unnamed_exact hF hL)).pair
    ((metadata_exact hF hL).pair (strs_exact hL)))) ?_
  intro u x
  constructor
  · rintro ⟨_, ⟨a, _, rfl, ha, b, _, rfl, hb, c, d, rfl, hc, hd⟩, rfl⟩
    exact ⟨a, b, c, d, rfl, ha, hb, hc, hd⟩
  · rintro ⟨a, b, c, d, rfl, ha, hb, hc, hd⟩
    exact ⟨(_, _, _, _), ⟨a, _, rfl, ha, b, _, rfl, hb, c, d, rfl, hc, hd⟩, rfl⟩

theorem structVariant_exact (hF : F.Lawful) (hL : F.Local) : RExact n F.structVariant.r (SpellsStructVariant F) := by
  refine iso_exact ((hL.str.exact (n := n)).pair ((namedFields_exact hF hL).pair ((strs_exact hL).pair
    ((metadata_exact hF hL).pair (strs_exact hL))))) ?_
  intro u x
  constructor
  · rintro ⟨_, ⟨a, _, rfl, ha, b, _, rfl, hb, e, _, rfl, he, c, d, rfl, hc, hd⟩, rfl⟩
    exact ⟨a, b, e, c, d, rfl, ha, hb, he, hc, hd⟩
  · rintro ⟨a, b, e, c, d, rfl, ha, hb, he, hc, hd⟩
    exact ⟨(_, _, _, _, _), ⟨a, _, rfl, ha, b, _, rfl, hb, e, _, rfl, he, c, d, rfl, hc, hd⟩, rfl⟩

theorem tupleVariant_exact (hF : F.Lawful) (hL : F.Local) : RExact n F.tupleVariant.r (SpellsTupleVariant F) := by
  refine iso_exact ((hL.str.exact (n := n)).pair ((RExact.vec hL (unnamed_exact hF hL)).pair
    ((metadata_exact hF hL).pair (strs_exact hL)))) ?_
  intro u x
  constructor
  · rintro ⟨_, ⟨a, _, rfl, ha, b, _, rfl, hb, c, d, rfl, hc, hd⟩, rfl⟩
    exact ⟨a, b, c, d, rfl, ha, hb, hc, hd⟩
  · rintro ⟨a, b, c, d, rfl, ha, hb, hc, hd⟩
    exact ⟨(_, _, _, _), ⟨a, _, rfl, ha, b, _, rfl, hb, c, d, rfl, hc, hd⟩, rfl⟩

theorem unitVariant_exact (hF : F.Lawful) (hL : F.Local) : RExact n F.unitVariant.r (SpellsUnitVariant F) := by
  refine iso_exact ((hL.str.exact (n := n)).pair ((metadata_exact hF hL).pair (strs_exact hL))) ?_
  intro u x
  constructor
  · rintro ⟨_, ⟨a, _, rfl, ha, c, d, rfl, hc, hd⟩, rfl⟩
    exact ⟨a, c, d, rfl, ha, hc, hd⟩
  · rintro ⟨a, c, d, rfl, ha, hc, hd⟩
    exact ⟨(_, _, _), ⟨a, _, rfl, ha, c, d, rfl, hc, hd⟩, rfl⟩

theorem variant_exact (hF : F.Lawful) (hL : F.Local) : RExact n F.variant.r (SpellsVariant F) := by
  have hk : ∀ {i s t}, ["Struct", "Tuple", "Unit"][i]? = some s →
      (F.Tag ["Struct", "Tuple", "Unit"] t s ↔ F.tag.Spells t i) := fun h => tag_at (by decide) h
  refine (RExact.enum hF hL (R := fun i => match i with
      | 0 => RMap WireVariant.struct (SpellsStructVariant F)
      | 1 => RMap WireVariant.tuple (SpellsTupleVariant F)
      | 2 => RMap WireVariant.unit (SpellsUnitVariant F)
      | _ => fun _ _ => False) ?_).congr ?_
  · intro i
    match i with
    | 0 => exact (structVariant_exact hF hL).map _
    | 1 => exact (tupleVariant_exact hF hL).map _
    | 2 => exact (unitVariant_exact hF hL).map _
    | _ + 3 => exact RExact.none
  · intro u x
    constructor
    · rintro ⟨t, p, i, rfl, ht, h⟩
      split at h
      · obtain ⟨v, hv, rfl⟩ := h
        exact .struct t p v ((hk rfl).mpr ht) hv
      · obtain ⟨v, hv, rfl⟩ := h
        exact .tuple t p v ((hk rfl).mpr ht) hv
      · obtain ⟨v, hv, rfl⟩ := h
        exact .unit t p v ((hk rfl).mpr ht) hv
      · exact h.elim
    · intro h
      cases h with
      | struct t q v ht hv => exact ⟨t, q, 0, rfl, (hk rfl).mp ht, v, hv, rfl⟩
      | tuple t q v ht hv => exact ⟨t, q, 1, rfl, (hk rfl).mp ht, v, hv, rfl⟩
      | unit t q v ht hv => exact ⟨t, q, 2, rfl, (hk rfl).mp ht, v, hv, rfl⟩

theorem enumNode_exact (hF : F.Lawful) (hL : F.Local) : RExact n F.enumNode.r (SpellsEnum F) := by
  refine iso_exact ((hL.str.exact (n := n)).pair ((RExact.vec hL (variant_exact hF hL)).pair
    ((metadata_exact hF hL).pair (strs_exact hL)))) ?_
  intro u x
  constructor
  · rintro ⟨_, ⟨a, _, rfl, ha, b, _, rfl, hb, c, d, rfl, hc, hd⟩, rfl⟩
    exact ⟨a, b, c, d, rfl, ha, hb, hc, hd⟩
  · rintro ⟨a, b, c, d, rfl, ha, hb, hc, hd⟩
    exact ⟨(_, _, _, _), ⟨a, _, rfl, ha, b, _, rfl, hb, c, d, rfl, hc, hd⟩, rfl⟩

theorem arrayNode_exact (hF : F.Lawful) (hL : F.Local) : RExact n F.arrayNode.r (SpellsArray F) := by
  refine iso_exact ((hL.str.exact (n := n)).pair ((id_exact hF hL).pair (usize_exact hF hL))) ?_
  intro u x
  constructor
  · rintro ⟨_, ⟨a, _, rfl, ha, c, d, rfl, hc, hd⟩, rfl⟩
    exact ⟨a, c, d, rfl, ha, hc, hd⟩
  · rintro ⟨a, c, d, rfl, ha, hc, hd⟩
    exact ⟨(_, _, _), ⟨a, _, rfl, ha, c, d, rfl, hc, hd⟩, rfl⟩

theorem listNode_exact (hF : F.Lawful) (hL : F.Local) : RExact n F.listNode.r (SpellsList F) := by
  refine iso_exact ((hL.str.exact (n := n)).pair (id_exact hF hL)) ?_
  intro u x
  constructor
  · rintro ⟨_, ⟨a, c, rfl, ha, hc⟩, rfl⟩
    exact ⟨a, c, rfl, ha, hc⟩
  · rintro ⟨a, c, rfl, ha, hc⟩
    exact ⟨(_, _), ⟨a, c, rfl, ha, hc⟩, rfl⟩

theorem mapNode_exact (hF : F.Lawful) (hL : F.Local) : RExact n F.mapNode.r (SpellsMapNode F) := by
  refine iso_exact ((hL.str.exact (n := n)).pair ((id_exact hF hL).pair (id_exact hF hL))) ?_
  intro u x
  constructor
  · rintro ⟨_, ⟨a, _, rfl, ha, c, d, rfl, hc, hd⟩, rfl⟩
    exact ⟨a, c, d, rfl, ha, hc, hd⟩
  · rintro ⟨a, c, d, rfl, ha, hc, hd⟩
    exact ⟨(_, _, _), ⟨a, _, rfl, ha, c, d, rfl, hc, hd⟩, rfl⟩

theorem opaqueNode_exact (hF : F.Lawful) (hL : F.Local) : RExact n F.opaqueNode.r (SpellsOpaque F) := by
  refine iso_exact ((hL.str.exact (n := n)).pair ((metadata_exact hF hL).pair
    (RExact.option hL (value_exact hF hL)))) ?_
  intro u x
  constructor
  · rintro ⟨_, ⟨a, _, rfl, ha, c, d, rfl, hc, hd⟩, rfl⟩
    exact ⟨a, c, d, rfl, ha, hc, hd⟩
  · rintro ⟨a, c, d, rfl, ha, hc, hd⟩
    exact ⟨(_, _, _), ⟨a, _, rfl, ha, c, d, rfl, hc, hd⟩, rfl⟩

theorem kind_exact (hF : F.Lawful) (hL : F.Local) :
    RExact n F.kind.r fun u (k : ScalarKind) => F.Tag scalarForms u k.rust := by
  have hn : scalarForms.Nodup := by decide
  refine (RExact.enum hF hL (R := fun i p k => ScalarKind.ofIdx i = some k ∧ p = []) ?_).congr ?_
  · intro i
    constructor
    · intro bs k rest h
      obtain ⟨k', h1, h2⟩ := Option.map_eq_some_iff.mp h
      cases h2
      exact ⟨[], rfl, h1, rfl⟩
    · rintro _ k rest _ ⟨h, rfl⟩
      simp [h]
  · intro u k
    constructor
    · rintro ⟨t, _, i, rfl, ht, hi, rfl⟩
      rw [List.append_nil]
      exact (tag_at hn (ofIdx_forms hi).2).mpr ht
    · intro h
      exact ⟨u, [], k.idx, by simp, (tag_at hn k.rust_get.2).mp h, k.ofIdx_idx', rfl⟩

theorem node_exact (hF : F.Lawful) (hL : F.Local) : RExact n F.node.r (SpellsNode F) := by
  have hk : ∀ {i s t}, nodeForms[i]? = some s →
      (F.Tag nodeForms t s ↔ F.tag.Spells t i) := fun h => tag_at (by decide) h
  refine (RExact.enum hF hL (R := fun i => match i with
      | 0 => RMap WireNode.struct (SpellsStruct F)
      | 1 => RMap WireNode.tupleStruct (SpellsTuple F)
      | 2 => RMap WireNode.tuple (SpellsTuple F)
      | 3 => RMap WireNode.enum (SpellsEnum F)
      | 4 => RMap WireNode.list (SpellsList F)
      | 5 => RMap WireNode.array (SpellsArray F)
      | 6 => RMap WireNode.map (SpellsMapNode F)
      | 7 => RMap WireNode.scalar (fun u (k : ScalarKind) => F.Tag scalarForms u k.rust)
      | 8 => RMap WireNode.opaque (SpellsOpaque F)
      | _ => fun _ _ => False) ?_).congr ?_
  · intro i
    match i with
    | 0 => exact (struct_exact hF hL).map _
    | 1 => exact (tuple_exact hF hL).map _
    | 2 => exact (tuple_exact hF hL).map _
    | 3 => exact (enumNode_exact hF hL).map _
    | 4 => exact (listNode_exact hF hL).map _
    | 5 => exact (arrayNode_exact hF hL).map _
    | 6 => exact (mapNode_exact hF hL).map _
    | 7 => exact (kind_exact hF hL).map _
    | 8 => exact (opaqueNode_exact hF hL).map _
    | _ + 9 => exact RExact.none
  · intro u x
    constructor
    · rintro ⟨t, p, i, rfl, ht, h⟩
      split at h
      · obtain ⟨v, hv, rfl⟩ := h
        exact .struct t p v ((hk rfl).mpr ht) hv
      · obtain ⟨v, hv, rfl⟩ := h
        exact .tupleStruct t p v ((hk rfl).mpr ht) hv
      · obtain ⟨v, hv, rfl⟩ := h
        exact .tuple t p v ((hk rfl).mpr ht) hv
      · obtain ⟨v, hv, rfl⟩ := h
        exact .enum t p v ((hk rfl).mpr ht) hv
      · obtain ⟨v, hv, rfl⟩ := h
        exact .list t p v ((hk rfl).mpr ht) hv
      · obtain ⟨v, hv, rfl⟩ := h
        exact .array t p v ((hk rfl).mpr ht) hv
      · obtain ⟨v, hv, rfl⟩ := h
        exact .map t p v ((hk rfl).mpr ht) hv
      · obtain ⟨v, hv, rfl⟩ := h
        exact .scalar t p v ((hk rfl).mpr ht) hv
      · obtain ⟨v, hv, rfl⟩ := h
        exact .opaque t p v ((hk rfl).mpr ht) hv
      · exact h.elim
    · intro h
      cases h with
      | struct t q v ht hv => exact ⟨t, q, 0, rfl, (hk rfl).mp ht, v, hv, rfl⟩
      | tupleStruct t q v ht hv => exact ⟨t, q, 1, rfl, (hk rfl).mp ht, v, hv, rfl⟩
      | tuple t q v ht hv => exact ⟨t, q, 2, rfl, (hk rfl).mp ht, v, hv, rfl⟩
      | enum t q v ht hv => exact ⟨t, q, 3, rfl, (hk rfl).mp ht, v, hv, rfl⟩
      | list t q v ht hv => exact ⟨t, q, 4, rfl, (hk rfl).mp ht, v, hv, rfl⟩
      | array t q v ht hv => exact ⟨t, q, 5, rfl, (hk rfl).mp ht, v, hv, rfl⟩
      | map t q v ht hv => exact ⟨t, q, 6, rfl, (hk rfl).mp ht, v, hv, rfl⟩
      | scalar t q v ht hv => exact ⟨t, q, 7, rfl, (hk rfl).mp ht, v, hv, rfl⟩
      | «opaque» t q v ht hv => exact ⟨t, q, 8, rfl, (hk rfl).mp ht, v, hv, rfl⟩

theorem descriptor_exact (hF : F.Lawful) (hL : F.Local) : RExact n F.descriptor.r (SpellsDescriptor F) := by
  refine iso_exact ((id_exact hF hL).pair (RExact.btree hL natCmpOn (id_exact hF hL)
    (RExact.option hL (node_exact hF hL)))) ?_
  intro u x
  constructor
  · rintro ⟨_, ⟨a, c, rfl, ha, hc⟩, rfl⟩
    exact ⟨a, c, rfl, ha, hc⟩
  · rintro ⟨a, c, rfl, ha, hc⟩
    exact ⟨(_, _), ⟨a, c, rfl, ha, hc⟩, rfl⟩

end

/-! ## Little endian -/

theorem takeBytes_len {k : Nat} {a : List UInt8} (h : a.length = k) (rest : List UInt8) :
    takeBytes k (a ++ rest) = some (a, rest) := h ▸ takeBytes_append

theorem leBin_spells {k n : Nat} {u : List UInt8} (h : u.length = k) (hn : leNat u = n) : (leBin k).Spells u n := by
  intro rest
  simp only [leBin, takeBytes_len h rest, Option.map_some, hn]

theorem leInt_spells {k : IntKind} {n : Int} {u : List UInt8} (h : u.length = k.bits / 8)
    (hn : (if k.signed && decide (2 ^ (k.bits - 1) ≤ (leNat u : Int)) then (leNat u : Int) - 2 ^ k.bits else leNat u) = n) :
    (leInt k).Spells u n := by
  intro rest
  simp only [leInt, takeBytes_len h rest, Option.map_some, hn]

theorem leBin_local (k : Nat) : (leBin k).Local := by
  intro bs a rest h
  obtain ⟨⟨u, rest'⟩, h1, h2⟩ := Option.map_eq_some_iff.1 h
  cases h2
  obtain ⟨hl, rfl⟩ := takeBytes_some h1
  exact ⟨u, rfl, leBin_spells hl rfl⟩

theorem leInt_local (k : IntKind) : (leInt k).Local := by
  intro bs a rest h
  obtain ⟨⟨u, rest'⟩, h1, h2⟩ := Option.map_eq_some_iff.1 h
  cases h2
  obtain ⟨hl, rfl⟩ := takeBytes_some h1
  exact ⟨u, rfl, leInt_spells hl rfl⟩

theorem leBool_local : leBool.Local := by
  intro bs a rest h
  cases bs with
  | nil => simp [leBool] at h
  | cons b bs =>
    simp only [leBool, Option.some.injEq, Prod.mk.injEq] at h
    obtain ⟨rfl, rfl⟩ := h
    exact ⟨[b], rfl, fun rest => rfl⟩

theorem leChar_local : leChar.Local := by
  intro bs c rest h
  simp only [leChar] at h
  obtain ⟨⟨n, rest'⟩, ha, hb⟩ := Option.bind_eq_some_iff.1 h
  obtain ⟨u, rfl, hu⟩ := leBin_local 4 _ _ _ ha
  split at hb
  · next hv =>
    cases hb
    refine ⟨u, rfl, fun rest => ?_⟩
    simp only [leChar, hu rest, Option.bind_some]
    rw [if_pos hv]
  · cases hb

theorem leBits_local (k : Nat) : (leBits k).Local := by
  intro bs a rest h
  obtain ⟨⟨n, rest'⟩, h1, h2⟩ := Option.map_eq_some_iff.1 h
  cases h2
  obtain ⟨u, rfl, hu⟩ := leBin_local k _ _ _ h1
  refine ⟨u, rfl, fun rest => ?_⟩
  simp only [leBits, hu rest, Option.map_some]

theorem leStr_local : leStr.Local := by
  intro bs s rest h
  simp only [leStr] at h
  obtain ⟨⟨n, r1⟩, h1, h2⟩ := Option.bind_eq_some_iff.1 h
  obtain ⟨⟨a, r2⟩, h3, h4⟩ := Option.bind_eq_some_iff.1 h2
  obtain ⟨t, h5, h6⟩ := Option.map_eq_some_iff.1 h4
  cases h6
  obtain ⟨u, rfl, hu⟩ := leBin_local 4 _ _ _ h1
  obtain ⟨hl, rfl⟩ := takeBytes_some h3
  refine ⟨u ++ a, by simp, fun rest => ?_⟩
  simp only [leStr, List.append_assoc, hu (a ++ rest), Option.bind_some, takeBytes_len hl rest, h5, Option.map_some]

theorem le_local : Speedy.le.Local where
  tag := leBin_local 4
  len := leBin_local 4
  flag := leBool_local
  int := leInt_local
  bool := leBool_local
  char := leChar_local
  f32 := leBits_local 4
  f64 := leBits_local 8
  str := leStr_local

end Mirror
