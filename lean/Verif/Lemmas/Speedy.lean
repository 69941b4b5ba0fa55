import Verif.Spec.Speedy
import Verif.Lemmas.Codec

set_option linter.unusedSimpArgs false

/-!
# Lemmas on reading back what was written as bytes
-/

namespace Mirror

/-! ## Putting writers and readers together -/

theorem wcat_some {a b : Option (List UInt8)} {z : List UInt8} :
    wcat a b = some z ↔ ∃ x y, a = some x ∧ b = some y ∧ z = x ++ y := by
  simp only [wcat, Option.bind_eq_some_iff, Option.map_eq_some_iff]
  constructor
  · rintro ⟨x, hx, y, hy, rfl⟩; exact ⟨x, y, hx, hy, rfl⟩
  · rintro ⟨x, y, hx, hy, rfl⟩; exact ⟨x, hx, y, hy, rfl⟩

theorem wcat_ex {a b : Option (List UInt8)} :
    (∃ z, wcat a b = some z) ↔ (∃ x, a = some x) ∧ ∃ y, b = some y := by
  simp only [wcat_some]
  constructor
  · rintro ⟨z, x, y, hx, hy, rfl⟩; exact ⟨⟨x, hx⟩, y, hy⟩
  · rintro ⟨⟨x, hx⟩, y, hy⟩; exact ⟨_, x, y, hx, hy, rfl⟩

theorem wcats_ex {l : List (Option (List UInt8))} :
    (∃ z, wcats l = some z) ↔ ∀ a ∈ l, ∃ x, a = some x := by
  induction l with
  | nil => simp [wcats]
  | cons a l ih => simp only [wcats, wcat_ex, ih, List.mem_cons, forall_eq_or_imp]

/-- The reader `r` gives back what was written as `w`. -/
def Back {α} (w : Option (List UInt8)) (r : List UInt8 → Option (α × List UInt8)) (a : α) : Prop :=
  ∀ bs rest, w = some bs → r (bs ++ rest) = some (a, rest)

/-- Whatever the reader gives satisfies `Q`, and the rest is a suffix. -/
def ROnly {α} (r : List UInt8 → Option (α × List UInt8)) (Q : α → Prop) : Prop :=
  ∀ bs a rest, r bs = some (a, rest) → Q a ∧ ∃ used, bs = used ++ rest

theorem Back.bind {α β} {w1 w2 : Option (List UInt8)} {r : List UInt8 → Option (α × List UInt8)}
    {k : α → List UInt8 → Option (β × List UInt8)} {a : α} {b : β} (h1 : Back w1 r a)
    (h2 : Back w2 (k a) b) :
    Back (wcat w1 w2) (fun bs => (r bs).bind fun p => k p.1 p.2) b := by
  intro bs rest h
  obtain ⟨x, y, hx, hy, rfl⟩ := wcat_some.1 h
  simp only [List.append_assoc, h1 x (y ++ rest) hx, Option.bind_some]
  exact h2 y rest hy

theorem Back.map {α β} {w : Option (List UInt8)} {r : List UInt8 → Option (α × List UInt8)}
    {mk : α → β} {a : α} {b : β} (h : Back w r a) (hb : mk a = b) :
    Back w (fun bs => (r bs).map fun p => (mk p.1, p.2)) b := by
  intro bs rest hw
  simp only [h bs rest hw, Option.map_some, hb]

theorem Back.pure {α} (a : α) : Back (some []) (fun bs => some (a, bs)) a := by
  intro bs rest h
  cases h
  rfl

theorem Back.pair {α β} {w1 w2 : Option (List UInt8)} {r : List UInt8 → Option (α × List UInt8)}
    {s : List UInt8 → Option (β × List UInt8)} {a : α} {b : β} (h1 : Back w1 r a) (h2 : Back w2 s b) :
    Back (wcat w1 w2) (rpair r s) (a, b) :=
  h1.bind (k := fun a bs => (s bs).map fun q => ((a, q.1), q.2)) (h2.map (mk := fun b => (a, b)) rfl)

theorem Back.many {α} {w : α → Option (List UInt8)} {r : List UInt8 → Option (α × List UInt8)}
    {xs : List α} (h : ∀ x ∈ xs, Back (w x) r x) : Back (wcats (xs.map w)) (rmany r xs.length) xs := by
  induction xs with
  | nil => exact Back.pure []
  | cons x xs ih =>
    exact (h x (by simp)).bind (k := fun a bs => (rmany r xs.length bs).map fun q => (a :: q.1, q.2))
      ((ih fun y hy => h y (by simp [hy])).map (mk := fun ys => x :: ys) rfl)

theorem ROnly.mono {α} {r : List UInt8 → Option (α × List UInt8)} {P Q : α → Prop} (h : ROnly r P)
    (hPQ : ∀ a, P a → Q a) : ROnly r Q :=
  fun bs a rest hr => ⟨hPQ a (h bs a rest hr).1, (h bs a rest hr).2⟩

theorem ROnly.bind {α β} {r : List UInt8 → Option (α × List UInt8)} {P : α → Prop} {Q : β → Prop}
    {k : α → List UInt8 → Option (β × List UInt8)} (h1 : ROnly r P) (h2 : ∀ a, P a → ROnly (k a) Q) :
    ROnly (fun bs => (r bs).bind fun p => k p.1 p.2) Q := by
  intro bs b rest h
  obtain ⟨⟨a, rest'⟩, ha, hb⟩ := Option.bind_eq_some_iff.1 h
  obtain ⟨hP, u, rfl⟩ := h1 _ _ _ ha
  obtain ⟨hQ, v, rfl⟩ := h2 a hP _ _ _ hb
  exact ⟨hQ, u ++ v, by simp⟩

theorem ROnly.map {α β} {r : List UInt8 → Option (α × List UInt8)} {P : α → Prop} {Q : β → Prop}
    {mk : α → β} (h : ROnly r P) (hQ : ∀ a, P a → Q (mk a)) :
    ROnly (fun bs => (r bs).map fun p => (mk p.1, p.2)) Q := by
  intro bs b rest hb
  obtain ⟨⟨a, rest'⟩, ha, he⟩ := Option.map_eq_some_iff.1 hb
  cases he
  exact ⟨hQ a (h _ _ _ ha).1, (h _ _ _ ha).2⟩

theorem ROnly.pure {α} {a : α} {Q : α → Prop} (h : Q a) : ROnly (fun bs => some (a, bs)) Q := by
  intro bs b rest hb
  cases hb
  exact ⟨h, [], rfl⟩

theorem ROnly.none {α} {Q : α → Prop} : ROnly (fun _ => Option.none) Q := by
  intro bs b rest hb
  cases hb

theorem ROnly.pair {α β} {r : List UInt8 → Option (α × List UInt8)}
    {s : List UInt8 → Option (β × List UInt8)} {P : α → Prop} {Q : β → Prop} (h1 : ROnly r P)
    (h2 : ROnly s Q) : ROnly (rpair r s) fun p => P p.1 ∧ Q p.2 :=
  h1.bind (k := fun a bs => (s bs).map fun q : β × List UInt8 => ((a, q.1), q.2)) fun a ha =>
    h2.map (mk := fun b => (a, b)) (Q := fun p => P p.1 ∧ Q p.2) fun _ hb => ⟨ha, hb⟩

theorem ROnly.many {α} {r : List UInt8 → Option (α × List UInt8)} {P : α → Prop} (h : ROnly r P)
    (n : Nat) : ROnly (rmany r n) fun xs => xs.length = n ∧ ∀ x ∈ xs, P x := by
  induction n with
  | zero => exact ROnly.pure (by simp)
  | succ n ih =>
    exact h.bind (k := fun a bs => (rmany r n bs).map fun q => (a :: q.1, q.2)) fun a ha =>
      ih.map (mk := fun xs => a :: xs) (Q := fun xs => xs.length = n + 1 ∧ ∀ x ∈ xs, P x) fun xs hxs => ⟨by simp [hxs.1], by
        intro x hx
        rcases List.mem_cons.1 hx with rfl | hx
        · exact ha
        · exact hxs.2 x hx⟩

/-! ## Readers that agree on short inputs -/

/-- Two readers do the same on inputs of at most `n` bytes. -/
def RAgree {α} (n : Nat) (r s : List UInt8 → Option (α × List UInt8)) : Prop :=
  ∀ bs, bs.length ≤ n → r bs = s bs

theorem ROnly.le {α} {r : List UInt8 → Option (α × List UInt8)} {P : α → Prop} (h : ROnly r P)
    {bs a rest} (hr : r bs = some (a, rest)) : rest.length ≤ bs.length := by
  obtain ⟨_, u, rfl⟩ := h _ _ _ hr
  simp

theorem RAgree.rfl {α} {n} {r : List UInt8 → Option (α × List UInt8)} : RAgree n r r := fun _ _ => Eq.refl _

theorem RAgree.bind {α β} {n} {r s : List UInt8 → Option (α × List UInt8)} {P : α → Prop}
    {k l : α → List UInt8 → Option (β × List UInt8)} (h : ROnly r P) (h1 : RAgree n r s)
    (h2 : ∀ a, RAgree n (k a) (l a)) :
    RAgree n (fun bs => (r bs).bind fun p => k p.1 p.2) (fun bs => (s bs).bind fun p => l p.1 p.2) := by
  intro bs hbs
  simp only [← h1 bs hbs]
  cases hr : r bs with
  | none => simp only [Option.bind_none]
  | some p => exact h2 p.1 p.2 (Nat.le_trans (h.le (a := p.1) (rest := p.2) hr) hbs)

theorem RAgree.map {α β} {n} {r s : List UInt8 → Option (α × List UInt8)} {mk : α → β}
    (h : RAgree n r s) :
    RAgree n (fun bs => (r bs).map fun p => (mk p.1, p.2)) (fun bs => (s bs).map fun p => (mk p.1, p.2)) := by
  intro bs hbs
  simp only [h bs hbs]

theorem RAgree.pair {α β} {n} {r s : List UInt8 → Option (α × List UInt8)} {P : α → Prop}
    {k l : List UInt8 → Option (β × List UInt8)} (h : ROnly r P) (h1 : RAgree n r s)
    (h2 : RAgree n k l) : RAgree n (rpair r k) (rpair s l) :=
  h1.bind (k := fun a bs => (k bs).map fun q : β × List UInt8 => ((a, q.1), q.2))
    (l := fun a bs => (l bs).map fun q : β × List UInt8 => ((a, q.1), q.2)) h fun a => h2.map (mk := fun b => (a, b))

theorem RAgree.many {α} {n} {r s : List UInt8 → Option (α × List UInt8)} {P : α → Prop} (h : ROnly r P)
    (h1 : RAgree n r s) (m : Nat) : RAgree n (rmany r m) (rmany s m) := by
  induction m with
  | zero => exact RAgree.rfl
  | succ m ih =>
    exact h1.bind (k := fun a bs => (rmany r m bs).map fun q => (a :: q.1, q.2))
      (l := fun a bs => (rmany s m bs).map fun q => (a :: q.1, q.2)) h fun a => ih.map (mk := fun xs => a :: xs)

/-! ## Faithful formats -/

section
variable {α β : Type}

theorem Bin.Faithful.ofParts {c : Bin α} {S L : α → Prop}
    (h1 : ∀ a, S a → ((∃ bs, c.w a = some bs) ↔ L a)) (h2 : ∀ a, S a → Back (c.w a) c.r a)
    (h3 : ROnly c.r fun a => S a ∧ L a) : c.Faithful S L :=
  ⟨h1, fun a bs rest ha => h2 a ha bs rest, fun bs a rest h => by
    obtain ⟨⟨h4, h5⟩, h6⟩ := h3 bs a rest h
    exact ⟨h4, h5, h6⟩⟩

theorem Bin.Faithful.toBack {c : Bin α} {S L : α → Prop} (h : c.Faithful S L) {a : α} (ha : S a) :
    Back (c.w a) c.r a := fun bs rest hw => h.back a bs rest ha hw

theorem Bin.Faithful.toOnly {c : Bin α} {S L : α → Prop} (h : c.Faithful S L) :
    ROnly c.r fun a => S a ∧ L a := fun bs a rest hr =>
  ⟨⟨(h.only bs a rest hr).1, (h.only bs a rest hr).2.1⟩, (h.only bs a rest hr).2.2⟩

theorem Bin.Faithful.congr {c : Bin α} {S L S' L' : α → Prop} (h : c.Faithful S L)
    (hS : ∀ a, S a ↔ S' a) (hL : ∀ a, L a ↔ L' a) : c.Faithful S' L' := by
  have e1 : S = S' := funext fun a => propext (hS a)
  have e2 : L = L' := funext fun a => propext (hL a)
  exact e1 ▸ e2 ▸ h

theorem Bin.Faithful.pair {c : Bin α} {d : Bin β} {S L : α → Prop} {S' L' : β → Prop}
    (hc : c.Faithful S L) (hd : d.Faithful S' L') :
    (c.pair d).Faithful (fun p => S p.1 ∧ S' p.2) fun p => L p.1 ∧ L' p.2 := by
  refine .ofParts ?_ ?_ ?_
  · rintro ⟨a, b⟩ ⟨ha, hb⟩
    simp only [Bin.pair, wcat_ex, hc.writes a ha, hd.writes b hb]
  · rintro ⟨a, b⟩ ⟨ha, hb⟩
    exact (hc.toBack ha).pair (hd.toBack hb)
  · exact (hc.toOnly.pair hd.toOnly).mono fun p hp => ⟨⟨hp.1.1, hp.2.1⟩, hp.1.2, hp.2.2⟩

theorem Bin.Faithful.iso {c : Bin α} {S L : α → Prop} (hc : c.Faithful S L) {mk : α → β} {un : β → α}
    (h1 : ∀ b, mk (un b) = b) (h2 : ∀ a, S a → un (mk a) = a) :
    (c.iso mk un).Faithful (fun b => S (un b)) fun b => L (un b) := by
  refine .ofParts ?_ ?_ ?_
  · intro b hb
    exact hc.writes _ hb
  · intro b hb
    exact (hc.toBack hb).map (h1 b)
  · exact hc.toOnly.map fun a ha => by rw [h2 a ha.1]; exact ha

variable {F : Speedy}

theorem Speedy.Lawful.rvec (hF : F.Lawful) {r : List UInt8 → Option (α × List UInt8)} {P : α → Prop}
    (h : ROnly r P) : ROnly (F.rvec r) fun xs => Fits32 xs.length ∧ ∀ x ∈ xs, P x :=
  hF.len.toOnly.bind (k := fun n bs => rmany r n bs) fun n hn => (h.many n).mono fun xs hxs =>
    ⟨hxs.1 ▸ hn.2, hxs.2⟩

theorem Speedy.Lawful.backVec (hF : F.Lawful) {w : α → Option (List UInt8)}
    {r : List UInt8 → Option (α × List UInt8)} {xs : List α} (h : ∀ x ∈ xs, Back (w x) r x) :
    Back (wcat (F.len.w xs.length) (wcats (xs.map w))) (F.rvec r) xs :=
  (hF.len.toBack trivial).bind (k := fun n bs => rmany r n bs) (Back.many h)

theorem Speedy.Lawful.vec (hF : F.Lawful) {c : Bin α} {S L : α → Prop} (hc : c.Faithful S L) :
    (F.vec c).Faithful (fun xs => ∀ x ∈ xs, S x) fun xs => Fits32 xs.length ∧ ∀ x ∈ xs, L x := by
  refine .ofParts ?_ ?_ ?_
  · intro xs hxs
    simp only [Speedy.vec, wcat_ex, wcats_ex, hF.len.writes _ trivial]
    simp only [List.forall_mem_map]
    exact and_congr Iff.rfl ⟨fun h x hx => (hc.writes x (hxs x hx)).1 (h x hx),
      fun h x hx => (hc.writes x (hxs x hx)).2 (h x hx)⟩
  · intro xs hxs
    exact hF.backVec fun x hx => hc.toBack (hxs x hx)
  · exact (hF.rvec hc.toOnly).mono fun xs h =>
      ⟨fun x hx => (h.2 x hx).1, h.1, fun x hx => (h.2 x hx).2⟩

theorem bmPut_length_le {κ : Type} (cmp : κ → κ → Ordering) (k : κ) (v : α) (m : List (κ × α)) :
    (bmPut cmp k v m).length ≤ m.length + 1 := by
  induction m with
  | nil => simp [bmPut]
  | cons p m ih =>
    obtain ⟨k', v'⟩ := p
    simp only [bmPut]
    split <;> simp only [List.length_cons] <;> omega

theorem bmCollect_length_le {κ : Type} (cmp : κ → κ → Ordering) (l : List (κ × α)) :
    (bmCollect cmp l).length ≤ l.length := by
  have : ∀ (l m : List (κ × α)),
      (l.foldl (fun m p => bmPut cmp p.1 p.2 m) m).length ≤ m.length + l.length := by
    intro l
    induction l with
    | nil => intro m; simp
    | cons p l ih =>
      intro m
      simp only [List.foldl_cons, List.length_cons]
      have := ih (bmPut cmp p.1 p.2 m)
      have := bmPut_length_le cmp p.1 p.2 m
      omega
  have := this l []
  simp only [List.length_nil, Nat.zero_add] at this
  exact this

theorem Speedy.Lawful.rbtree (hF : F.Lawful) {κ : Type} {cmp : κ → κ → Ordering}
    (hcmp : CmpOn (fun _ : κ => True) cmp) {k : List UInt8 → Option (κ × List UInt8)}
    {r : List UInt8 → Option (α × List UInt8)} {P : κ → Prop} {Q : α → Prop} (hk : ROnly k P)
    (h : ROnly r Q) :
    ROnly (F.rbtree cmp k r) fun m => BMSorted cmp m ∧ Fits32 m.length ∧ ∀ p ∈ m, P p.1 ∧ Q p.2 :=
  (hF.rvec (hk.pair h)).map (mk := bmCollect cmp)
    (Q := fun m => BMSorted cmp m ∧ Fits32 m.length ∧ ∀ p ∈ m, P p.1 ∧ Q p.2) fun _ hl => ⟨bmCollect_sorted hcmp (by simp),
    Nat.lt_of_le_of_lt (bmCollect_length_le _ _) hl.1, fun p hp => hl.2 p (bmCollect_mem hp)⟩

theorem Speedy.Lawful.backBtree (hF : F.Lawful) {κ : Type} {cmp : κ → κ → Ordering}
    (hcmp : CmpOn (fun _ : κ => True) cmp) {wk : κ → Option (List UInt8)} {wa : α → Option (List UInt8)}
    {k : List UInt8 → Option (κ × List UInt8)} {r : List UInt8 → Option (α × List UInt8)}
    {m : List (κ × α)} (hs : BMSorted cmp m) (h1 : ∀ p ∈ m, Back (wk p.1) k p.1)
    (h2 : ∀ p ∈ m, Back (wa p.2) r p.2) :
    Back (wcat (F.len.w m.length) (wcats (m.map fun p => wcat (wk p.1) (wa p.2)))) (F.rbtree cmp k r) m :=
  (hF.backVec fun p hp => (h1 p hp).pair (h2 p hp)).map (bmCollect_self hcmp (by simp) hs)

theorem Speedy.Lawful.btree (hF : F.Lawful) {κ : Type} {cmp : κ → κ → Ordering}
    (hcmp : CmpOn (fun _ : κ => True) cmp) {k : Bin κ} {c : Bin α} {S L : κ → Prop} {S' L' : α → Prop}
    (hk : k.Faithful S L) (hc : c.Faithful S' L') :
    (F.btree cmp k c).Faithful (fun m => BMSorted cmp m ∧ ∀ p ∈ m, S p.1 ∧ S' p.2)
      fun m => Fits32 m.length ∧ ∀ p ∈ m, L p.1 ∧ L' p.2 := by
  refine .ofParts ?_ ?_ ?_
  · intro m hm
    exact (hF.vec (hk.pair hc)).writes m hm.2
  · intro m hm
    exact hF.backBtree hcmp hm.1 (fun p hp => hk.toBack (hm.2 p hp).1) fun p hp => hc.toBack (hm.2 p hp).2
  · exact (hF.rbtree hcmp hk.toOnly hc.toOnly).mono fun m hm =>
      ⟨⟨hm.1, fun p hp => ⟨(hm.2.2 p hp).1.1, (hm.2.2 p hp).2.1⟩⟩, hm.2.1,
        fun p hp => ⟨(hm.2.2 p hp).1.2, (hm.2.2 p hp).2.2⟩⟩

theorem Speedy.Lawful.option (hF : F.Lawful) {c : Bin α} {S L : α → Prop} (hc : c.Faithful S L) :
    (F.option c).Faithful (fun o => ∀ a, o = some a → S a) fun o => ∀ a, o = some a → L a := by
  refine .ofParts ?_ ?_ ?_
  · rintro (_ | a) ha
    · simp only [Speedy.option, hF.flag.writes _ trivial]; simp
    · simp only [Speedy.option, wcat_ex, hF.flag.writes _ trivial, hc.writes a (ha a rfl)]; simp
  · rintro (_ | a) ha
    · intro bs rest hw
      simp only [Speedy.option, hF.flag.back _ bs rest trivial hw, Option.bind_some]
      rfl
    · exact (hF.flag.toBack trivial).bind (k := fun (b : Bool) bs => if b then
        (c.r bs).map fun q => (some q.1, q.2) else some (none, bs)) (a := true) ((hc.toBack (ha a rfl)).map (mk := some) rfl)
  · refine hF.flag.toOnly.bind (k := fun (b : Bool) bs => if b then
        (c.r bs).map fun q => (some q.1, q.2) else some (none, bs)) ?_
    rintro (_ | _) _
    · exact ROnly.pure ⟨by simp, by simp⟩
    · refine hc.toOnly.map ?_
      intro a ha
      exact ⟨by rintro _ ⟨⟩; exact ha.1, by rintro _ ⟨⟩; exact ha.2⟩

theorem Speedy.Lawful.enum (hF : F.Lawful) {idx : α → Nat} {w : α → Option (List UInt8)}
    {r : Nat → List UInt8 → Option (α × List UInt8)} {S L : α → Prop} (hi : ∀ a, idx a < 256)
    (h1 : ∀ a, S a → ((∃ bs, w a = some bs) ↔ L a)) (h2 : ∀ a, S a → Back (w a) (r (idx a)) a)
    (h3 : ∀ i, ROnly (r i) fun a => S a ∧ L a) : (F.enum idx w r).Faithful S L := by
  have hi' : ∀ a, Fits32 (idx a) := fun a => Nat.lt_trans (hi a) (by decide)
  refine .ofParts ?_ ?_ ?_
  · intro a ha
    simp only [Speedy.enum, wcat_ex, h1 a ha, hF.tag.writes _ (hi' a)]
    simp
  · intro a ha
    exact (hF.tag.toBack (hi' a)).bind (h2 a ha)
  · exact hF.tag.toOnly.bind fun i _ => h3 i

theorem Bin.Faithful.armOnly {c : Bin α} {S L : α → Prop} (hc : c.Faithful S L) {mk : α → β}
    {Q : β → Prop} (h : ∀ a, S a → L a → Q (mk a)) : ROnly (c.arm mk) Q :=
  hc.toOnly.map fun a ha => h a ha.1 ha.2

theorem Bin.Faithful.armBack {c : Bin α} {S L : α → Prop} (hc : c.Faithful S L) {mk : α → β}
    {a : α} (ha : S a) : Back (c.w a) (c.arm mk) (mk a) :=
  (hc.toBack ha).map rfl

/-! ## Scalars -/

theorem ScalarKind.idx_lt (k : ScalarKind) : k.idx < 16 := by
  cases k with
  | int k => cases k <;> decide
  | _ => decide

theorem ScalarKind.ofIdx_idx' (k : ScalarKind) : ScalarKind.ofIdx k.idx = some k := by
  cases k with
  | int k => cases k <;> rfl
  | _ => rfl

theorem Speedy.Lawful.strs (hF : F.Lawful) : F.strs.Faithful (fun _ => True) ShortStrs :=
  (hF.vec hF.str).congr (by simp) fun _ => Iff.rfl

theorem Speedy.Lawful.wscalar (hF : F.Lawful) {s : Scalar} (h : s.Fits) :
    (∃ bs, F.wscalar s = some bs) ↔ s.Short := by
  cases s with
  | int k n => exact (hF.int k).writes n h
  | bool b => exact hF.bool.writes b trivial
  | char c => exact hF.char.writes c trivial
  | f32 b => exact hF.f32.writes b trivial
  | f64 b => exact hF.f64.writes b trivial
  | string t => exact hF.str.writes t trivial

theorem Speedy.Lawful.backScalar (hF : F.Lawful) {s : Scalar} (h : s.Fits) :
    Back (F.wscalar s) (F.rscalar s.kind) s := by
  cases s with
  | int k n => exact (hF.int k).armBack h
  | bool b => exact hF.bool.armBack trivial
  | char c => exact hF.char.armBack trivial
  | f32 b => exact hF.f32.armBack trivial
  | f64 b => exact hF.f64.armBack trivial
  | string t => exact hF.str.armBack trivial

theorem Speedy.Lawful.rscalar (hF : F.Lawful) (k : ScalarKind) :
    ROnly (F.rscalar k) fun s => s.Fits ∧ s.Short := by
  cases k with
  | int k => exact (hF.int k).armOnly fun a h _ => ⟨h, trivial⟩
  | bool => exact hF.bool.armOnly fun a _ _ => ⟨trivial, trivial⟩
  | char => exact hF.char.armOnly fun a _ _ => ⟨trivial, trivial⟩
  | f32 => exact hF.f32.armOnly fun a _ _ => ⟨trivial, trivial⟩
  | f64 => exact hF.f64.armOnly fun a _ _ => ⟨trivial, trivial⟩
  | string => exact hF.str.armOnly fun a _ h => ⟨trivial, h⟩

theorem Speedy.Lawful.scalar (hF : F.Lawful) : F.scalar.Faithful Scalar.Fits Scalar.Short := by
  refine hF.enum (fun a => Nat.lt_trans (ScalarKind.idx_lt _) (by decide)) (fun a ha => hF.wscalar ha) ?_ ?_
  · intro a ha
    simp only [ScalarKind.ofIdx_idx']
    exact hF.backScalar ha
  · intro i
    cases h : ScalarKind.ofIdx i with
    | none => exact ROnly.none
    | some k => exact hF.rscalar k

theorem Speedy.Lawful.kind (hF : F.Lawful) : F.kind.Faithful (fun _ => True) fun _ => True := by
  refine hF.enum (fun a => Nat.lt_trans (ScalarKind.idx_lt _) (by decide)) (by simp) ?_ ?_
  · intro a ha
    simp only [ScalarKind.ofIdx_idx', Option.map_some]
    exact Back.pure a
  · intro i
    cases h : ScalarKind.ofIdx i with
    | none => exact ROnly.none
    | some k => exact ROnly.pure ⟨trivial, trivial⟩

/-! ## Values -/

theorem bwList_eq (F : Speedy) (xs : List Value) : Value.bwList F xs = wcats (xs.map (Value.bw F)) := by
  induction xs with
  | nil => simp [Value.bwList, wcats]
  | cons x xs ih => simp [Value.bwList, wcats, ih]

theorem bwFields_eq (F : Speedy) (fs : List (String × Value)) :
    Value.bwFields F fs = wcats (fs.map fun p => wcat (F.str.w p.1) (Value.bw F p.2)) := by
  induction fs with
  | nil => simp [Value.bwFields, wcats]
  | cons x xs ih => simp [Value.bwFields, wcats, ih]

theorem bwPairs_eq (F : Speedy) (kvs : List (Value × Value)) :
    Value.bwPairs F kvs = wcats (kvs.map fun p => wcat (Value.bw F p.1) (Value.bw F p.2)) := by
  induction kvs with
  | nil => simp [Value.bwPairs, wcats]
  | cons x xs ih => simp [Value.bwPairs, wcats, ih]

theorem fits32_small {n : Nat} (h : n < 256) : Fits32 n := Nat.lt_trans h (by decide)

theorem tag_writes (hF : F.Lawful) {n : Nat} (h : n < 256) : (∃ bs, F.tag.w n = some bs) ↔ True :=
  hF.tag.writes n (fits32_small h)

/-- Writing a value succeeds exactly if everything in it is short. -/
theorem bw_writes (hF : F.Lawful) {v : Value} (h : v.Storable) : (∃ bs, v.bw F = some bs) ↔ v.Short := by
  have hlen : ∀ n, (∃ bs, F.len.w n = some bs) ↔ Fits32 n := fun n => hF.len.writes n trivial
  have hstr : ∀ n, (∃ bs, F.str.w n = some bs) ↔ ShortStr n := fun n => hF.str.writes n trivial
  have hstrs : ∀ n, (∃ bs, F.strs.w n = some bs) ↔ ShortStrs n := fun n => hF.strs.writes n trivial
  induction h with
  | scalar s hs =>
    rw [Value.bw, wcat_ex, tag_writes hF (Nat.lt_trans (ScalarKind.idx_lt _) (by decide)), hF.wscalar hs, true_and]
    exact ⟨.scalar s, by rintro ⟨⟩; assumption⟩
  | struct ns fs _ _ ih =>
    rw [Value.bw, bwFields_eq]
    simp only [wcat_ex, wcats_ex, List.forall_mem_map, hlen, hstr, hstrs, tag_writes hF (by decide : (16:Nat) < 256), true_and]
    constructor
    · rintro ⟨h1, h2, h3⟩
      exact .struct _ _ h1 h2 (fun p hp => (h3 p hp).1) fun p hp => (ih p hp).1 (h3 p hp).2
    · rintro ⟨⟩
      next h1 h2 h3 h4 => exact ⟨h1, h2, fun p hp => ⟨h3 p hp, (ih p hp).2 (h4 p hp)⟩⟩
  | enumS v ns fs _ _ ih =>
    rw [Value.bw, bwFields_eq]
    simp only [wcat_ex, wcats_ex, List.forall_mem_map, hlen, hstr, hstrs, tag_writes hF (by decide : (17:Nat) < 256),
      tag_writes hF (by decide : (0:Nat) < 256), true_and]
    constructor
    · rintro ⟨h0, h1, h2, h3⟩
      exact .enumS _ _ _ h0 h1 h2 (fun p hp => (h3 p hp).1) fun p hp => (ih p hp).1 (h3 p hp).2
    · rintro ⟨⟩
      next h0 h1 h2 h3 h4 => exact ⟨h0, h1, h2, fun p hp => ⟨h3 p hp, (ih p hp).2 (h4 p hp)⟩⟩
  | enumT v fs _ ih =>
    rw [Value.bw, bwList_eq]
    simp only [wcat_ex, wcats_ex, List.forall_mem_map, hlen, hstr, tag_writes hF (by decide : (17:Nat) < 256),
      tag_writes hF (by decide : (1:Nat) < 256), true_and]
    constructor
    · rintro ⟨h0, h1, h2⟩
      exact .enumT _ _ h0 h1 fun p hp => (ih p hp).1 (h2 p hp)
    · rintro ⟨⟩
      next h0 h1 h2 => exact ⟨h0, h1, fun p hp => (ih p hp).2 (h2 p hp)⟩
  | enumU v =>
    rw [Value.bw]
    simp only [wcat_ex, hstr, tag_writes hF (by decide : (17:Nat) < 256),
      tag_writes hF (by decide : (2:Nat) < 256), true_and, and_true]
    exact ⟨.enumU v, by rintro ⟨⟩; assumption⟩
  | tupleStruct fs _ ih =>
    rw [Value.bw, bwList_eq]
    simp only [wcat_ex, wcats_ex, List.forall_mem_map, hlen, tag_writes hF (by decide : (18:Nat) < 256), true_and]
    constructor
    · rintro ⟨h1, h2⟩
      exact .tupleStruct _ h1 fun p hp => (ih p hp).1 (h2 p hp)
    · rintro ⟨⟩
      next h1 h2 => exact ⟨h1, fun p hp => (ih p hp).2 (h2 p hp)⟩
  | tuple fs _ ih =>
    rw [Value.bw, bwList_eq]
    simp only [wcat_ex, wcats_ex, List.forall_mem_map, hlen, tag_writes hF (by decide : (19:Nat) < 256), true_and]
    constructor
    · rintro ⟨h1, h2⟩
      exact .tuple _ h1 fun p hp => (ih p hp).1 (h2 p hp)
    · rintro ⟨⟩
      next h1 h2 => exact ⟨h1, fun p hp => (ih p hp).2 (h2 p hp)⟩
  | list fs _ ih =>
    rw [Value.bw, bwList_eq]
    simp only [wcat_ex, wcats_ex, List.forall_mem_map, hlen, tag_writes hF (by decide : (20:Nat) < 256), true_and]
    constructor
    · rintro ⟨h1, h2⟩
      exact .list _ h1 fun p hp => (ih p hp).1 (h2 p hp)
    · rintro ⟨⟩
      next h1 h2 => exact ⟨h1, fun p hp => (ih p hp).2 (h2 p hp)⟩
  | map kvs _ _ _ ih1 ih2 =>
    rw [Value.bw, bwPairs_eq]
    simp only [wcat_ex, wcats_ex, List.forall_mem_map, hlen, tag_writes hF (by decide : (21:Nat) < 256), true_and]
    constructor
    · rintro ⟨h1, h2⟩
      exact .map _ h1 (fun p hp => (ih1 p hp).1 (h2 p hp).1) fun p hp => (ih2 p hp).1 (h2 p hp).2
    · rintro ⟨⟩
      next h1 h2 h3 => exact ⟨h1, fun p hp => ⟨(ih1 p hp).2 (h2 p hp), (ih2 p hp).2 (h3 p hp)⟩⟩

theorem exists_bound {γ : Type} {P : Nat → γ → Prop} (l : List γ) (h : ∀ x ∈ l, ∃ d, ∀ f, d ≤ f → P f x) :
    ∃ d, ∀ f, d ≤ f → ∀ x ∈ l, P f x := by
  induction l with
  | nil => exact ⟨0, by simp⟩
  | cons x l ih =>
    obtain ⟨d1, h1⟩ := ih fun y hy => h y (by simp [hy])
    obtain ⟨d2, h2⟩ := h x (by simp)
    refine ⟨max d1 d2, fun f hf y hy => ?_⟩
    rcases List.mem_cons.1 hy with rfl | hy
    · exact h2 f (by omega)
    · exact h1 f (by omega) y hy

theorem br_step (hF : F.Lawful) {w : Option (List UInt8)} {i f : Nat} {v : Value} (hi : i < 256)
    (h : Back w (F.rvalue (Value.br F f) i) v) : Back (wcat (F.tag.w i) w) (Value.br F (f + 1)) v := by
  have := (hF.tag.toBack (fits32_small hi)).bind (k := fun i bs => F.rvalue (Value.br F f) i bs) h
  intro bs rest hw
  have := this bs rest hw
  rw [Value.br]
  exact this

theorem rvalue_scalar (F : Speedy) (rv : List UInt8 → Option (Value × List UInt8)) (k : ScalarKind) :
    F.rvalue rv k.idx = fun bs => (F.rscalar k bs).map fun q => (.scalar q.1, q.2) := by
  cases k with
  | int k => cases k <;> rfl
  | _ => rfl

/-- With enough fuel a value is read back. -/
theorem br_back (hF : F.Lawful) {v : Value} (h : v.Storable) :
    ∃ d, ∀ f, d ≤ f → Back (v.bw F) (Value.br F f) v := by
  have key : ∀ {w : Option (List UInt8)} {i : Nat} {v : Value}, v.bw F = wcat (F.tag.w i) w → i < 256 →
      (∃ d, ∀ f, d ≤ f → Back w (F.rvalue (Value.br F f) i) v) → ∃ d, ∀ f, d ≤ f → Back (v.bw F) (Value.br F f) v := by
    rintro w i v hw hi ⟨d, hd⟩
    refine ⟨d + 1, fun f hf => ?_⟩
    obtain ⟨f, rfl⟩ : ∃ g, f = g + 1 := ⟨f - 1, by omega⟩
    rw [hw]
    exact br_step hF hi (hd f (by omega))
  have hstr : ∀ n, Back (F.str.w n) F.str.r n := fun n => hF.str.toBack trivial
  have hstrs : ∀ n, Back (F.strs.w n) F.strs.r n := fun n => hF.strs.toBack trivial
  induction h with
  | scalar s hs =>
    refine key (by rw [Value.bw]) (Nat.lt_trans (ScalarKind.idx_lt _) (by decide)) ⟨0, fun f _ => ?_⟩
    rw [rvalue_scalar]
    exact (hF.backScalar hs).map (mk := fun q => Value.scalar q) rfl
  | struct ns fs hs _ ih =>
    refine key (by rw [Value.bw, bwFields_eq]) (by decide) ?_
    obtain ⟨d, hd⟩ := exists_bound fs ih
    exact ⟨d, fun f hf => ((hstrs ns).pair (hF.backBtree strCmpOn hs (fun p _ => hstr p.1) (hd f hf))).map
      (mk := fun q : List String × List (String × Value) => Value.struct q.1 q.2) rfl⟩
  | enumS v ns fs hs _ ih =>
    refine key (by rw [Value.bw, bwFields_eq]) (by decide) ?_
    obtain ⟨d, hd⟩ := exists_bound fs ih
    refine ⟨d, fun f hf => ?_⟩
    refine (hstr v).bind (k := fun n bs => F.rkind (Value.br F f) n bs) ?_
    refine (hF.tag.toBack (fits32_small (by decide : 0 < 256))).bind
      (k := fun i bs => F.rkindArm (Value.br F f) v i bs) ?_
    exact ((hstrs ns).pair (hF.backBtree strCmpOn hs (fun p _ => hstr p.1) (hd f hf))).map (mk := fun q : List String × List (String × Value) => Value.enumS v q.1 q.2) rfl
  | enumT v fs _ ih =>
    refine key (by rw [Value.bw, bwList_eq]) (by decide) ?_
    obtain ⟨d, hd⟩ := exists_bound fs ih
    refine ⟨d, fun f hf => ?_⟩
    refine (hstr v).bind (k := fun n bs => F.rkind (Value.br F f) n bs) ?_
    refine (hF.tag.toBack (fits32_small (by decide : 1 < 256))).bind
      (k := fun i bs => F.rkindArm (Value.br F f) v i bs) ?_
    exact (hF.backVec (hd f hf)).map (mk := fun q => Value.enumT v q) rfl
  | enumU v =>
    refine key (by rw [Value.bw]) (by decide) ⟨0, fun f _ => ?_⟩
    refine (hstr v).bind (k := fun n bs => F.rkind (Value.br F f) n bs) ?_
    intro bs rest hw
    simp only [Speedy.rkind, Speedy.rkindArm, hF.tag.back 2 bs rest (fits32_small (by decide)) hw, Option.bind_some]
  | tupleStruct fs _ ih =>
    refine key (by rw [Value.bw, bwList_eq]) (by decide) ?_
    obtain ⟨d, hd⟩ := exists_bound fs ih
    exact ⟨d, fun f hf => (hF.backVec (hd f hf)).map (mk := fun q => Value.tupleStruct q) rfl⟩
  | tuple fs _ ih =>
    refine key (by rw [Value.bw, bwList_eq]) (by decide) ?_
    obtain ⟨d, hd⟩ := exists_bound fs ih
    exact ⟨d, fun f hf => (hF.backVec (hd f hf)).map (mk := fun q => Value.tuple q) rfl⟩
  | list fs _ ih =>
    refine key (by rw [Value.bw, bwList_eq]) (by decide) ?_
    obtain ⟨d, hd⟩ := exists_bound fs ih
    exact ⟨d, fun f hf => (hF.backVec (hd f hf)).map (mk := fun q => Value.list q) rfl⟩
  | map kvs hs _ _ ih1 ih2 =>
    refine key (by rw [Value.bw, bwPairs_eq]) (by decide) ?_
    obtain ⟨d1, hd1⟩ := exists_bound kvs ih1
    obtain ⟨d2, hd2⟩ := exists_bound kvs ih2
    exact ⟨max d1 d2, fun f hf =>
      (hF.backBtree valueCmpOn hs (hd1 f (by omega)) (hd2 f (by omega))).map (mk := fun q => Value.map q) rfl⟩

theorem rstruct_only (hF : F.Lawful) {rv : List UInt8 → Option (Value × List UInt8)}
    {P : Value → Prop} (h : ROnly rv P) :
    ROnly (F.rstruct rv) fun x => ShortStrs x.1 ∧ BMSorted strCmp x.2 ∧ Fits32 x.2.length ∧
      ∀ p ∈ x.2, ShortStr p.1 ∧ P p.2 :=
  (hF.strs.toOnly.pair (hF.rbtree strCmpOn hF.str.toOnly h)).mono fun _ hx =>
    ⟨hx.1.2, hx.2.1, hx.2.2.1, fun p hp => ⟨(hx.2.2.2 p hp).1.2, (hx.2.2.2 p hp).2⟩⟩

theorem rkind_only (hF : F.Lawful) {rv : List UInt8 → Option (Value × List UInt8)}
    (h : ROnly rv fun v => v.Storable ∧ v.Short) {n : String} (hn : ShortStr n) :
    ROnly (F.rkind rv n) fun v => v.Storable ∧ v.Short := by
  refine hF.tag.toOnly.bind (k := fun i bs => F.rkindArm rv n i bs) ?_
  intro i _
  match i with
  | 0 => exact (rstruct_only hF h).map (mk := fun q : List String × List (String × Value) => Value.enumS n q.1 q.2) (Q := fun v => v.Storable ∧ v.Short) fun x hx =>
      ⟨.enumS _ _ _ hx.2.1 fun p hp => (hx.2.2.2 p hp).2.1,
       .enumS _ _ _ hn hx.1 hx.2.2.1 (fun p hp => (hx.2.2.2 p hp).1) fun p hp => (hx.2.2.2 p hp).2.2⟩
  | 1 => exact (hF.rvec h).map (mk := fun q => Value.enumT n q) (Q := fun v => v.Storable ∧ v.Short) fun x hx =>
      ⟨.enumT _ _ fun p hp => (hx.2 p hp).1, .enumT _ _ hn hx.1 fun p hp => (hx.2 p hp).2⟩
  | 2 => exact ROnly.pure ⟨.enumU _, .enumU _ hn⟩
  | n + 3 => exact ROnly.none

theorem rvalue_only (hF : F.Lawful) {rv : List UInt8 → Option (Value × List UInt8)}
    (h : ROnly rv fun v => v.Storable ∧ v.Short) (i : Nat) :
    ROnly (F.rvalue rv i) fun v => v.Storable ∧ v.Short := by
  intro bs v rest hv
  unfold Speedy.rvalue at hv
  split at hv
  · exact (rstruct_only hF h).map (mk := fun q : List String × List (String × Value) => Value.struct q.1 q.2) (Q := fun v => v.Storable ∧ v.Short) (fun x hx =>
      (⟨.struct _ _ hx.2.1 fun p hp => (hx.2.2.2 p hp).2.1,
       .struct _ _ hx.1 hx.2.2.1 (fun p hp => (hx.2.2.2 p hp).1) fun p hp => (hx.2.2.2 p hp).2.2⟩ :
        Value.Storable _ ∧ Value.Short _)) bs v rest hv
  · exact hF.str.toOnly.bind (k := fun n bs => F.rkind rv n bs) (fun n hn => rkind_only hF h hn.2) bs v rest hv
  · exact (hF.rvec h).map (mk := fun q => Value.tupleStruct q) (Q := fun v => v.Storable ∧ v.Short) (fun x hx =>
      (⟨.tupleStruct _ fun p hp => (hx.2 p hp).1, .tupleStruct _ hx.1 fun p hp => (hx.2 p hp).2⟩ :
        Value.Storable _ ∧ Value.Short _)) bs v rest hv
  · exact (hF.rvec h).map (mk := fun q => Value.tuple q) (Q := fun v => v.Storable ∧ v.Short) (fun x hx =>
      (⟨.tuple _ fun p hp => (hx.2 p hp).1, .tuple _ hx.1 fun p hp => (hx.2 p hp).2⟩ :
        Value.Storable _ ∧ Value.Short _)) bs v rest hv
  · exact (hF.rvec h).map (mk := fun q => Value.list q) (Q := fun v => v.Storable ∧ v.Short) (fun x hx =>
      (⟨.list _ fun p hp => (hx.2 p hp).1, .list _ hx.1 fun p hp => (hx.2 p hp).2⟩ :
        Value.Storable _ ∧ Value.Short _)) bs v rest hv
  · exact (hF.rbtree valueCmpOn h h).map (mk := fun q => Value.map q) (Q := fun v => v.Storable ∧ v.Short) (fun x hx =>
      (⟨.map _ hx.1 (fun p hp => (hx.2.2 p hp).1.1) fun p hp => (hx.2.2 p hp).2.1,
        .map _ hx.2.1 (fun p hp => (hx.2.2 p hp).1.2) fun p hp => (hx.2.2 p hp).2.2⟩ :
        Value.Storable _ ∧ Value.Short _)) bs v rest hv
  · split at hv
    · next k _ => exact (hF.rscalar k).map (mk := fun q => Value.scalar q) (Q := fun v => v.Storable ∧ v.Short) (fun x hx =>
        (⟨.scalar _ hx.1, .scalar _ hx.2⟩ : Value.Storable _ ∧ Value.Short _)) bs v rest hv
    · cases hv

theorem br_only (hF : F.Lawful) (f : Nat) : ROnly (Value.br F f) fun v => v.Storable ∧ v.Short := by
  induction f with
  | zero => intro bs a rest h; simp [Value.br] at h
  | succ f ih =>
    intro bs a rest h
    rw [Value.br] at h
    exact hF.tag.toOnly.bind (k := fun i bs => F.rvalue (Value.br F f) i bs) (fun i _ => rvalue_only hF ih i) bs a rest h

theorem rvec_agree (hF : F.Lawful) {n} {r s : List UInt8 → Option (α × List UInt8)} {P : α → Prop}
    (h : ROnly r P) (h1 : RAgree n r s) : RAgree n (F.rvec r) (F.rvec s) :=
  RAgree.rfl.bind (k := fun m bs => rmany r m bs) (l := fun m bs => rmany s m bs) hF.len.toOnly
    fun m => h1.many h m

theorem rbtree_agree (hF : F.Lawful) {κ : Type} {cmp : κ → κ → Ordering} {n}
    {k l : List UInt8 → Option (κ × List UInt8)} {r s : List UInt8 → Option (α × List UInt8)}
    {P : κ → Prop} {Q : α → Prop} (hk : ROnly k P) (h : ROnly r Q) (h1 : RAgree n k l)
    (h2 : RAgree n r s) : RAgree n (F.rbtree cmp k r) (F.rbtree cmp l s) :=
  (rvec_agree hF (hk.pair h) (h1.pair hk h2)).map (mk := bmCollect cmp)

theorem rstruct_agree (hF : F.Lawful) {n} {r s : List UInt8 → Option (Value × List UInt8)}
    {P : Value → Prop} (h : ROnly r P) (h1 : RAgree n r s) : RAgree n (F.rstruct r) (F.rstruct s) :=
  RAgree.rfl.pair hF.strs.toOnly (rbtree_agree hF hF.str.toOnly h RAgree.rfl h1)

theorem rvalue_agree (hF : F.Lawful) {n} {r s : List UInt8 → Option (Value × List UInt8)}
    {P : Value → Prop} (h : ROnly r P) (h1 : RAgree n r s) (i : Nat) :
    RAgree n (F.rvalue r i) (F.rvalue s i) := by
  have e1 := rstruct_agree hF h h1
  have e2 := rvec_agree hF h h1
  have e3 := rbtree_agree hF (cmp := Value.cmp) h h h1 h1
  have e4 : ∀ v, RAgree n (F.rkind r v) (F.rkind s v) := by
    intro v
    unfold Speedy.rkind
    refine RAgree.rfl.bind (k := fun i bs => F.rkindArm r v i bs) (l := fun i bs => F.rkindArm s v i bs)
      hF.tag.toOnly ?_
    intro i bs hbs
    match i with
    | 0 => simp only [Speedy.rkindArm, e1 bs hbs]
    | 1 => simp only [Speedy.rkindArm, e2 bs hbs]
    | 2 => rfl
    | n + 3 => rfl
  intro bs hbs
  unfold Speedy.rvalue
  split
  · rw [e1 bs hbs]
  · exact RAgree.rfl.bind (k := fun v bs => F.rkind r v bs) (l := fun v bs => F.rkind s v bs) hF.str.toOnly
      (fun v => e4 v) bs hbs
  · rw [e2 bs hbs]
  · rw [e2 bs hbs]
  · rw [e2 bs hbs]
  · rw [e3 bs hbs]
  · rfl

/-- Fuel above the number of bytes makes no difference. -/
theorem br_agree (hF : F.Lawful) : ∀ n f g, n < f → n < g → RAgree n (Value.br F f) (Value.br F g) := by
  intro n
  induction n using Nat.strongRecOn with
  | _ n ih =>
    intro f g hf hg bs hbs
    obtain ⟨f, rfl⟩ : ∃ m, f = m + 1 := ⟨f - 1, by omega⟩
    obtain ⟨g, rfl⟩ : ∃ m, g = m + 1 := ⟨g - 1, by omega⟩
    rw [Value.br, Value.br]
    cases ht : F.tag.r bs with
    | none => rfl
    | some p =>
      simp only [Option.bind_some]
      have hlt := hF.tagMoves bs p.1 p.2 ht
      exact rvalue_agree hF (br_only hF f) (ih p.2.length (by omega) f g (by omega) (by omega)) p.1 p.2 (Nat.le_refl _)

theorem Speedy.Lawful.value (hF : F.Lawful) : F.value.Faithful Value.Storable Value.Short := by
  refine .ofParts (fun v hv => bw_writes hF hv) ?_ ?_
  · intro v hv bs rest hw
    obtain ⟨d, hd⟩ := br_back hF hv
    have h1 := hd (max d ((bs ++ rest).length + 1)) (by omega) bs rest hw
    have h2 := br_agree hF (bs ++ rest).length ((bs ++ rest).length + 1) (max d ((bs ++ rest).length + 1))
      (by omega) (by omega) (bs ++ rest) (Nat.le_refl _)
    exact h2.trans h1
  · intro bs v rest h
    exact br_only hF _ bs v rest h

/-! ## Key paths and type descriptors -/

theorem Speedy.Lawful.nat (hF : F.Lawful) {k : IntKind} (hk : ∀ i : Int, k.InRange i ↔ 0 ≤ i ∧ Fits64 i.toNat) :
    ((F.int k).iso Int.toNat Nat.cast).Faithful Fits64 fun _ => True := by
  refine ((hF.int k).iso (fun b => Int.toNat_natCast b) ?_).congr ?_ (by simp)
  · intro i hi
    exact Int.toNat_of_nonneg ((hk i).1 hi).1
  · intro n
    rw [hk]
    simp

theorem Speedy.Lawful.id (hF : F.Lawful) : F.id.Faithful Fits64 fun _ => True :=
  hF.nat fun _ => u64_inRange

theorem Speedy.Lawful.usize (hF : F.Lawful) : F.usize.Faithful Fits64 fun _ => True :=
  hF.nat fun _ => u64_inRange

theorem Speedy.Lawful.namedOrNumbered (hF : F.Lawful) :
    F.namedOrNumbered.Faithful (fun | .inl _ => True | .inr i => Fits64 i)
      (fun | .inl n => ShortStr n | .inr _ => True) := by
  refine hF.enum (by rintro (_ | _) <;> simp) ?_ ?_ ?_
  · rintro (n | i) h
    · exact hF.str.writes n trivial
    · exact hF.usize.writes i h
  · rintro (n | i) h
    · exact hF.str.armBack trivial
    · exact hF.usize.armBack h
  · intro i
    match i with
    | 0 => exact hF.str.armOnly fun _ _ h => ⟨trivial, h⟩
    | 1 => exact hF.usize.armOnly fun _ h _ => ⟨h, trivial⟩
    | n + 2 => exact ROnly.none

theorem Speedy.Lawful.key (hF : F.Lawful) : F.key.Faithful Key.Storable Key.Short := by
  refine hF.enum (by rintro (_ | _ | _ | _) <;> simp) ?_ ?_ ?_
  · rintro (n | i | v | v) h
    · exact hF.namedOrNumbered.writes (.inl n) trivial
    · exact hF.namedOrNumbered.writes (.inr i) h
    · exact hF.value.writes v h
    · exact hF.str.writes v trivial
  · rintro (n | i | v | v) h
    · exact hF.namedOrNumbered.armBack (a := .inl n) trivial
    · exact hF.namedOrNumbered.armBack (a := .inr i) h
    · exact hF.value.armBack h
    · exact hF.str.armBack trivial
  · intro i
    match i with
    | 0 => exact hF.namedOrNumbered.armOnly fun a h1 h2 => by cases a <;> exact ⟨h1, h2⟩
    | 1 => exact hF.value.armOnly fun _ h1 h2 => ⟨h1, h2⟩
    | 2 => exact hF.str.armOnly fun _ _ h => ⟨trivial, h⟩
    | n + 3 => exact ROnly.none

theorem Speedy.Lawful.keyPath (hF : F.Lawful) : F.keyPath.Faithful KeyPath.Storable KeyPath.Short :=
  hF.vec hF.key

theorem Speedy.Lawful.metadata (hF : F.Lawful) : F.metadata.Faithful MetaStorable MetaShort :=
  (hF.btree strCmpOn hF.str hF.value).congr (fun _ => by simp [MetaStorable]) fun _ => Iff.rfl

theorem Speedy.Lawful.named (hF : F.Lawful) : F.named.Faithful WireNamed.Storable WireNamed.Short :=
  ((hF.str.pair (hF.id.pair (hF.metadata.pair hF.strs))).iso (fun _ => rfl) (fun _ _ => rfl)).congr
    (fun b => by simp [WireNamed.Storable]) fun b => by simp [WireNamed.Short]

theorem Speedy.Lawful.unnamed (hF : F.Lawful) : F.unnamed.Faithful WireUnnamed.Storable WireUnnamed.Short :=
  ((hF.id.pair (hF.metadata.pair hF.strs)).iso (fun _ => rfl) (fun _ _ => rfl)).congr
    (fun b => by simp [WireUnnamed.Storable]) fun b => by simp [WireUnnamed.Short]

theorem Speedy.Lawful.namedFields (hF : F.Lawful) : F.namedFields.Faithful NamedStorable NamedShort :=
  (hF.btree strCmpOn hF.str hF.named).congr (fun _ => by simp [NamedStorable]) fun _ => Iff.rfl

theorem Speedy.Lawful.struct (hF : F.Lawful) : F.struct.Faithful WireStruct.Storable WireStruct.Short :=
  ((hF.str.pair (hF.namedFields.pair (hF.strs.pair (hF.metadata.pair hF.strs)))).iso (fun _ => rfl)
    (fun _ _ => rfl)).congr (fun b => by simp [WireStruct.Storable]) fun b => by simp [WireStruct.Short]

theorem Speedy.Lawful.tuple (hF : F.Lawful) : F.tuple.Faithful WireTuple.Storable WireTuple.Short :=
  ((hF.str.pair ((hF.vec hF.unnamed).pair (hF.metadata.pair hF.strs))).iso (fun _ => rfl)
    (fun _ _ => rfl)).congr (fun b => by simp [WireTuple.Storable]) fun b => by
      simp [WireTuple.Short, UnnamedShort]

theorem Speedy.Lawful.structVariant (hF : F.Lawful) :
    F.structVariant.Faithful (fun v => (WireVariant.struct v).Storable) fun v => (WireVariant.struct v).Short :=
  ((hF.str.pair (hF.namedFields.pair (hF.strs.pair (hF.metadata.pair hF.strs)))).iso (fun _ => rfl)
    (fun _ _ => rfl)).congr (fun b => by simp [WireVariant.Storable]) fun b => by simp [WireVariant.Short]

theorem Speedy.Lawful.tupleVariant (hF : F.Lawful) :
    F.tupleVariant.Faithful (fun v => (WireVariant.tuple v).Storable) fun v => (WireVariant.tuple v).Short :=
  ((hF.str.pair ((hF.vec hF.unnamed).pair (hF.metadata.pair hF.strs))).iso (fun _ => rfl)
    (fun _ _ => rfl)).congr (fun b => by simp [WireVariant.Storable]) fun b => by
      simp [WireVariant.Short, UnnamedShort]

theorem Speedy.Lawful.unitVariant (hF : F.Lawful) :
    F.unitVariant.Faithful (fun v => (WireVariant.unit v).Storable) fun v => (WireVariant.unit v).Short :=
  ((hF.str.pair (hF.metadata.pair hF.strs)).iso (fun _ => rfl)
    (fun _ _ => rfl)).congr (fun b => by simp [WireVariant.Storable]) fun b => by simp [WireVariant.Short]

theorem Speedy.Lawful.variant (hF : F.Lawful) : F.variant.Faithful WireVariant.Storable WireVariant.Short := by
  refine hF.enum (by rintro (_ | _ | _) <;> simp) ?_ ?_ ?_
  · rintro (v | v | v) h
    · exact hF.structVariant.writes v h
    · exact hF.tupleVariant.writes v h
    · exact hF.unitVariant.writes v h
  · rintro (v | v | v) h
    · exact hF.structVariant.armBack h
    · exact hF.tupleVariant.armBack h
    · exact hF.unitVariant.armBack h
  · intro i
    match i with
    | 0 => exact hF.structVariant.armOnly fun _ h1 h2 => ⟨h1, h2⟩
    | 1 => exact hF.tupleVariant.armOnly fun _ h1 h2 => ⟨h1, h2⟩
    | 2 => exact hF.unitVariant.armOnly fun _ h1 h2 => ⟨h1, h2⟩
    | n + 3 => exact ROnly.none

theorem Speedy.Lawful.enumNode (hF : F.Lawful) :
    F.enumNode.Faithful (fun n => (WireNode.enum n).Storable) fun n => (WireNode.enum n).Short :=
  ((hF.str.pair ((hF.vec hF.variant).pair (hF.metadata.pair hF.strs))).iso (fun _ => rfl)
    (fun _ _ => rfl)).congr (fun b => by simp [WireNode.Storable]) fun b => by simp [WireNode.Short]

theorem Speedy.Lawful.arrayNode (hF : F.Lawful) :
    F.arrayNode.Faithful (fun n => (WireNode.array n).Storable) fun n => (WireNode.array n).Short :=
  ((hF.str.pair (hF.id.pair hF.usize)).iso (fun _ => rfl)
    (fun _ _ => rfl)).congr (fun b => by simp [WireNode.Storable]) fun b => by simp [WireNode.Short]

theorem Speedy.Lawful.listNode (hF : F.Lawful) :
    F.listNode.Faithful (fun n => (WireNode.list n).Storable) fun n => (WireNode.list n).Short :=
  ((hF.str.pair hF.id).iso (fun _ => rfl)
    (fun _ _ => rfl)).congr (fun b => by simp [WireNode.Storable]) fun b => by simp [WireNode.Short]

theorem Speedy.Lawful.mapNode (hF : F.Lawful) :
    F.mapNode.Faithful (fun n => (WireNode.map n).Storable) fun n => (WireNode.map n).Short :=
  ((hF.str.pair (hF.id.pair hF.id)).iso (fun _ => rfl)
    (fun _ _ => rfl)).congr (fun b => by simp [WireNode.Storable]) fun b => by simp [WireNode.Short]

theorem Speedy.Lawful.opaqueNode (hF : F.Lawful) :
    F.opaqueNode.Faithful (fun n => (WireNode.opaque n).Storable) fun n => (WireNode.opaque n).Short :=
  ((hF.str.pair (hF.metadata.pair (hF.option hF.value))).iso (fun _ => rfl)
    (fun _ _ => rfl)).congr (fun b => by simp [WireNode.Storable]) fun b => by simp [WireNode.Short]

theorem Speedy.Lawful.node (hF : F.Lawful) : F.node.Faithful WireNode.Storable WireNode.Short := by
  refine hF.enum (by intro n; cases n <;> simp) ?_ ?_ ?_
  · intro n h
    cases n with
    | struct n => exact hF.struct.writes n h
    | tupleStruct n => exact hF.tuple.writes n h
    | tuple n => exact hF.tuple.writes n h
    | enum n => exact hF.enumNode.writes n h
    | list n => exact hF.listNode.writes n h
    | array n => exact hF.arrayNode.writes n h
    | map n => exact hF.mapNode.writes n h
    | scalar n => exact hF.kind.writes n trivial
    | «opaque» n => exact hF.opaqueNode.writes n h
  · intro n h
    cases n with
    | struct n => exact hF.struct.armBack h
    | tupleStruct n => exact hF.tuple.armBack h
    | tuple n => exact hF.tuple.armBack h
    | enum n => exact hF.enumNode.armBack h
    | list n => exact hF.listNode.armBack h
    | array n => exact hF.arrayNode.armBack h
    | map n => exact hF.mapNode.armBack h
    | scalar n => exact hF.kind.armBack trivial
    | «opaque» n => exact hF.opaqueNode.armBack h
  · intro i
    match i with
    | 0 => exact hF.struct.armOnly fun _ h1 h2 => ⟨h1, h2⟩
    | 1 => exact hF.tuple.armOnly fun _ h1 h2 => ⟨h1, h2⟩
    | 2 => exact hF.tuple.armOnly fun _ h1 h2 => ⟨h1, h2⟩
    | 3 => exact hF.enumNode.armOnly fun _ h1 h2 => ⟨h1, h2⟩
    | 4 => exact hF.listNode.armOnly fun _ h1 h2 => ⟨h1, h2⟩
    | 5 => exact hF.arrayNode.armOnly fun _ h1 h2 => ⟨h1, h2⟩
    | 6 => exact hF.mapNode.armOnly fun _ h1 h2 => ⟨h1, h2⟩
    | 7 => exact hF.kind.armOnly fun _ h1 h2 => ⟨h1, h2⟩
    | 8 => exact hF.opaqueNode.armOnly fun _ h1 h2 => ⟨h1, h2⟩
    | n + 9 => exact ROnly.none

theorem Speedy.Lawful.descriptor (hF : F.Lawful) :
    F.descriptor.Faithful WireDescriptor.Storable WireDescriptor.Short :=
  ((hF.id.pair (hF.btree natCmpOn hF.id (hF.option hF.node))).iso (fun _ => rfl)
    (fun _ _ => rfl)).congr
    (fun b => by simp only [WireDescriptor.Storable, BMSorted, Nat.compare_eq_lt])
    fun b => by simp [WireDescriptor.Short]

end

end Mirror
