import Verif.Lemmas.ImplMut

/-!
# C102: `at_mut` on hand-written `Reflect` implementations

If the mutable access of every value does, one part at a time, what it says (`MutImpl.Lawful`), then
`at_mut` does so along every path.
-/

namespace Mirror

/-- C102: `at_mut` finds the same place as `at`: both find nothing, or the reference points to what `at`
finds. -/
theorem C102_same_place {A : Type} (M : MutImpl A) (R K : A → A → Prop) (h : M.Lawful R K) (a : A)
    (p : KeyPath) : (M.atMut a p).map (·.get) = M.at a p := by
  unfold MutImpl.atMut Impl.at
  split
  · rfl
  · exact h.get_go p a

/-- C102: what is written through `at_mut` is what `at` finds there afterwards, unless the path ends in a
`::Variant` key (the value written may be of another variant). -/
theorem C102_write_read {A : Type} (M : MutImpl A) (R K : A → A → Prop) (h : M.Lawful R K) (a z : A)
    (p : KeyPath) (sp : Spot A) (hs : M.atMut a p = some sp) (hz : R sp.get z)
    (hl : ∀ v, p.getLast? ≠ some (Key.variant v)) : M.at (sp.put z) p = some z := by
  unfold MutImpl.atMut at hs
  unfold Impl.at
  split at hs
  · next he => cases hs; rw [if_pos he]
  · next he => rw [if_neg he]; exact h.read_go p a sp z hs hz hl

/-- C102: a path that ends in a `::Variant` key leads to what its other keys lead to, and what is written
there replaces the enum. -/
theorem C102_write_variant {A : Type} (M : MutImpl A) (R K : A → A → Prop) (h : M.Lawful R K) (a z : A)
    (p : KeyPath) (v : String) (sp : Spot A) (hs : M.atMut a (p ++ [.variant v]) = some sp)
    (hz : R sp.get z) (hl : ∀ v, p.getLast? ≠ some (Key.variant v)) : M.at (sp.put z) p = some z := by
  by_cases hp : p = []
  · subst hp
    have : M.atKeyMut a (.variant v) = some sp := by
      obtain ⟨pl, hk, ⟨-, rfl⟩ | ⟨sp', hr, -⟩⟩ := MutImpl.atMutGo_cons (r := []) hs
      · exact hk
      · exact absurd rfl hr
    cases MutImpl.atKeyMut_variant_some this
    rfl
  · have hg : M.atMutGo a (p ++ [.variant v]) = some sp := by
      unfold MutImpl.atMut at hs
      split at hs
      · next he => cases p <;> simp [KeyPath.isEmpty] at he
      · exact hs
    obtain ⟨sp0, h0, h1, h2⟩ := MutImpl.atMutGo_variant hp hg
    refine C102_write_read M R K h a z p ⟨sp0.get, sp.put⟩ ?_ (by rw [← h1]; exact hz) hl
    unfold MutImpl.atMut
    rw [if_neg (by cases p <;> first | exact absurd rfl hp | simp [KeyPath.isEmpty]), h0]
    exact congrArg some h2

/-- C102: writing back what is there changes nothing. -/
theorem C102_write_back {A : Type} (M : MutImpl A) (R K : A → A → Prop) (h : M.Lawful R K) (a : A)
    (p : KeyPath) (sp : Spot A) (hs : M.atMut a p = some sp) : sp.put sp.get = a := by
  unfold MutImpl.atMut at hs
  split at hs
  · cases hs; rfl
  · exact h.back_go p a sp hs

/-- C102: what another path leads to, or that it leads nowhere, is the same after the write. -/
theorem C102_elsewhere {A : Type} (M : MutImpl A) (R K : A → A → Prop) (h : M.Lawful R K) (a z : A)
    (p q : KeyPath) (sp : Spot A) (hs : M.atMut a p = some sp) (hz : R sp.get z)
    (hpq : PathsApart M.toImpl K a p q) : M.at (sp.put z) q = M.at a q := by
  obtain ⟨⟨k, hk, -⟩, hq⟩ := hpq.key
  unfold MutImpl.atMut at hs
  unfold Impl.at
  rw [if_neg (by cases q <;> simp_all [KeyPath.isEmpty]), if_neg (by cases q <;> simp_all [KeyPath.isEmpty])]
  rw [if_neg (by cases p <;> simp_all [KeyPath.isEmpty])] at hs
  exact h.frame_go hpq sp z hs hz

/-- C102: over any number of later writes that go another way, what was written stays; and what a path led
to before any such writes it leads to after them. -/
theorem C102_history {A : Type} (M : MutImpl A) (R K : A → A → Prop) (h : M.Lawful R K) (p : KeyPath) :
    (∀ a b l, WritesApart M R K p a l b → M.at b p = M.at a p) ∧
    ∀ a b z sp l, M.atMut a p = some sp → R sp.get z → (∀ v, p.getLast? ≠ some (Key.variant v)) →
      WritesApart M R K p (sp.put z) l b → M.at b p = some z := by
  have stay : ∀ a b l, WritesApart M R K p a l b → M.at b p = M.at a p := by
    intro a b l hw
    induction hw with
    | nil => rfl
    | cons hs hz hq _ ih => rw [ih]; exact C102_elsewhere M R K h _ _ _ p _ hs hz hq
  exact ⟨stay, fun a b z sp l hs hz hl hw =>
    (stay _ _ _ hw).trans (C102_write_read M R K h a z p sp hs hz hl)⟩

/-- C102: a value stays one that may stand where it stood, and, if the path goes into it, of the same form
and variant. -/
theorem C102_keeps {A : Type} (M : MutImpl A) (R K : A → A → Prop) (h : M.Lawful R K) (a z : A)
    (p : KeyPath) (sp : Spot A) (hs : M.atMut a p = some sp) (hz : R sp.get z) :
    R a (sp.put z) ∧ ((∃ k ∈ p, ∀ v, k ≠ Key.variant v) → (M.view (sp.put z)).form = (M.view a).form) := by
  unfold MutImpl.atMut at hs
  split at hs
  · next he =>
    cases hs
    refine ⟨hz, fun ⟨k, hk, _⟩ => ?_⟩
    cases p <;> simp [KeyPath.isEmpty] at he hk
  · exact ⟨h.rel_go p a sp z hs hz, fun hex => h.form_go p a sp z hex hs hz⟩

/-- C102: in every implementation, lawful or not, following `p ++ q` is following `p` and then `q` from
there; and writing at the end of `q` is writing the part `p` leads to as that write changes it. -/
theorem C102_compose {A : Type} (M : MutImpl A) (a : A) (p q : KeyPath) :
    M.at a (p ++ q) = (M.at a p).bind (fun x => M.at x q) ∧
    M.atMut a (p ++ q) = (M.atMut a p).bind fun sp => (M.atMut sp.get q).map fun s =>
      ⟨s.get, fun z => sp.put (s.put z)⟩ :=
  ⟨M.toImpl.at_append p q a, M.atMut_append p q a⟩

/-- C102: if a path leads somewhere, so does each of its prefixes. -/
theorem C102_prefixes {A : Type} (M : MutImpl A) (a : A) (p q : KeyPath) (hp : p <+: q) :
    ((M.at a q).isSome → (M.at a p).isSome) ∧ ((M.atMut a q).isSome → (M.atMut a p).isSome) := by
  obtain ⟨r, rfl⟩ := hp
  rw [(C102_compose M a p r).1, (C102_compose M a p r).2]
  constructor
  · cases M.at a p <;> simp
  · cases M.atMut a p <;> simp

/-- C102: the derived and built-in types are lawful, whatever their contents, and `at_mut` on them is the
one of C28. -/
theorem C102_derived (E : Env) : (Obj.mutImpl E).Lawful (fun _ z => z.isHidden = false) (MayMeet E) ∧
    ∀ o p, (Obj.mutImpl E).atMut o p = (atMutPath E o p).map Place.spot := by
  refine ⟨Obj.mutImpl_lawful E, fun o p => ?_⟩
  unfold MutImpl.atMut atMutPath
  split
  · rfl
  · exact Obj.mutImpl_go E p o

/-- In a derived list of lists, `[0][1]` goes another way than `[0][0]` and than `[1]`. -/
example (E : Env) (x y z : Obj) (t u : Ty) (n : Nat → Value) (hd : n = fun i => .scalar (.int .u8 i)) :
    (∃ sp, (Obj.mutImpl E).atMut (.vec t [.vec u [x, y], z]) [.get (n 0), .get (n 1)] = some sp ∧
      sp.get = y) ∧
    PathsApart (Obj.mutImpl E).toImpl (MayMeet E) (.vec t [.vec u [x, y], z]) [.get (n 0), .get (n 1)]
      [.get (n 0), .get (n 0)] ∧
    PathsApart (Obj.mutImpl E).toImpl (MayMeet E) (.vec t [.vec u [x, y], z]) [.get (n 0), .get (n 1)]
      [.get (n 1)] := by
  have h0 : valueToUsize (n 0) = some 0 := by subst hd; simp [valueToUsize, usizeSize]
  have h1 : valueToUsize (n 1) = some 1 := by subst hd; simp [valueToUsize, usizeSize]
  refine ⟨?_, .next (x := .vec u [x, y]) (fun _ => nofun) ?_ (.here (.index nofun ?_)),
    .here (.index nofun ?_)⟩
  · simp [MutImpl.atMut, KeyPath.isEmpty, MutImpl.atMutGo, MutImpl.atKeyMut, Obj.mutImpl, Obj.viewMut, h0, h1,
      Obj.fieldAtMut, placeIdx, Place.spot]
  · simp [Impl.atKey, Obj.mutImpl, Obj.impl, Obj.view, h0, Obj.fieldAt]
  · intro i hi; rw [h1] at hi; rw [h0]; cases hi; simp
  · intro i hi; rw [h0] at hi; rw [h1]; cases hi; simp

/-! ## A program with hand-written types -/

/-- Numbers, points made of two numbers, segments made of two points, and an enum with the variants `Dot`,
which has a point, and `Gone`. -/
inductive Drawn
  | num (n : Int)
  | point (x y : Int)
  | segment (a b c d : Int)
  | dot (x y : Int)
  | gone

def Drawn.toNum : Drawn → Int
  | .num n => n
  | _ => 0

def Drawn.toPoint : Drawn → Int × Int
  | .point x y => (x, y)
  | _ => (0, 0)

def Drawn.view : Drawn → RefView Drawn
  | .num n => .scalar (.int .i32 n)
  | .point x y =>
    .struct 2 (fun n => if n = "x" then some (.num x) else if n = "y" then some (.num y) else none)
      (fun i => ([.num x, .num y] : List Drawn)[i]?) (fun i => (["x", "y"] : List String)[i]?)
  | .segment a b c d =>
    .tuple 2 fun i => match i with
      | 0 => some (.point a b)
      | 1 => some (.point c d)
      | _ => none
  | .dot x y =>
    .enum "Dot" .tuple 1 (fun _ => none) (fun i => if i = 0 then some (.point x y) else none) fun _ => none
  | .gone => .enum "Gone" .unit 0 (fun _ => none) (fun _ => none) fun _ => none

def Drawn.viewMut : Drawn → MutView Drawn
  | .num _ => .leaf
  | .point x y =>
    .struct fun n => if n = "x" then some ⟨.num x, fun z => .point z.toNum y⟩ else
      if n = "y" then some ⟨.num y, fun z => .point x z.toNum⟩ else none
  | .segment a b c d =>
    .tuple fun i => match i with
      | 0 => some ⟨.point a b, fun z => .segment z.toPoint.1 z.toPoint.2 c d⟩
      | 1 => some ⟨.point c d, fun z => .segment a b z.toPoint.1 z.toPoint.2⟩
      | _ => none
  | .dot x y =>
    .enum "Dot" .tuple (fun _ => none) fun i =>
      if i = 0 then some ⟨.point x y, fun z => .dot z.toPoint.1 z.toPoint.2⟩ else none
  | .gone => .enum "Gone" .unit (fun _ => none) fun _ => none

/-- The Rust type of a value. -/
def Drawn.ty : Drawn → Nat
  | .num _ => 0
  | .point .. => 1
  | .segment .. => 2
  | .dot .. => 3
  | .gone => 3

def Drawn.impl : MutImpl Drawn := ⟨⟨Drawn.view, fun _ => .gone⟩, Drawn.viewMut⟩

theorem Drawn.isNum {z : Drawn} (h : z.ty = 0) : z = .num z.toNum := by
  cases z <;> first | rfl | cases h

theorem Drawn.isPoint {z : Drawn} (h : z.ty = 1) : z = .point z.toPoint.1 z.toPoint.2 := by
  cases z <;> first | rfl | cases h

/-- The hand-written types are lawful: a value may be overwritten with those of its type. -/
theorem Drawn.lawful : Drawn.impl.Lawful (fun a b => b.ty = a.ty) (· = ·) where
  form a := by cases a <;> rfl
  same a h := by
    cases a <;> cases h <;> try rfl
    · simp only [Drawn.impl, Drawn.view, Drawn.viewMut, MutView.spot, RefView.part]
      split
      · rfl
      · split <;> rfl
    · simp only [Drawn.impl, Drawn.view, Drawn.viewMut, MutView.spot, RefView.part]
      split <;> rfl
    · simp only [Drawn.impl, Drawn.view, Drawn.viewMut, MutView.spot, RefView.part]
      split <;> rfl
  back a h sp hs := by
    cases a <;> cases h <;> simp only [Drawn.impl, Drawn.viewMut, MutView.spot, reduceCtorEq] at hs
    · split at hs
      · cases hs; rfl
      · split at hs <;> cases hs; rfl
    · split at hs <;> cases hs <;> rfl
    · split at hs <;> cases hs; rfl
  write a h sp z hs hz := by
    cases a <;> cases h <;> simp only [Drawn.impl, Drawn.viewMut, MutView.spot, reduceCtorEq] at hs
    · split at hs
      · next he =>
        subst he; cases hs
        refine ⟨rfl, rfl, by rw [Drawn.isNum hz]; rfl, fun h' ha => ?_⟩
        cases ha with
        | field hn => simp [Drawn.impl, Drawn.view, RefView.part, Ne.symm hn]
      · split at hs <;> cases hs
        next he =>
        subst he
        refine ⟨rfl, rfl, by rw [Drawn.isNum hz]; rfl, fun h' ha => ?_⟩
        cases ha with
        | field hn => simp [Drawn.impl, Drawn.view, RefView.part, Ne.symm hn]
    · split at hs <;> cases hs
      · refine ⟨rfl, rfl, by rw [Drawn.isPoint hz]; rfl, fun h' ha => ?_⟩
        cases ha with
        | @pos _ j hn =>
          match j, hn with
          | 0, hn => exact absurd rfl hn
          | 1, _ => rfl
          | _ + 2, _ => rfl
      · refine ⟨rfl, rfl, by rw [Drawn.isPoint hz]; rfl, fun h' ha => ?_⟩
        cases ha with
        | @pos _ j hn =>
          match j, hn with
          | 0, _ => rfl
          | 1, hn => exact absurd rfl hn
          | _ + 2, _ => rfl
    · split at hs <;> cases hs
      next he =>
      subst he
      refine ⟨rfl, rfl, by rw [Drawn.isPoint hz]; rfl, fun h' ha => ?_⟩
      cases ha with
      | pos hn => simp [Drawn.impl, Drawn.view, RefView.part, Ne.symm hn]

/-- `.1.y` of a segment: a write there is read back, and `.1.x` and `.0` are as before. -/
example : ∃ sp, Drawn.impl.atMut (.segment 1 2 3 4) [.numbered 1, .named "y"] = some sp ∧ sp.get = .num 4 ∧
    sp.put (.num 9) = .segment 1 2 3 9 ∧
    PathsApart Drawn.impl.toImpl (· = ·) (.segment 1 2 3 4) [.numbered 1, .named "y"] [.numbered 1, .named "x"] ∧
    PathsApart Drawn.impl.toImpl (· = ·) (.segment 1 2 3 4) [.numbered 1, .named "y"] [.numbered 0] :=
  ⟨_, rfl, rfl, rfl, .next (fun _ => nofun) rfl (.here (.named (by decide))), .here (.numbered (by decide))⟩

example : (Drawn.impl.at (.segment 1 2 3 4) ([.numbered 1] ++ [.named "y"])).isSome ∧
    (Drawn.impl.atMut (.segment 1 2 3 4) ([.numbered 1] ++ [.named "y"])).isSome := ⟨rfl, rfl⟩

/-- After `.1.y` was written, `.1.x` and `.0` are. -/
example : WritesApart Drawn.impl (fun a b => b.ty = a.ty) (· = ·) [.numbered 1, .named "y"]
    (.segment 1 2 3 9) [([.numbered 1, .named "x"], .num 5), ([.numbered 0], .point 7 8)]
    (.segment 7 8 5 9) :=
  .cons (sp := ⟨.num 3, fun z => .segment 1 2 z.toNum 9⟩) rfl rfl
    (.next (fun _ => nofun) rfl (.here (.named (by decide))))
    (.cons (sp := ⟨.point 1 2, fun z => .segment z.toPoint.1 z.toPoint.2 5 9⟩) rfl rfl
      (.here (.numbered (by decide))) .nil)

/-- Through a `::Variant` key, and to one. -/
example : (∃ sp, Drawn.impl.atMut (.dot 1 2) [.variant "Dot", .numbered 0, .named "x"] = some sp ∧
      sp.put (.num 7) = .dot 7 2) ∧
    (∃ sp, Drawn.impl.atMut (.dot 1 2) ([] ++ [.variant "Dot"]) = some sp ∧ sp.put .gone = .gone ∧
      Drawn.gone.ty = sp.get.ty) ∧
    Drawn.impl.at .gone [.variant "Dot"] = none :=
  ⟨⟨_, rfl, rfl⟩, ⟨_, rfl, rfl, rfl⟩, by cbv⟩

/-- An implementation whose `field_mut` gives the other field. -/
def Drawn.crossed : MutImpl Drawn :=
  ⟨Drawn.impl.toImpl, fun a => match a with
    | .point x y => .struct fun n => if n = "x" then some ⟨.num y, fun z => .point x z.toNum⟩ else none
    | a => Drawn.viewMut a⟩

/-- The laws are needed: with it a write through `at_mut` is not what `at` finds. -/
theorem C102_laws_needed : ∃ sp, Drawn.crossed.atMut (.point 1 2) [.named "x"] = some sp ∧
    Drawn.crossed.at (sp.put (.num 9)) [.named "x"] = some (.num 1) :=
  ⟨_, rfl, by cbv⟩

end Mirror
