import Verif.Spec.ImplTyped
import Verif.Props.ImplMut
import Verif.Props.Impl
import Verif.Lemmas.Access

/-!
# C104: `get_at` and `get_at_mut` on hand-written `Reflect` implementations

In an implementation whose mutable access and whose `as_any` do what they say (`AnyImpl.Lawful`).
-/

namespace Mirror

variable {A τ : Type} [DecidableEq τ]

theorem AnyImpl.getAt_iff {M : AnyImpl A τ} {t : τ} {a y : A} {p : KeyPath} :
    M.getAt t a p = some y ↔ ∃ x, M.at a p = some x ∧ M.asAny x = y ∧ M.ty y = some t := by
  unfold AnyImpl.getAt AnyImpl.downcastRef
  cases M.at a p with
  | none => simp
  | some x =>
    simp only [Option.some.injEq, exists_eq_left', Option.ite_none_right_eq_some]
    constructor
    · rintro ⟨h, rfl⟩; exact ⟨rfl, h⟩
    · rintro ⟨rfl, h⟩; exact ⟨h, rfl⟩

theorem AnyImpl.getAtMut_some {M : AnyImpl A τ} {t : τ} {a : A} {p : KeyPath} {sp : Spot A}
    (h : M.getAtMut t a p = some sp) : ∃ s, M.atMut a p = some s ∧ M.ty (M.asAnyMut s.get).get = some t ∧
      sp = ⟨(M.asAnyMut s.get).get, fun z => s.put ((M.asAnyMut s.get).put z)⟩ := by
  unfold AnyImpl.getAtMut AnyImpl.downcastMut at h
  cases hs : M.atMut a p with
  | none => simp [hs] at h
  | some s =>
    simp only [hs] at h
    split at h
    · cases h
    · next s' hs' =>
      rw [Option.ite_none_right_eq_some] at hs'
      obtain ⟨ht, he⟩ := hs'
      cases he; cases h
      exact ⟨s, rfl, ht, rfl⟩

/-- C104: a value shows itself as one type only: if `get_at` finds something of the type `T` and something of the type
`U`, these are the same type and the same thing. -/
theorem C104_one_type (M : AnyImpl A τ) (a x y : A) (p : KeyPath) (t u : τ) (hx : M.getAt t a p = some x)
    (hy : M.getAt u a p = some y) : t = u ∧ x = y := by
  obtain ⟨w, h1, rfl, h2⟩ := AnyImpl.getAt_iff.mp hx
  obtain ⟨w', h3, rfl, h4⟩ := AnyImpl.getAt_iff.mp hy
  rw [h1] at h3; cases h3
  rw [h2] at h4; cases h4
  exact ⟨rfl, rfl⟩

/-- C104: where `as_any` is the value itself, `get_at::<T>` finds exactly what `at` finds, if that is a `T`. -/
theorem C104_get_iff (M : AnyImpl A τ) (hm : ∀ a, M.asAny a = a) (a x : A) (p : KeyPath) (t : τ) :
    M.getAt t a p = some x ↔ M.at a p = some x ∧ M.ty x = some t := by
  simp only [AnyImpl.getAt_iff, hm]
  constructor
  · rintro ⟨_, h, rfl, ht⟩; exact ⟨h, ht⟩
  · rintro ⟨h, ht⟩; exact ⟨x, h, rfl, ht⟩

/-- C104: `get_at_mut` finds the same place as `get_at`: both find nothing, or the reference points to what `get_at`
finds. -/
theorem C104_same_place (M : AnyImpl A τ) (R K : A → A → Prop) (h : M.Lawful R K) (a : A) (p : KeyPath) (t : τ) :
    (M.getAtMut t a p).map (·.get) = M.getAt t a p := by
  have hs := C102_same_place M.toMutImpl R K h.access a p
  unfold AnyImpl.getAtMut AnyImpl.getAt
  rw [← hs]
  cases M.atMut a p with
  | none => rfl
  | some sp =>
    simp only [Option.map_some, AnyImpl.downcastMut, AnyImpl.downcastRef, h.same]
    by_cases ht : M.ty (M.asAny sp.get) = some t
    · simp only [if_pos ht, Option.map_some, h.same]
    · simp only [if_neg ht, Option.map_none]

/-- What may be written through `get_at_mut`, written through `at_mut`. -/
theorem AnyImpl.Lawful.through {M : AnyImpl A τ} {R K : A → A → Prop} (h : M.Lawful R K) {a z : A} {p : KeyPath}
    {t : τ} {sp : Spot A} (hs : M.getAtMut t a p = some sp) (hz : M.ty z = some t) :
    ∃ s w, M.atMut a p = some s ∧ R s.get w ∧ M.asAny w = z ∧ sp.put z = s.put w := by
  obtain ⟨s, h1, h2, rfl⟩ := AnyImpl.getAtMut_some hs
  rw [h.same] at h2
  obtain ⟨h3, h4⟩ := h.write s.get z t h2 hz
  exact ⟨s, _, h1, h3, h4, rfl⟩

/-- C104: a value of type `T` written through `get_at_mut::<T>` is what `get_at::<T>` finds there afterwards, and
`get_at` with any other type finds nothing; unless the path ends in a `::Variant` key. -/
theorem C104_write_read (M : AnyImpl A τ) (R K : A → A → Prop) (h : M.Lawful R K) (a z : A) (p : KeyPath) (t : τ)
    (sp : Spot A) (hs : M.getAtMut t a p = some sp) (hz : M.ty z = some t)
    (hl : ∀ v, p.getLast? ≠ some (Key.variant v)) (u : τ) :
    M.getAt u (sp.put z) p = if u = t then some z else none := by
  obtain ⟨s, w, h1, h2, h3, h4⟩ := h.through hs hz
  have := C102_write_read M.toMutImpl R K h.access a w p s h1 h2 hl
  rw [h4]
  unfold AnyImpl.getAt AnyImpl.downcastRef
  rw [this]
  simp only [h3, hz, Option.some.injEq, eq_comm]

/-- C104: a path that ends in a `::Variant` key: what is written there is what the path without that key finds. -/
theorem C104_write_variant (M : AnyImpl A τ) (R K : A → A → Prop) (h : M.Lawful R K) (a z : A) (p : KeyPath)
    (v : String) (t : τ) (sp : Spot A) (hs : M.getAtMut t a (p ++ [.variant v]) = some sp) (hz : M.ty z = some t)
    (hl : ∀ v, p.getLast? ≠ some (Key.variant v)) (u : τ) :
    M.getAt u (sp.put z) p = if u = t then some z else none := by
  obtain ⟨s, w, h1, h2, h3, h4⟩ := h.through hs hz
  have := C102_write_variant M.toMutImpl R K h.access a w p v s h1 h2 hl
  rw [h4]
  unfold AnyImpl.getAt AnyImpl.downcastRef
  rw [this]
  simp only [h3, hz, Option.some.injEq, eq_comm]

/-- C104: writing back what is there changes nothing. -/
theorem C104_write_back (M : AnyImpl A τ) (R K : A → A → Prop) (h : M.Lawful R K) (a : A) (p : KeyPath) (t : τ)
    (sp : Spot A) (hs : M.getAtMut t a p = some sp) : sp.put sp.get = a := by
  obtain ⟨s, h1, _, rfl⟩ := AnyImpl.getAtMut_some hs
  show s.put ((M.asAnyMut s.get).put (M.asAnyMut s.get).get) = a
  rw [h.same, h.back]
  exact C102_write_back M.toMutImpl R K h.access a p s h1

/-- C104: what `get_at` with any type finds along another path, or that it finds nothing, is the same after the
write. -/
theorem C104_elsewhere (M : AnyImpl A τ) (R K : A → A → Prop) (h : M.Lawful R K) (a z : A) (p q : KeyPath) (t u : τ)
    (sp : Spot A) (hs : M.getAtMut t a p = some sp) (hz : M.ty z = some t) (hpq : PathsApart M.toImpl K a p q) :
    M.getAt u (sp.put z) q = M.getAt u a q := by
  obtain ⟨s, w, h1, h2, h3, h4⟩ := h.through hs hz
  have := C102_elsewhere M.toMutImpl R K h.access a w p q s h1 h2 hpq
  rw [h4]
  unfold AnyImpl.getAt
  rw [this]

/-- C104: over any number of later writes through `get_at_mut` that go another way, what was written stays. -/
theorem C104_history (M : AnyImpl A τ) (R K : A → A → Prop) (h : M.Lawful R K) (a b z : A) (p : KeyPath) (t : τ)
    (sp : Spot A) (hs : M.getAtMut t a p = some sp) (hz : M.ty z = some t)
    (hl : ∀ v, p.getLast? ≠ some (Key.variant v)) (l : List (τ × KeyPath × A))
    (hw : TypedWrites M K p (sp.put z) l b) : M.getAt t b p = some z := by
  have stay : ∀ a b l, TypedWrites M K p a l b → M.getAt t b p = M.getAt t a p := by
    intro a b l hw
    induction hw with
    | nil => rfl
    | cons hs hz hq _ ih => rw [ih]; exact C104_elsewhere M R K h _ _ _ p _ t _ hs hz hq
  rw [stay _ _ _ hw, C104_write_read M R K h a z p t sp hs hz hl, if_pos rfl]

/-- C104: in every implementation, `get_at` along `p ++ q` is `at` along `p` and then `get_at` along `q`. -/
theorem C104_compose (M : AnyImpl A τ) (a : A) (p q : KeyPath) (t : τ) :
    M.getAt t a (p ++ q) = (M.at a p).bind fun x => M.getAt t x q := by
  unfold AnyImpl.getAt
  rw [(C102_compose M.toMutImpl a p q).1]
  cases M.at a p <;> rfl

/-- C104: the derived and built-in types are lawful, and `get_at` and `get_at_mut` on them are those of C70 wherever
the path does not end at a `Value` or a `Box` that holds what is found. -/
theorem C104_derived (E : Env) : (Obj.anyImpl E).Lawful (fun _ z => z.isHidden = false) (MayMeet E) ∧
    ∀ o p t, (∀ x, atPath E o p = some x → atRefTy E o p = x.typeOf) →
      (Obj.anyImpl E).getAt t o p = getAt E o p t ∧
      (Obj.anyImpl E).getAtMut t o p = (getAtMut E o p t).map Place.spot := by
  refine ⟨⟨Obj.mutImpl_lawful E, fun _ => rfl, fun _ => rfl, fun a z t _ hz => ⟨?_, rfl⟩⟩, fun o p t hr => ?_⟩
  · cases z <;> first | rfl | cases hz
  have hat : (Obj.anyImpl E).at o p = atPath E o p := Obj.impl_at E o p
  refine ⟨?_, ?_⟩
  · unfold AnyImpl.getAt getAt
    rw [hat]
    cases hx : atPath E o p with
    | none => rfl
    | some x =>
      simp only [Option.bind_some, hr x hx]
      show (if x.typeOf = some t then some x else none) = _
      cases ht : x.typeOf with
      | none => rfl
      | some s =>
        simp only [Option.bind_some, Obj.downcast, anyTy_typeOf ht, ht, beq_iff_eq]
  · have hm : (Obj.anyImpl E).atMut o p = (atMutPath E o p).map Place.spot := (C102_derived E).2 o p
    have hg := C102_same_place (Obj.mutImpl E) _ _ (Obj.mutImpl_lawful E) o p
    have hg : ((Obj.anyImpl E).atMut o p).map (·.get) = atPath E o p := hg.trans hat
    unfold AnyImpl.getAtMut getAtMut
    rw [hm] at hg ⊢
    cases hx : atMutPath E o p with
    | none => rfl
    | some pl =>
      rw [hx] at hg
      have hr := hr pl.get hg.symm
      simp only [Option.bind_some, Option.map_some, hr]
      by_cases ht : pl.get.typeOf = some t
      · have h1 : (Obj.anyImpl E).downcastMut t pl.spot.get = some ⟨pl.get, fun z => z⟩ := if_pos ht
        have h2 : pl.downcast t t = some pl := by
          unfold Place.downcast
          rw [anyTy_typeOf ht, ht]
          simp
        rw [h1, ht]
        simp only [Option.bind_some, h2, Option.map_some]
        rfl
      · have h1 : (Obj.anyImpl E).downcastMut t pl.spot.get = none := if_neg ht
        rw [h1]
        cases hs : pl.get.typeOf with
        | none => rfl
        | some s =>
          have h2 : pl.downcast s t = none := by
            unfold Place.downcast
            rw [anyTy_typeOf hs]
            simp [ht]
          simp only [Option.bind_some, h2, Option.map_none]

/-! ## A program with hand-written types -/

/-- The types of `Drawn.impl`, each its own `as_any`. -/
def Drawn.any : AnyImpl Drawn Nat :=
  { Drawn.impl with asAny := fun a => a, asAnyMut := fun a => ⟨a, fun z => z⟩, ty := fun a => some a.ty }

theorem Drawn.any_lawful : Drawn.any.Lawful (fun a b => b.ty = a.ty) (· = ·) where
  access := Drawn.lawful
  same _ := rfl
  back _ := rfl
  write a z t h1 h2 := ⟨Option.some.inj (h2.trans h1.symm), rfl⟩

/-- `.1.y` of a segment is a number, type `0`, and no point, type `1`; a number is written there, then a point to
`.0`. -/
example : ∃ sp, Drawn.any.getAtMut 0 (.segment 1 2 3 4) [.numbered 1, .named "y"] = some sp ∧
    Drawn.any.getAtMut 1 (.segment 1 2 3 4) [.numbered 1, .named "y"] = none ∧
    sp.put (.num 9) = .segment 1 2 3 9 ∧
    TypedWrites Drawn.any (· = ·) [.numbered 1, .named "y"] (.segment 1 2 3 9) [(1, [.numbered 0], .point 7 8)]
      (.segment 7 8 3 9) :=
  ⟨_, rfl, rfl, rfl, .cons (sp := ⟨.point 1 2, fun z => .segment z.toPoint.1 z.toPoint.2 3 9⟩) rfl rfl
    (.here (.numbered (by decide))) .nil⟩

/-- To a `::Variant` key; and a path into a list of numbers, which does not end at a `Value` or a `Box`. -/
example : (∃ sp, Drawn.any.getAtMut 3 (.dot 1 2) ([] ++ [.variant "Dot"]) = some sp ∧ sp.put .gone = .gone ∧
      Drawn.any.ty .gone = some 3) ∧
    ∀ x, atPath handEnv (.vec (.scalar (.int .i32)) [i32Obj 1]) [.get (.scalar (.int .u8 0))] = some x →
      atRefTy handEnv (.vec (.scalar (.int .i32)) [i32Obj 1]) [.get (.scalar (.int .u8 0))] = x.typeOf := by
  refine ⟨⟨_, rfl, rfl, rfl⟩, fun x hx => ?_⟩
  have : x = i32Obj 1 := by
    have h : atPath handEnv (.vec (.scalar (.int .i32)) [i32Obj 1]) [.get (.scalar (.int .u8 0))] = some (i32Obj 1) := by
      cbv
    exact Option.some.inj (hx.symm.trans h)
  subst this
  cbv

/-- A segment whose `as_any` is its first point, and whose `as_any_mut` is its second. -/
def Drawn.split : AnyImpl Drawn Nat :=
  { Drawn.any with
    asAny := fun a => match a with
      | .segment x y _ _ => .point x y
      | a => a
    asAnyMut := fun a => match a with
      | .segment x y z w => ⟨.point z w, fun p => .segment x y p.toPoint.1 p.toPoint.2⟩
      | a => ⟨a, fun z => z⟩ }

/-- C104: the laws are needed: with it what is written through `get_at_mut` is not what `get_at` finds; and no
segment is found as a segment. -/
theorem C104_laws_needed : (∃ sp, Drawn.split.getAtMut 1 (.segment 1 2 3 4) [] = some sp ∧
      Drawn.split.getAt 1 (sp.put (.point 8 9)) [] = some (.point 1 2)) ∧
    ∀ a b c d, Drawn.split.getAt 2 (.segment a b c d) [] = none :=
  ⟨⟨_, rfl, rfl⟩, fun _ _ _ _ => rfl⟩


/-- A segment that hands its first point over as its `as_any`, as `Value` and `Box` do with what they hold. -/
def Drawn.wrap : AnyImpl Drawn Nat :=
  { Drawn.any with
    asAny := fun a => match a with
      | .segment x y _ _ => .point x y
      | a => a
    asAnyMut := fun a => match a with
      | .segment x y z w => ⟨.point x y, fun p => .segment p.toPoint.1 p.toPoint.2 z w⟩
      | a => ⟨a, fun z => z⟩ }

/-- It is lawful, and a point can be written to a segment as a whole. -/
example : Drawn.wrap.Lawful (fun a b => b.ty = a.ty) (· = ·) ∧
    ∃ sp, Drawn.wrap.getAtMut 1 (.segment 1 2 3 4) [] = some sp ∧ sp.put (.point 8 9) = .segment 8 9 3 4 := by
  refine ⟨⟨Drawn.lawful, fun a => by cases a <;> rfl, fun a => by cases a <;> rfl, fun a z t h1 h2 => ?_⟩, _, rfl, rfl⟩
  have h3 : z.ty = (Drawn.wrap.asAny a).ty := Option.some.inj (h2.trans h1.symm)
  cases a <;> cases z <;> first | exact ⟨rfl, rfl⟩ | (exfalso; revert h3; simp [Drawn.wrap, Drawn.ty])


/-! ## `get_field` -/

theorem AnyImpl.getAt_single (M : AnyImpl A τ) (t : τ) (a : A) (k : Key) :
    M.getAt t a [k] = (M.atKey a k).bind (M.downcastRef t) := by
  have : M.at a [k] = M.atKey a k := by
    show M.toImpl.atGo a [k] = _
    rw [Impl.atGo]
    cases M.atKey a k <;> rfl
  unfold AnyImpl.getAt
  rw [this]
  cases M.atKey a k <;> rfl

theorem AnyImpl.getAtMut_single (M : AnyImpl A τ) (t : τ) (a : A) (k : Key) :
    M.getAtMut t a [k] = M.typedMut t (M.atKeyMut a k) := by
  have : M.atMut a [k] = M.atKeyMut a k := by
    show M.toMutImpl.atMutGo a [k] = _
    rw [MutImpl.atMutGo]
    cases M.atKeyMut a k <;> rfl
  unfold AnyImpl.getAtMut AnyImpl.typedMut
  rw [this]

/-- C104: `get_field::<T>` and `get_field_mut::<T>` with a name find what `get_at::<T>` and `get_at_mut::<T>` find along
the path of that name, on everything but an enum in a variant that is not struct-like; so the rest of C104 is about
them too. -/
theorem C104_get_field_named (M : AnyImpl A τ) (R K : A → A → Prop) (h : M.Lawful R K) (t : τ) (a : A) (n : String)
    (hk : ∀ v k, (M.view a).form = .enum v k → k = .struct) :
    M.getNamed t a n = M.getAt t a [.named n] ∧ M.getNamedMut t a n = M.getAtMut t a [.named n] := by
  have hf := h.access.form a
  rw [AnyImpl.getAt_single, AnyImpl.getAtMut_single]
  unfold AnyImpl.getNamed AnyImpl.getNamedMut Impl.atKey MutImpl.atKeyMut
  constructor
  · cases hv : M.view a with
    | «enum» v k => cases hk v k (by rw [hv]; rfl); rfl
    | _ => rfl
  · cases hv : M.viewMut a with
    | «enum» v k => cases hk v k (by rw [← hf, hv]; rfl); rfl
    | _ => rfl

/-- C104: the same with an index, on everything but an enum in a variant that is not tuple-like: on tuple structs,
tuples and enums along the path of that position, on arrays and lists along the path of a value that is that index. -/
theorem C104_get_field_indexed (M : AnyImpl A τ) (R K : A → A → Prop) (h : M.Lawful R K) (t : τ) (a : A) (i : Nat)
    (hk : ∀ v k, (M.view a).form = .enum v k → k = .tuple) (w : Value) (hw : valueToUsize w = some i)
    (hm : (M.view a).form ≠ .map) (key : Key)
    (hkey : key = if (M.view a).form = .array ∨ (M.view a).form = .list then Key.get w else .numbered i) :
    M.getIndexed t a i = M.getAt t a [key] ∧ M.getIndexedMut t a i = M.getAtMut t a [key] := by
  have hf := h.access.form a
  rw [AnyImpl.getAt_single, AnyImpl.getAtMut_single]
  unfold AnyImpl.getIndexed AnyImpl.getIndexedMut Impl.atKey MutImpl.atKeyMut
  constructor
  · cases hv : M.view a with
    | «enum» v k => cases hk v k (by rw [hv]; rfl); simp [hkey, hv, RefView.form]
    | map => rw [hv] at hm; exact absurd rfl hm
    | _ => simp [hkey, hv, RefView.form, hw]
  · rw [← hf] at hm hk hkey
    cases hv : M.viewMut a with
    | «enum» v k => cases hk v k (by rw [hv]; rfl); simp [hkey, hv, MutView.form]
    | map => rw [hv] at hm; exact absurd rfl hm
    | _ => simp [hkey, hv, MutView.form, hw, AnyImpl.typedMut]

/-- C104: the same with a key that is a `Value`, on a map. -/
theorem C104_get_field_entry (M : AnyImpl A τ) (R K : A → A → Prop) (h : M.Lawful R K) (t : τ) (a : A) (w : Value)
    (hm : (M.view a).form = .map) :
    M.getEntry t a (M.ofValue w) = M.getAt t a [.get w] ∧ M.getEntryMut t a (M.ofValue w) = M.getAtMut t a [.get w] := by
  have hf := h.access.form a
  rw [AnyImpl.getAt_single, AnyImpl.getAtMut_single]
  unfold AnyImpl.getEntry AnyImpl.getEntryMut Impl.atKey MutImpl.atKeyMut
  constructor
  · cases hv : M.view a <;> rw [hv] at hm <;> first | cases hm | rfl
  · rw [← hf] at hm
    cases hv : M.viewMut a <;> rw [hv] at hm <;> first | cases hm | rfl

/-- A point by name, a segment by index. -/
example : Drawn.any.getNamed 0 (.point 1 2) "y" = some (.num 2) ∧ Drawn.any.getNamed 1 (.point 1 2) "y" = none ∧
    Drawn.any.getIndexed 1 (.segment 1 2 3 4) 1 = some (.point 3 4) ∧
    (∀ v k, (Drawn.any.view (.point 1 2)).form = .enum v k → k = .struct) ∧
    (∀ v k, (Drawn.any.view (.dot 1 2)).form = .enum v k → k = .tuple) ∧
    valueToUsize (.scalar (.int .usize 1)) = some 1 ∧ (Drawn.any.view (.dot 1 2)).form ≠ .map := by
  refine ⟨by cbv, by cbv, rfl, fun _ _ h => ?_, fun _ _ h => ?_, by cbv, nofun⟩
  · cases h
  · cases h; rfl

/-- A derived map from strings to numbers. -/
example (x : Obj) (hx : x = .map (.scalar .string) (.scalar (.int .i32)) [(.scalar (.string "k"), i32Obj 7)]) :
    ((Obj.anyImpl handEnv).view x).form = .map ∧
    (Obj.anyImpl handEnv).getEntry (.scalar (.int .i32)) x ((Obj.anyImpl handEnv).ofValue (.scalar (.string "k"))) =
      some (i32Obj 7) := by
  subst hx
  exact ⟨rfl, by cbv⟩

/-- An enum in a unit variant whose `field` finds something. -/
def Drawn.loose : AnyImpl Drawn Nat :=
  { Drawn.any with view := fun a => match a with
    | .gone => .enum "Gone" .unit 0 (fun _ => some (.num 0)) (fun _ => some (.num 0)) fun _ => none
    | a => Drawn.view a }

/-- C104: an enum in a variant of another kind: `get_field` finds what its `field` and `field_at` answer all the same,
where `get_at` finds nothing. -/
theorem C104_get_field_variant : Drawn.loose.getNamed 0 .gone "x" = some (.num 0) ∧
    Drawn.loose.getIndexed 0 .gone 0 = some (.num 0) ∧
    ∀ t p, p ≠ [] → (∀ v, p.head? ≠ some (Key.variant v)) → Drawn.loose.getAt t .gone p = none := by
  refine ⟨rfl, rfl, fun t p hp hv => ?_⟩
  match p with
  | [] => exact absurd rfl hp
  | .variant v :: _ => exact absurd rfl (hv v)
  | .named n :: r => cases r <;> rfl
  | .numbered n :: r => cases r <;> rfl
  | .get n :: r => cases r <;> rfl

end Mirror
