import Verif.Model.Ops
import Verif.Props.Unseen

/-!
# C74: `==`, `to_owned` and `clone` on reflected values
-/

namespace Mirror

theorem dynEq_iff {E : Env} {a b : Obj} : dynEq E a b = true ↔ reflectEq E a b = some true := by
  simp only [dynEq]
  cases reflectEq E a b with
  | none => simp
  | some r => simp

/-- C74: `to_owned` panics exactly for values cloned through `Value` with a skipped field before a reflected
one in some tuple struct or tuple variant inside. -/
theorem C74_to_owned_panics {E : Env} (hD : DeclsOK E) (hO : OrdLaws E) (hK : KeysShown E) {T u : Ty}
    {x : Obj} (h : HasTy E T x) (hu : x.typeOf = some u) :
    x.toOwned E = none ↔ ClonedThroughValue E u ∧ ¬ x.NoGaps := by
  obtain ⟨h1, h2, h3⟩ := C06_clone_reflect_exactly hD hO hK h hu
  unfold Obj.toOwned
  constructor
  · intro hn
    by_cases hc : ClonedThroughValue E u
    · exact ⟨hc, fun hg => by rw [h2 hc hg] at hn; cases hn⟩
    · rw [h1 hc] at hn; cases hn
  · exact fun ⟨hc, hg⟩ => h3 hc hg

/-- What `to_owned` returns is a proper value of the same concrete type that differs from the original at most
in its skipped fields. -/
theorem C74_to_owned_copy {E : Env} (hD : DeclsOK E) (hO : OrdLaws E) (hK : KeysShown E) {T : Ty}
    {x y : Obj} (h : HasTy E T x) (hy : x.toOwned E = some y) :
    HasTy E T y ∧ y.typeOf = x.typeOf ∧ x.SeenAs y := by
  obtain ⟨u, hu, _⟩ := h.typeOf hO
  obtain ⟨h1, h2, h3⟩ := C06_clone_reflect_exactly hD hO hK h hu
  unfold Obj.toOwned at hy
  by_cases hc : ClonedThroughValue E u
  · by_cases hg : x.NoGaps
    · rw [h2 hc hg] at hy; cases hy
      exact ⟨h.reset hO hK, reset_typeOf x, seenAs_iff.mpr (reset_reset x).symm⟩
    · rw [h3 hc hg] at hy; cases hy
  · rw [h1 hc] at hy; cases hy
    exact ⟨h, rfl, seenAs_iff.mpr rfl⟩

/-- C74: the copy `==` whatever the original does, on either side, and it `==` the original exactly if the
original `==` itself: it meets no NaN and no map key that does not convert to its own key type. -/
theorem C74_to_owned_eq {E : Env} (hD : DeclsOK E) (hO : OrdLaws E) (hK : KeysShown E) {x y z : Obj}
    (hx : x.OK E) (hz : z.OK E) (hy : x.toOwned E = some y) :
    dynEq E y z = dynEq E x z ∧ dynEq E z y = dynEq E z x ∧
      (dynEq E x y = true ↔ x.EqualsItself E) ∧ (dynEq E y x = true ↔ x.EqualsItself E) ∧
      (dynEq E y y = true ↔ x.EqualsItself E) := by
  obtain ⟨T, h⟩ := hx
  obtain ⟨hyT, _, hs⟩ := C74_to_owned_copy hD hO hK h hy
  have hx : x.OK E := ⟨T, h⟩
  have hy' : y.OK E := ⟨T, hyT⟩
  have same : ∀ {a : Obj}, a.SeenAs a := seenAs_iff.mpr rfl
  have hself := reflectEq_self_iff hD hO hK hx
  have e1 := C73_reflect_eq hO hK hx hy' hz hz hs same
  have e2 := C73_reflect_eq hO hK hz hz hx hy' same hs
  have e3 := C73_reflect_eq hO hK hx hx hx hy' same hs
  have e4 := C73_reflect_eq hO hK hx hy' hx hx hs same
  have e5 := C73_reflect_eq hO hK hx hy' hx hy' hs hs
  refine ⟨by simp only [dynEq, e1], by simp only [dynEq, e2], ?_, ?_, ?_⟩
  · rw [dynEq_iff, ← e3]; exact hself
  · rw [dynEq_iff, ← e4]; exact hself
  · rw [dynEq_iff, ← e5]; exact hself

/-- C74: cloning what `reflect_owned` returned panics exactly when `to_owned` does, and otherwise gives the view
of the copy. -/
theorem C74_owned_clone (E : Env) (x : Obj) :
    x.reflectOwned.clone E = (x.toOwned E).map Obj.reflectOwned := by
  cases x with
  | scalar s => rfl
  | nonzero k n => rfl
  | _ => rfl

/-- C74: so the clone shows the same kind of value, and what it holds differs from what the original holds at most
in its skipped fields. -/
theorem C74_owned_clone_copy {E : Env} (hD : DeclsOK E) (hO : OrdLaws E) (hK : KeysShown E) {x : Obj}
    (hx : x.OK E) {w : View} (hw : x.reflectOwned.clone E = some w) :
    x.reflectOwned.asReflect.SeenAs w.asReflect := by
  obtain ⟨T, h⟩ := hx
  rw [C74_owned_clone] at hw
  obtain ⟨y, hy, rfl⟩ := Option.map_eq_some_iff.mp hw
  obtain ⟨_, _, hs⟩ := C74_to_owned_copy hD hO hK h hy
  cases hs <;> simp only [Obj.reflectOwned, View.asReflect] <;> (constructor <;> assumption)

/-! ## Non-vacuity -/

theorem secrets_hasTy : HasTy demoEnv (.vec (.named "Secret")) (.vec (.named "Secret") [demoSecret]) :=
  .vec _ _ (by intro x hx; simp at hx; subst hx; exact demoSecret_hasTy)

/-- The owned copy of a vector of `Secret`s is not that vector (it lost the contents of the skipped field), and
yet `==` it. -/
example : ∃ y, (Obj.vec (.named "Secret") [demoSecret]).toOwned demoEnv = some y ∧
    y ≠ .vec (.named "Secret") [demoSecret] ∧
    dynEq demoEnv (.vec (.named "Secret") [demoSecret]) y = true := by
  have ok : (Obj.vec (.named "Secret") [demoSecret]).OK demoEnv := ⟨_, secrets_hasTy⟩
  have hg : (Obj.vec (.named "Secret") [demoSecret]).NoGaps := secrets_hasTy.noGaps demo_skipsLast
  have h := (C06_clone_reflect_exactly demo_declsOK demo_ordLaws demo_keysShown secrets_hasTy rfl).2.1 (.vec _) hg
  refine ⟨_, h, by simp [demoSecret, Obj.reset], ?_⟩
  rw [(C74_to_owned_eq demo_declsOK demo_ordLaws demo_keysShown ok ok h).2.2.1]
  refine .mk _ ⟨fun s hs => by simp [Obj.asScalar] at hs, by simp⟩ fun x hx => ?_
  simp [Obj.walked, Obj.posIter, Obj.namedIter] at hx
  subst hx
  refine .mk _ ⟨fun s hs => by simp [demoSecret, Obj.asScalar] at hs, by simp [demoSecret]⟩ fun x hx => ?_
  simp [demoSecret, Obj.walked, Obj.posIter, Obj.namedIter, visFields, List.filter_cons, Obj.isHidden] at hx
  rcases hx with rfl | rfl
  · exact .mk _ ⟨fun s hs => by simp [Obj.asScalar] at hs; subst hs; rfl, by simp⟩ (by simp [Obj.walked, Obj.posIter, Obj.namedIter])
  · refine .mk _ ⟨fun s hs => by simp [Obj.asScalar] at hs, by simp⟩ fun x hx => ?_
    simp [Obj.walked, Obj.posIter, Obj.namedIter] at hx
    rcases hx with rfl | rfl <;>
      exact .mk _ ⟨fun s hs => by simp [Obj.asScalar] at hs; subst hs; rfl, by simp⟩ (by simp [Obj.walked, Obj.posIter, Obj.namedIter])

/-- A NaN does not `==` its copy. -/
example (E : Env) : ∃ y, (Obj.scalar (.f32 0x7fc00000#32)).toOwned E = some y ∧
    dynEq E (.scalar (.f32 0x7fc00000#32)) y = false := by
  refine ⟨.scalar (.f32 0x7fc00000#32), rfl, ?_⟩
  have := C14_nan E (.f32 0x7fc00000#32) (by decide)
  simp [dynEq, this]

/-- `vec![Bad(_, 7)]` cannot be copied. -/
example : (Obj.vec (.named "Bad") [.tupleStruct (.derived "Bad") [.hidden 1, .scalar (.int .u8 7)]]).toOwned
    (badEnv false) = none := by
  have hd : DeclsOK (badEnv false) := by
    refine ⟨?_, ?_, ?_⟩
    · intro n fds c h
      simp only [badEnv, valueOrdEnv] at h
      split at h <;> simp at h
    · intro n vds c h
      simp only [badEnv, valueOrdEnv] at h
      split at h <;> simp at h
    · intro n vds c vn fds h
      simp only [badEnv, valueOrdEnv] at h
      split at h <;> simp at h
  refine (C74_to_owned_panics hd (valueOrdEnv_ordLaws _) (valueOrdEnv_keysShown _)
    (T := .vec (.named "Bad")) (.vec _ _ ?_) rfl).mpr ⟨.vec _, fun h => ?_⟩
  · intro x hx; simp at hx; subst hx; exact bad_hasTy false 1 7
  · have := (h.parts (x := .tupleStruct (.derived "Bad") [.hidden 1, .scalar (.int .u8 7)])
      (by simp [Obj.parts])).here.1 _ _ rfl 0 1 _ _ rfl rfl rfl rfl
    omega

end Mirror
