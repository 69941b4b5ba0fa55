import Verif.Props.Patch
import Verif.Lemmas.PatchSelfExact
import Verif.Lemmas.PatchFullValue

set_option linter.unusedSimpArgs false

/-!
# Exactly when patching with oneself does nothing, and with a full value makes equal (C10, C11)

The words `SelfPatches`, `optOutEnum`, `enumsReset`, `PatchFills` and `ValueFills` are in
`Verif/Spec/PatchSelf.lean`.
-/

namespace Mirror

/-- The examples' types: `enum Sec { S { a: u8, #[reflect(skip)] h: _ }, U }` with and without
`#[reflect(opt_out(Clone))]`, and `enum Opt { Some([u8; 1]), None }` with it. -/
def selfEnv : Env := valueOrdEnv fun n =>
  match n with
  | "Sec" =>
    some ⟨.enum [.struct "S" [⟨"a", .scalar (.int .u8), false⟩, ⟨"h", .scalar .bool, true⟩],
      .unit "U"], false⟩
  | "SecO" =>
    some ⟨.enum [.struct "S" [⟨"a", .scalar (.int .u8), false⟩, ⟨"h", .scalar .bool, true⟩],
      .unit "U"], true⟩
  | "Opt" =>
    some ⟨.enum [.tuple "Some" [⟨"", .array (.scalar (.int .u8)) 1, false⟩], .unit "None"], true⟩
  | _ => none

theorem selfEnv_declsOK : DeclsOK selfEnv where
  struct_names n fds c h := by
    simp only [selfEnv, valueOrdEnv] at h
    split at h <;> simp at h
  variant_names n vds c h := by
    simp only [selfEnv, valueOrdEnv] at h
    split at h <;> simp at h <;> (obtain ⟨rfl, _⟩ := h; decide)
  variant_fields n vds c vn fds h hv := by
    simp only [selfEnv, valueOrdEnv] at h
    split at h <;> simp at h <;> (obtain ⟨rfl, _⟩ := h; simp at hv)
    all_goals (obtain ⟨_, rfl⟩ := hv; decide)

theorem selfEnv_skipsLast : SkipsLast selfEnv := by
  constructor
  · intro n fds c h
    simp only [selfEnv, valueOrdEnv] at h
    split at h <;> simp at h
  · intro n vds c vn fds h hv i j fd fd' hi hj hs
    simp only [selfEnv, valueOrdEnv] at h
    split at h <;> simp at h <;> (obtain ⟨rfl, _⟩ := h; simp at hv)
    obtain ⟨_, rfl⟩ := hv
    cases i <;> simp at hi
    subst hi; simp at hs

/-- `Sec::S { a, h: d }` or `SecO::S { a, h: d }`. -/
def secOf (n : String) (a : Int) (d : Nat) : Obj :=
  .enumS (.derived n) "S" [("a", .scalar (.int .u8 a)), ("h", .hidden d)]

theorem secOf_hasTy {n : String} {c : Bool} (hd : selfEnv.decl n =
    some ⟨.enum [.struct "S" [⟨"a", .scalar (.int .u8), false⟩, ⟨"h", .scalar .bool, true⟩],
      .unit "U"], c⟩) (a : Int) (d : Nat) : HasTy selfEnv (.named n) (secOf n a d) := by
  refine .enumS n _ c "S" _ _ hd List.mem_cons_self rfl ?_ ?_
  · intro i fd p hfd hp hs
    match i with
    | 0 => simp at hfd; subst hfd; simp at hs
    | 1 => simp at hp; subst hp; rfl
    | i + 2 => simp at hfd
  · intro i fd p hfd hp hs
    match i with
    | 0 => simp at hfd hp; subst hfd hp; exact .scalar' rfl
    | 1 => simp at hfd; subst hfd; simp at hs
    | i + 2 => simp at hfd

theorem secO_converts (a : Int) (d : Nat) :
    fromReflect selfEnv (.named "SecO") (secOf "SecO" a d) = some (secOf "SecO" a 0) := by
  rw [fromReflect_enum (show selfEnv.decl "SecO" = some ⟨.enum _, true⟩ from rfl)]
  simp [secOf, Obj.variantName, VariantDef.name, convNamed, Obj.field, visFields, lookup, optAll,
    Obj.isHidden, convField, Obj.isTy, Obj.typeOf, Scalar.kind, fromReflect, Obj.asScalar]

/-! ## C10 -/

/-- C10, first half, exactly: `x.patch(&x)` leaves `x` unchanged if and only if no `opt_out(Clone)` enum
that the patch reaches converts from itself to something else, which is what happens when it holds a
non-default value in a skipped field. -/
theorem C10_patch_self_iff {E : Env} (hD : DeclsOK E) (hO : OrdLaws E) (hK : KeysShown E) {T : Ty}
    {x : Obj} (hx : HasTy E T x) :
    patch E x x = x ↔ ∀ z n y, SelfPatches E x z → z.optOutEnum E n →
      fromReflect E (.named n) z = some y → y = z :=
  patch_self_iff hD hO hK (.inr ⟨T, hx⟩)

theorem PatchFills.self {E : Env} (x : Obj) : PatchFills E x x := by
  induction x using Obj.ind with
  | h x ih =>
    have hn : ∀ (fs : List (String × Obj)), (∀ p ∈ fs, sizeOf p.2 < sizeOf x) →
        ∀ (i : Nat) p q, fs[i]? = some p → fs[i]? = some q → PatchFills E p.2 q.2 := by
      intro fs h i p q hp hq
      rw [hp] at hq; cases hq
      exact ih p.2 (h p (List.mem_of_getElem? hp))
    have hp : ∀ (fs : List Obj), (∀ p ∈ fs, sizeOf p < sizeOf x) →
        ∀ (i : Nat) p q, fs[i]? = some p → fs[i]? = some q → PatchFills E p q := by
      intro fs h i p q hp hq
      rw [hp] at hq; cases hq
      exact ih p (h p (List.mem_of_getElem? hp))
    cases x with
    | scalar s => exact .scalar _ _ rfl
    | nonzero => exact .nonzero _ _ _
    | hidden => exact .hidden _ _
    | struct tag fs =>
      exact .struct _ _ _ rfl (hn fs fun p hp => by have := sizeOf_snd_lt_of_mem hp; simp; omega)
    | enumS tag vn fs =>
      exact .enumS _ _ _ _ rfl (hn fs fun p hp => by have := sizeOf_snd_lt_of_mem hp; simp; omega)
    | tupleStruct tag fs =>
      exact .tupleStruct _ _ _ rfl (hp fs fun p hp => by have := List.sizeOf_lt_of_mem hp; simp; omega)
    | tuple tag fs =>
      exact .tuple _ _ _ rfl (hp fs fun p hp => by have := List.sizeOf_lt_of_mem hp; simp; omega)
    | enumT tag vn fs =>
      exact .enumT _ _ _ _ rfl (hp fs fun p hp => by have := List.sizeOf_lt_of_mem hp; simp; omega)
    | enumU => exact .enumU _ _
    | vec t fs =>
      exact .vec _ _ _ rfl (hp fs fun p hp => by have := List.sizeOf_lt_of_mem hp; simp; omega)
    | array t fs =>
      exact .array _ _ _ rfl (hp fs fun p hp => by have := List.sizeOf_lt_of_mem hp; simp; omega)
    | map kt vt kvs =>
      refine .map _ _ _ _ rfl (fun i p q hp hq => by rw [hp] at hq; cases hq; rfl)
        (fun i p q hp hq _ => ?_) (fun i p q hp hq _ => by rw [hp] at hq; cases hq; rfl)
      rw [hp] at hq; cases hq
      exact ih p.2 (by have := sizeOf_snd_lt_of_mem (List.mem_of_getElem? hp); simp; omega)

/-- C10: `x.patch(&x)` never changes what `x` shows, whatever the type: only the values of skipped
fields can be lost. -/
theorem C10_patch_self_shown {E : Env} (hD : DeclsOK E) (hO : OrdLaws E) (hK : KeysShown E) {T : Ty}
    {x : Obj} (hx : HasTy E T x) : (patch E x x).reset = x.reset :=
  (patch_fills_iff hD hO hK x x ⟨T, hx⟩ ⟨T, hx⟩).mpr (.self x)

/-- C10, second half, exactly: what `x.patch(&x.to_value())` does to `x` is to put default values into
the skipped fields of the enums in it, and nothing else; so it leaves `x` unchanged if and only if
those hold default values already. (For values without gaps; with one, `C10_misplaced_skip_corrupts`.) -/
theorem C10_own_value_iff {E : Env} (hD : DeclsOK E) (hO : OrdLaws E) (hK : KeysShown E)
    {T : Ty} {x : Obj} (hx : HasTy E T x) (hg : x.NoGaps) :
    patch E x x.toValue.toObj = x.enumsReset ∧
      (patch E x x.toValue.toObj = x ↔ x.enumsReset = x) := by
  have h := patch_toValue_eq hD hO hK ⟨T, hx⟩ hg
  exact ⟨h, by rw [h]⟩

/-- Non-vacuity of C10: with `opt_out(Clone)` the enum `SecO::S { a, h: 5 }` in a list forgets `h` when
patched with itself; without it, it does not; patched with their values, both do. -/
example (a : Int) :
    HasTy selfEnv (.vec (.named "SecO")) (.vec (.named "SecO") [secOf "SecO" a 5]) ∧
    patch selfEnv (.vec (.named "SecO") [secOf "SecO" a 5]) (.vec (.named "SecO") [secOf "SecO" a 5]) ≠
      .vec (.named "SecO") [secOf "SecO" a 5] ∧
    patch selfEnv (.vec (.named "Sec") [secOf "Sec" a 5]) (.vec (.named "Sec") [secOf "Sec" a 5]) =
      .vec (.named "Sec") [secOf "Sec" a 5] ∧
    patch selfEnv (secOf "Sec" a 5) (secOf "Sec" a 5).toValue.toObj = secOf "Sec" a 0 := by
  have h1 : HasTy selfEnv (.vec (.named "SecO")) (.vec (.named "SecO") [secOf "SecO" a 5]) :=
    .vec _ _ (by intro x hx; simp at hx; subst hx; exact secOf_hasTy rfl a 5)
  have h2 : HasTy selfEnv (.vec (.named "Sec")) (.vec (.named "Sec") [secOf "Sec" a 5]) :=
    .vec _ _ (by intro x hx; simp at hx; subst hx; exact secOf_hasTy rfl a 5)
  refine ⟨h1, ?_, ?_, ?_⟩
  · intro h
    rw [C10_patch_self_iff selfEnv_declsOK (valueOrdEnv_ordLaws _) (valueOrdEnv_keysShown _) h1] at h
    have := h (secOf "SecO" a 5) "SecO" (secOf "SecO" a 0) (.vec _ _ _ _ (by simp) (.here _))
      ⟨rfl, rfl, _, rfl, rfl⟩ (secO_converts a 5)
    simp [secOf] at this
  · rw [C10_patch_self_iff selfEnv_declsOK (valueOrdEnv_ordLaws _) (valueOrdEnv_keysShown _) h2]
    intro z n y hz ho _
    exfalso
    obtain ⟨o1, o2, d, o3, o4⟩ := ho
    cases hz with
    | here => simp [Obj.kind] at o1
    | vec _ _ x _ hx hz =>
      simp at hx; subst hx
      cases hz with
      | here =>
        simp [secOf, Obj.typeOf] at o2; subst o2
        simp [selfEnv, valueOrdEnv] at o3; subst o3; simp at o4
      | enumS _ _ _ _ _ ho =>
        obtain ⟨_, _, d, o3, o4⟩ := ho
        simp [selfEnv, valueOrdEnv] at o3; subst o3; simp at o4
  · rw [(C10_own_value_iff selfEnv_declsOK (valueOrdEnv_ordLaws _) (valueOrdEnv_keysShown _)
      (secOf_hasTy (n := "Sec") rfl a 5) ((secOf_hasTy (n := "Sec") rfl a 5).noGaps selfEnv_skipsLast)).1]
    simp [secOf, Obj.enumsReset, Obj.reset]

/-! ## C11 -/

/-- C11, first half, exactly: for values `x`, `y` of any types, `x.patch(&y)` makes `x` show what `y`
shows (and, when no type has skipped fields, equal `y`) if and only if `y` fills `x`: same type, same
lengths of lists, same keys in maps, and no array or other unconvertible value inside of an
`opt_out(Clone)` enum of another variant. -/
theorem C11_patch_full_iff {E : Env} (hD : DeclsOK E) (hO : OrdLaws E) (hK : KeysShown E) {T U : Ty}
    {x y : Obj} (hx : HasTy E T x) (hy : HasTy E U y) :
    ((patch E x y).reset = y.reset ↔ PatchFills E x y) ∧
      (NoSkips E → (patch E x y = y ↔ PatchFills E x y)) := by
  have h := patch_fills_iff hD hO hK x y ⟨T, hx⟩ ⟨U, hy⟩
  refine ⟨h, fun hN => ?_⟩
  rwa [(patch_hasTy hO y ⟨U, hy⟩ hx).reset_eq hN, hy.reset_eq hN] at h

/-- C11, second half, exactly: the same for `x.patch(&y.to_value())`. Enums are then always replaced;
arrays outside of enums must be the same already, since the value of an array is a list. -/
theorem C11_patch_full_dynamic_iff {E : Env} (hD : DeclsOK E) (hO : OrdLaws E) (hK : KeysShown E)
    {T U : Ty} {x y : Obj} (hx : HasTy E T x) (hy : HasTy E U y) (hg : y.NoGaps) :
    ((patch E x y.toValue.toObj).reset = y.reset ↔ ValueFills x y) ∧
      (NoSkips E → (patch E x y.toValue.toObj = y ↔ ValueFills x y)) := by
  have h := patch_value_fills_iff hD hO hK (x := x) (y := y) ⟨T, hx⟩ ⟨U, hy⟩ hg
  refine ⟨h, fun hN => ?_⟩
  rwa [(patch_hasTy hO _ hy.toValue_wf.ok hx).reset_eq hN, hy.reset_eq hN] at h

/-- Non-vacuity of C11: `Opt::None` is not filled by `Opt::Some([k])`, and shows something else after the
patch; it is filled by the value of `Opt::Some([k])`; a list is filled by one of the same length only. -/
example (k : Int) :
    let none' := Obj.enumU (.derived "Opt") "None"
    let some' := Obj.enumT (.derived "Opt") "Some" [.array (.scalar (.int .u8)) [.scalar (.int .u8 k)]]
    ¬ PatchFills selfEnv none' some' ∧ ValueFills none' some' ∧
    PatchFills selfEnv (.vec (.scalar .bool) [.scalar (.bool false)])
      (.vec (.scalar .bool) [.scalar (.bool true)]) ∧
    ¬ PatchFills selfEnv (.vec (.scalar .bool) [.scalar (.bool false)]) (.vec (.scalar .bool) []) := by
  intro none' some'
  have ho : some'.optOutEnum selfEnv "Opt" := ⟨rfl, rfl, _, rfl, rfl⟩
  have hc : (fromReflect selfEnv (.named "Opt") some').isSome = false := by
    rw [fromReflect_enum (show selfEnv.decl "Opt" = some ⟨.enum _, true⟩ from rfl)]
    have hf : (Obj.array (.scalar (.int .u8)) [.scalar (.int .u8 k)]).isHidden = false := rfl
    simp [some', Obj.variantName, VariantDef.name, convPos, convField, Obj.fieldAt, visAt, hf, optAll,
      C04_array_never_converts_from_itself]
  refine ⟨?_, .replaced "Opt" _ _ rfl rfl rfl rfl, .vec _ _ _ rfl ?_, ?_⟩
  · intro h
    revert h ho hc
    generalize hn : none' = a
    generalize hs : some' = b
    intro ho hc h
    cases h with
    | cloned n _ _ _ _ h1 h2 h3 =>
      subst hn; cases h1; exact h3 ho
    | converted n _ _ h1 h2 h3 h4 =>
      subst hn; cases h2; rw [hc] at h4; cases h4
    | otherVariant _ _ _ _ h1 => subst hn; simp [none', Obj.typeOf] at h1
    | enumU => simp [some'] at hs
    | _ => simp [none'] at hn
  · intro i p q hp hq
    cases i <;> simp at hp hq
    subst hp hq
    exact .scalar _ _ rfl
  · intro h
    cases h with
    | vec _ _ _ h => simp at h
    | cloned _ _ _ h => simp [Obj.kind] at h
    | converted _ _ _ h => simp [Obj.kind] at h
    | otherVariant _ _ h => simp [Obj.kind] at h

end Mirror
