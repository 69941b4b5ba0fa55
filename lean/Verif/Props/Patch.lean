import Verif.Lemmas.PatchEq
import Verif.Lemmas.PatchTwice
import Verif.Lemmas.Demo
import Verif.Props.RoundTrip

set_option linter.unusedSimpArgs false

/-!
# C07-C13: `patch`

`patch E x v` is the content of `x` after `x.patch(&v)`.
-/

namespace Mirror

/-- A concrete environment for the examples and counterexamples below:
`struct Bad3(#[reflect(skip)] _, u8, u8)`, `enum Wrap { B(Bad3) }`,
`enum Sec { S { a: u8, #[reflect(skip)] h: _ }, U }`,
`enum Opt { Some([u8; 1]), None }` with `opt_out(Clone)` as `Option` has it. -/
def patchEnv : Env := valueOrdEnv fun n =>
  if n = "Bad3" then
    some ⟨.tupleStruct [⟨"", .scalar .bool, true⟩, ⟨"", .scalar (.int .u8), false⟩,
      ⟨"", .scalar (.int .u8), false⟩], false⟩
  else if n = "Wrap" then some ⟨.enum [.tuple "B" [⟨"", .named "Bad3", false⟩]], false⟩
  else if n = "Sec" then
    some ⟨.enum [.struct "S" [⟨"a", .scalar (.int .u8), false⟩, ⟨"h", .scalar .bool, true⟩],
      .unit "U"], false⟩
  else if n = "Opt" then
    some ⟨.enum [.tuple "Some" [⟨"", .array (.scalar (.int .u8)) 1, false⟩], .unit "None"], true⟩
  else none

theorem patchEnv_declsOK : DeclsOK patchEnv where
  struct_names n fds c h := by
    simp only [patchEnv, valueOrdEnv] at h
    repeat' split at h
    all_goals simp at h
  variant_names n vds c h := by
    simp only [patchEnv, valueOrdEnv] at h
    repeat' split at h
    all_goals simp at h
    all_goals (obtain ⟨rfl, _⟩ := h; decide)
  variant_fields n vds c vn fds h hv := by
    simp only [patchEnv, valueOrdEnv] at h
    repeat' split at h
    all_goals simp at h
    all_goals (obtain ⟨rfl, _⟩ := h; simp at hv)
    all_goals (obtain ⟨_, rfl⟩ := hv; decide)

/-- `Bad3(_, a, b)`. -/
def bad3 (a b : Int) : Obj :=
  .tupleStruct (.derived "Bad3") [.hidden 1, .scalar (.int .u8 a), .scalar (.int .u8 b)]

theorem bad3_hasTy (a b : Int) : HasTy patchEnv (.named "Bad3") (bad3 a b) := by
  refine .tupleStruct "Bad3" _ false _ rfl rfl ?_ ?_
  · intro i fd p hfd hp hs
    match i with
    | 0 => simp at hp; subst hp; rfl
    | 1 => simp at hfd; subst hfd; simp at hs
    | 2 => simp at hfd; subst hfd; simp at hs
    | i + 3 => simp at hfd
  · intro i fd p hfd hp hs
    match i with
    | 0 => simp at hfd; subst hfd; simp at hs
    | 1 => simp at hfd hp; subst hfd hp; exact .scalar' rfl
    | 2 => simp at hfd hp; subst hfd hp; exact .scalar' rfl
    | i + 3 => simp at hfd

theorem wrap_hasTy (a b : Int) :
    HasTy patchEnv (.named "Wrap") (.enumT (.derived "Wrap") "B" [bad3 a b]) := by
  refine .enumT "Wrap" _ false "B" _ _ rfl List.mem_cons_self rfl ?_ ?_
  · intro i fd p hfd hp hs
    match i with
    | 0 => simp at hfd; subst hfd; simp at hs
    | i + 1 => simp at hfd
  · intro i fd p hfd hp hs
    match i with
    | 0 => simp at hfd hp; subst hfd hp; exact bad3_hasTy a b
    | i + 1 => simp at hfd

/-- `Sec::S { a, h: d }`. -/
def secS (a : Int) (d : Nat) : Obj :=
  .enumS (.derived "Sec") "S" [("a", .scalar (.int .u8 a)), ("h", .hidden d)]

theorem sec_hasTy (a : Int) (d : Nat) : HasTy patchEnv (.named "Sec") (secS a d) := by
  refine .enumS "Sec" _ false "S" _ _ rfl List.mem_cons_self rfl ?_ ?_
  · intro i fd p hfd hp hs
    match i with
    | 0 => simp at hfd; subst hfd; simp at hs
    | 1 => simp at hp; subst hp; rfl
    | i + 2 => simp at hfd
  · intro i fd p hfd hp hs
    match i with
    | 0 => simp at hfd hp; subst hfd hp; exact .scalar' rfl
    | 1 => simp at hfd; subst hfd; simp at hs
    | i + 2 => simp at hfd

/-! ## C07 -/

/-- C07: after `x.patch(&v)`, `x` is still a proper value of its type, for every proper value `v` of
any type. -/
theorem C07_patch_keeps_type {E : Env} (hO : OrdLaws E) {S T : Ty} {x v : Obj} (hx : HasTy E T x)
    (hv : HasTy E S v) : HasTy E T (patch E x v) :=
  patch_hasTy hO v ⟨S, hv⟩ hx

/-- Non-vacuity of C07: patching a `Shape` with a `Point`'s dynamic value, or a tree with a `Secret`. -/
example : HasTy demoEnv (.named "Tree") (patch demoEnv demoTree demoSecret) ∧
    HasTy demoEnv (.named "Shape") (patch demoEnv demoShape demoPoint.toValue.toObj) :=
  ⟨C07_patch_keeps_type demo_ordLaws demoTree_hasTy demoSecret_hasTy,
   C07_patch_keeps_type demo_ordLaws demoShape_hasTy
    (.value _ _ demoPoint_hasTy.toValue_wf rfl)⟩

/-! ## C08 -/

/-- C08: a value of another kind (struct, tuple struct, tuple, enum, array, list, map, scalar) does
nothing. -/
theorem C08_other_kind_no_effect {E : Env} (hO : OrdLaws E) {S T : Ty} {x v : Obj}
    (hx : HasTy E T x) (hv : HasTy E S v) (hk : v.kind ≠ x.kind) : patch E x v = x :=
  patch_other_kind hO ⟨T, hx⟩ ⟨S, hv⟩ hk

/-- Non-vacuity of C08. -/
example : patch demoEnv demoShape demoTree = demoShape :=
  C08_other_kind_no_effect demo_ordLaws demoShape_hasTy demoTree_hasTy (by decide)

/-! ## C09 -/

/-- C09 (partial): patching twice with the same value is the same as patching once, for every value `x` and every
patch `v` whose enums hold no gaps. Gaps (a skipped field before one that is not, in a tuple struct or tuple variant)
anywhere in `x`, and in `v` outside of enums, do no harm. Missing: patches with an enum that holds a gap, for which it
is false (`C09_misplaced_skip_not_idempotent`). -/
theorem C09_patch_idempotent_partial {E : Env} (hD : DeclsOK E) (hO : OrdLaws E) (hK : KeysShown E)
    {S T : Ty} {x v : Obj} (hx : HasTy E T x) (hv : HasTy E S v) (hg : v.EnumsGapFree) :
    patch E (patch E x v) v = patch E x v :=
  patch_idem hD hO hK ⟨T, hx⟩ ⟨S, hv⟩ hg

/-- Non-vacuity of C09. -/
example : patch demoEnv (patch demoEnv (.enumU .dyn "Empty") demoShape) demoShape =
      patch demoEnv (.enumU .dyn "Empty") demoShape ∧
    patch demoEnv (.enumU .dyn "Empty") demoShape ≠ .enumU .dyn "Empty" := by
  refine ⟨C09_patch_idempotent_partial demo_declsOK demo_ordLaws demo_keysShown
    (.value _ _ (.enumU "Empty") (by rw [Value.toObj])) demoShape_hasTy
    (demoShape_hasTy.noGaps demo_skipsLast).enumsGapFree, ?_⟩
  rw [patch_enum_dyn demoEnv rfl rfl]
  simp [Obj.kind, Obj.variantName, demoShape, fromReflect, Obj.variantKind, Value.toObj]

/-- C09 where both the value and the patch have a gap: `Bad3(_, 1, 2)` patched with `Bad3(_, 7, 8)`. -/
example : patch patchEnv (patch patchEnv (bad3 1 2) (bad3 7 8)) (bad3 7 8) = patch patchEnv (bad3 1 2) (bad3 7 8) ∧
    patch patchEnv (bad3 1 2) (bad3 7 8) ≠ bad3 1 2 ∧ ¬ (bad3 7 8).NoGaps := by
  refine ⟨C09_patch_idempotent_partial patchEnv_declsOK (valueOrdEnv_ordLaws _) (valueOrdEnv_keysShown _)
    (bad3_hasTy 1 2) (bad3_hasTy 7 8) (.mk _ nofun ?_), ?_, ?_⟩
  · intro x hx
    simp [bad3, Obj.parts, visPos, Obj.isHidden] at hx
    rcases hx with rfl | rfl <;> exact .mk _ nofun nofun
  · simp [bad3, patch_tupleStruct, Obj.kind, patchPos, Obj.fieldAt, visAt, patchO, patch_scalar, Obj.isTy,
      Obj.typeOf, Scalar.kind, Obj.isHidden, patch_hidden]
  · intro h
    have := h.here.1 _ _ rfl 0 1 _ _ rfl rfl rfl rfl
    omega

/-- C09 is false with a misplaced skip: the `EnumValue` `A` patched with `Wrap::B(Bad3(_, 7, 8))`
becomes `B((7, 8))`, and patched again becomes `B((7, 7))`. -/
theorem C09_misplaced_skip_not_idempotent :
    ∃ E x v, (∃ S, HasTy E S v) ∧ HasTy E .enumValue x ∧ OrdLaws E ∧ KeysShown E ∧
      patch E (patch E x v) v ≠ patch E x v := by
  refine ⟨patchEnv, .enumU .dyn "A", .enumT (.derived "Wrap") "B" [bad3 7 8],
    ⟨_, wrap_hasTy 7 8⟩, .enumValueU "A" _ (by rw [Value.toObj]), valueOrdEnv_ordLaws _,
    valueOrdEnv_keysShown _, ?_⟩
  have h1 : patch patchEnv (.enumU .dyn "A") (.enumT (.derived "Wrap") "B" [bad3 7 8]) =
      .enumT .dyn "B" [.tupleStruct .dyn [.scalar (.int .u8 7), .scalar (.int .u8 8)]] := by
    rw [patch_enum_dyn patchEnv rfl rfl]
    simp [Obj.kind, Obj.variantName, fromReflect, Obj.variantKind, Obj.posIter, bad3, Obj.isHidden,
      toValue_tupleStruct, visPos, Obj.toValue, Value.toObj]
  rw [h1, patch_enum_dyn patchEnv rfl rfl]
  simp [Obj.kind, Obj.variantName, patchFields, patchPos, Obj.fieldAt, visAt, bad3, Obj.isHidden,
    patchO, patch_tupleStruct, patch_scalar, Obj.isTy, Obj.typeOf, Scalar.kind]

/-- C09 at a dynamic enum, exactly: patched with an enum of another variant it becomes the dynamic copy of that
enum, and patching twice is patching once if and only if the enum, used to patch its own dynamic copy, leaves the
copy as it is. -/
theorem C09_other_variant_iff {E : Env} {x v : Obj} (hx : HasTy E .enumValue x) (hv : v.kind = .enum)
    (hne : v.variantName ≠ x.variantName) :
    ∃ y, fromReflect E .enumValue v = some y ∧ patch E x v = y ∧
      (patch E (patch E x v) v = patch E x v ↔ patch E y v = y) := by
  have hk := enumValue_kind hx
  obtain ⟨y, h1, h2⟩ := patch_other_variant (E := E) hk.1 hk.2 hv hne
  exact ⟨y, h1, h2, by rw [h2]⟩

/-- C09 fails at every gap that shows: whenever a tuple variant `v` reflects, at some position `k`, a tuple struct or
tuple variant `w` whose field `j` is one scalar while field `j` of `w.to_value()` is another scalar of that kind,
patching any dynamic enum of another variant with `v` twice is not the same as patching it once. -/
theorem C09_gap_breaks {E : Env} {x v w : Obj} (hx : HasTy E .enumValue x) (hv : v.variantKind = some .tuple)
    (hne : v.variantName ≠ x.variantName) {k : Nat} (hk : v.posIter[k]? = some w)
    (hw : w.kind = .tupleStruct ∨ w.variantKind = some .tuple) {j : Nat} {s s' : Scalar}
    (hs : w.fieldAt j = some (.scalar s)) (hs' : w.toValue.toObj.fieldAt j = some (.scalar s'))
    (hkind : s.kind = s'.kind) (hss : s ≠ s') : patch E (patch E x v) v ≠ patch E x v := by
  have hvk : v.kind = .enum := by cases v <;> simp [Obj.variantKind] at hv <;> rfl
  obtain ⟨y, h1, _, h3⟩ := C09_other_variant_iff hx hvk hne
  intro e
  have e := h3.mp e
  obtain ⟨tag, vn, fs, rfl⟩ : ∃ tag vn fs, v = .enumT tag vn fs := by
    cases v <;> simp [Obj.variantKind] at hv <;> exact ⟨_, _, _, rfl⟩
  rw [fromReflect] at h1
  simp only [Obj.variantKind, Obj.variantName, Option.bind_some, Option.some.injEq] at h1
  subst h1
  simp only [Value.toObj] at e
  rw [patch_enum_dyn E rfl rfl] at e
  simp only [Obj.kind, Obj.variantName, if_true, patchFields] at e
  injection e with _ _ e
  obtain ⟨h4, h5⟩ := takeWhile_getElem hk
  have hf : (Obj.enumT tag vn fs).fieldAt k = some w := by
    simp only [Obj.fieldAt, visAt, h4]
    simp at h5
    simp [h5]
  have := patchPos_at (E := E) (fs := (((Obj.enumT tag vn fs).posIter.map fun x => x.toValue).map Value.toObj))
    (c := w.toValue.toObj) (by rw [List.getElem?_map, List.getElem?_map, hk]; rfl) hf
  have e' : patchPos E (Obj.enumT tag vn fs) (((Obj.enumT tag vn fs).posIter.map fun x => x.toValue).map Value.toObj) =
    (((Obj.enumT tag vn fs).posIter.map fun x => x.toValue).map Value.toObj) := by simpa using e
  rw [e', List.getElem?_map, List.getElem?_map, hk] at this
  simp only [Option.map_some, Option.some.injEq] at this
  exact patch_copy_ne hw hs hs' hkind hss this.symm

/-- Non-vacuity: `Wrap::B(Bad3(_, 7, 8))`. Field 1 of `Bad3(_, 7, 8)` is 7 and field 1 of its `to_value` is 8. -/
example : patch patchEnv (patch patchEnv (.enumU .dyn "A") (.enumT (.derived "Wrap") "B" [bad3 7 8]))
    (.enumT (.derived "Wrap") "B" [bad3 7 8]) ≠ patch patchEnv (.enumU .dyn "A") (.enumT (.derived "Wrap") "B" [bad3 7 8]) :=
  C09_gap_breaks (.enumValueU "A" _ (by rw [Value.toObj])) rfl (by simp [Obj.variantName]) (k := 0) (w := bad3 7 8) rfl
    (.inl rfl) (j := 1) (s := .int .u8 7) (s' := .int .u8 8) rfl (by cbv) rfl (by decide)

/-! ## C10 -/

/-- C10 (partial), first half: `x.patch(&x)` leaves `x` unchanged. Missing: enums with
`opt_out(Clone)` that hold non-default values in skipped fields. -/
theorem C10_patch_self_partial {E : Env} (hD : DeclsOK E) (hO : OrdLaws E) (hK : KeysShown E)
    {T : Ty} {x : Obj} (hx : HasTy E T x) (he : NoCloneOptOut E ∨ x.EnumsDefault) :
    patch E x x = x :=
  patch_self hD hO hK ⟨T, hx⟩ he

/-- C10 (partial), second half: `x.patch(&x.to_value())` leaves `x` unchanged. Missing: enums that
hold non-default values in skipped fields (`C10_enum_forgets_skipped`), and values with a
misplaced skip (`C10_misplaced_skip_corrupts`). -/
theorem C10_patch_own_value_partial {E : Env} (hD : DeclsOK E) (hO : OrdLaws E) (hK : KeysShown E)
    {T : Ty} {x : Obj} (hx : HasTy E T x) (hg : x.NoGaps) (he : x.EnumsDefault) :
    patch E x x.toValue.toObj = x :=
  patch_toValue hD hO hK ⟨T, hx⟩ hg he

/-- C10 for types without skipped fields, where nothing else is needed. -/
theorem C10_patch_self_no_skips {E : Env} (hD : DeclsOK E) (hO : OrdLaws E) (hK : KeysShown E)
    (hN : NoSkips E) {T : Ty} {x : Obj} (hx : HasTy E T x) :
    patch E x x = x ∧ patch E x x.toValue.toObj = x := by
  have he : x.EnumsDefault := .enum x (hx.reset_eq hN)
  refine ⟨patch_self hD hO hK ⟨T, hx⟩ (.inr he), patch_toValue hD hO hK ⟨T, hx⟩ (hx.noGaps ?_) he⟩
  constructor
  · intro n fds c hd i j fd fd' hi _ hs _
    simp [hN.2.1 n fds c hd fd (List.mem_of_getElem? hi)] at hs
  · intro n vds c vn fds hd hv i j fd fd' hi _ hs _
    simp [hN.2.2 n vds c vn fds hd (.inr hv) fd (List.mem_of_getElem? hi)] at hs

/-- Non-vacuity of C10: a struct with a skipped field holding a non-default payload; it is kept. -/
example : patch demoEnv demoSecret demoSecret = demoSecret ∧
    patch demoEnv demoSecret demoSecret.toValue.toObj = demoSecret ∧
    demoSecret.reset ≠ demoSecret := by
  have he : demoSecret.EnumsDefault := by
    refine .struct _ _ ?_
    intro p hp; simp at hp
    rcases hp with rfl | rfl | rfl
    · exact .scalar _
    · exact .hidden _
    · refine .vec _ _ ?_
      intro x hx; simp at hx; rcases hx with rfl | rfl <;> exact .scalar _
  exact ⟨C10_patch_self_partial demo_declsOK demo_ordLaws demo_keysShown demoSecret_hasTy (.inr he),
    C10_patch_own_value_partial demo_declsOK demo_ordLaws demo_keysShown demoSecret_hasTy
      (demoSecret_hasTy.noGaps demo_skipsLast) he, by simp [demoSecret, Obj.reset]⟩

/-- C10 is false for enums with skipped content: patching any derived enum without gaps with its own `to_value`
resets its skipped fields. -/
theorem C10_enum_forgets_skipped {E : Env} (hD : DeclsOK E) (hO : OrdLaws E) (hK : KeysShown E)
    {n : String} {vds : List VariantDef} {c : Bool} (hd : E.decl n = some ⟨.enum vds, c⟩) {x : Obj}
    (hx : HasTy E (.named n) x) (hg : x.NoGaps) :
    patch E x x.toValue.toObj = x.reset := by
  obtain ⟨k1, t1⟩ := enum_typeOf hd hx
  have hv : x.toValue.toObj.kind = .enum ∧ x.toValue.toObj.isTy (.named n) = false := by
    cases hx with
    | struct _ _ _ _ hd' => rw [hd] at hd'; cases hd'
    | tupleStruct _ _ _ _ hd' => rw [hd] at hd'; cases hd'
    | enumS => rw [toValue_enumS, Value.toObj]; exact ⟨rfl, rfl⟩
    | enumT => rw [toValue_enumT, Value.toObj]; exact ⟨rfl, rfl⟩
    | enumU => rw [Obj.toValue, Value.toObj]; exact ⟨rfl, rfl⟩
  rw [patch_enum_derived E k1 t1, hv.2, Bool.false_and, if_neg (by simp), if_pos hv.1,
    roundtrip_noGaps hD hO hK hx hg]

/-- A witness for `C10_enum_forgets_skipped`: `Sec::S { a: 1, h: 5 }`. -/
example : (secS 1 5).reset ≠ secS 1 5 ∧ HasTy patchEnv (.named "Sec") (secS 1 5) :=
  ⟨by simp [secS, Obj.reset], sec_hasTy 1 5⟩

/-- C10 is false with a misplaced skip: `Bad3(_, a, b)` patched with its own `to_value` becomes
`Bad3(_, b, b)`. -/
theorem C10_misplaced_skip_corrupts (a b : Int) :
    HasTy patchEnv (.named "Bad3") (bad3 a b) ∧
      patch patchEnv (bad3 a b) (bad3 a b).toValue.toObj = bad3 b b := by
  refine ⟨bad3_hasTy a b, ?_⟩
  simp [bad3, toValue_tupleStruct, visPos, Obj.isHidden, Obj.toValue, Value.toObj,
    patch_tupleStruct, Obj.kind, patchPos, Obj.fieldAt, visAt, patchO, patch_scalar, Obj.isTy,
    Obj.typeOf, Scalar.kind, patch_hidden]

/-! ## C11 -/

/-- C11 (partial): for `x`, `y` of the same fixed-shape type, after `x.patch(&y)` the reflected
content of `x` is that of `y`, and `x = y` if nothing is skipped. Missing: enums with
`opt_out(Clone)` (such as `Option`) that contain an array, for which it is false
(`C11_option_of_array_not_patched`). -/
theorem C11_patch_full_value_partial {E : Env} (hD : DeclsOK E) (hO : OrdLaws E) (hK : KeysShown E)
    {T : Ty} (hT : T.Fixed E true) {x y : Obj} (hx : HasTy E T x) (hy : HasTy E T y)
    (ha : NoCloneOptOut E ∨ y.ArrayFree) :
    (patch E x y).reset = y.reset ∧ (NoSkips E → patch E x y = y) := by
  have h := patch_full hD hO hK hT hx hy ha
  refine ⟨h, fun hN => ?_⟩
  rw [(patch_hasTy hO y ⟨T, hy⟩ hx).reset_eq hN, hy.reset_eq hN] at h
  exact h

/-- C11 (partial) with the dynamic value of `y`, for types without arrays outside of enums: the value
of an array is a list, and patching an array with a list does nothing (`C08`). -/
theorem C11_patch_full_dynamic_partial {E : Env} (hD : DeclsOK E) (hO : OrdLaws E)
    (hK : KeysShown E) {T : Ty} (hT : T.Fixed E false) {x y : Obj}
    (hx : HasTy E T x) (hy : HasTy E T y) (hg : y.NoGaps) :
    (patch E x y.toValue.toObj).reset = y.reset ∧
      (NoSkips E → patch E x y.toValue.toObj = y) := by
  have h := patch_full_value hD hO hK hT hx hy hg
  refine ⟨h, fun hN => ?_⟩
  rw [(patch_hasTy hO _ hy.toValue_wf.ok hx).reset_eq hN, hy.reset_eq hN] at h
  exact h

/-- Non-vacuity of C11: two different values of the recursive enum `Shape`. -/
example : (Ty.named "Shape").Fixed demoEnv true ∧ (Ty.named "Point").Fixed demoEnv false ∧
    demoShape.ArrayFree := by
  refine ⟨.enum "Shape" _ false rfl, .struct "Point" _ false rfl ?_, ?_⟩
  · intro fd hfd _; simp at hfd; rcases hfd with rfl | rfl <;> exact .scalar _
  · refine .enumT _ _ _ ?_
    intro x hx; simp at hx
    rcases hx with rfl | rfl
    · exact .scalar _
    · refine .enumS _ _ _ ?_
      intro p hp; simp at hp; subst hp; exact .scalar _

/-- C11 is false for `Option`-like enums (`opt_out(Clone)`) around an array: patching `None` with
`Some([k])` leaves `None`. -/
theorem C11_option_of_array_not_patched (k : Int) :
    patch patchEnv (.enumU (.derived "Opt") "None")
      (.enumT (.derived "Opt") "Some" [.array (.scalar (.int .u8)) [.scalar (.int .u8 k)]]) =
    .enumU (.derived "Opt") "None" ∧
    HasTy patchEnv (.named "Opt")
      (.enumT (.derived "Opt") "Some" [.array (.scalar (.int .u8)) [.scalar (.int .u8 k)]]) ∧
    HasTy patchEnv (.named "Opt") (.enumU (.derived "Opt") "None") := by
  refine ⟨?_, ?_, ?_⟩
  · rw [patch_enum_derived (n := "Opt") patchEnv rfl rfl]
    have hd : patchEnv.decl "Opt" = some ⟨.enum [.tuple "Some"
      [⟨"", .array (.scalar (.int .u8)) 1, false⟩], .unit "None"], true⟩ := rfl
    rw [if_neg (by simp [hd]), if_pos (by rfl), fromReflect_enum hd]
    have hf : (Obj.array (.scalar (.int .u8)) [.scalar (.int .u8 k)]).isHidden = false := rfl
    simp [Obj.variantName, VariantDef.name, convPos, convField, Obj.fieldAt, visAt, hf, optAll,
      C04_array_never_converts_from_itself]
  · refine .enumT "Opt" _ true "Some" _ _ rfl List.mem_cons_self rfl ?_ ?_
    · intro i fd p hfd hp hs
      match i with
      | 0 => simp at hfd; subst hfd; simp at hs
      | i + 1 => simp at hfd
    · intro i fd p hfd hp hs
      match i with
      | 0 =>
        simp at hfd hp; subst hfd hp
        exact .array _ [_] (by intro x hx; simp at hx; subst hx; exact .scalar' rfl)
      | i + 1 => simp at hfd
  · exact .enumU "Opt" _ true "None" rfl (List.mem_cons_of_mem _ List.mem_cons_self)

/-! ## C12 -/

/-- What happens to the elements of a list or array: same length, and position by position. -/
def Patched (E : Env) (xs : List Obj) (get : Nat → Option Obj) (ys : List Obj) : Prop :=
  ys.length = xs.length ∧
  ∀ (i : Nat) a, xs[i]? = some a →
    (∀ w, get i = some w → ys[i]? = some (patch E a w)) ∧ (get i = none → ys[i]? = some a)

theorem patchPos_patched (E : Env) (v : Obj) (xs : List Obj) :
    Patched E xs v.fieldAt (patchPos E v xs) := by
  refine ⟨by simp [patchPos], fun i a ha => ⟨fun w hw => ?_, fun hw => ?_⟩⟩ <;>
    simp [patchPos, ha, hw, patchO]

/-- C12: patching a list or array with a list respectively an array changes exactly the positions
both sides have, each by patching it, and never the length. (With any other kind nothing happens:
C08.) -/
theorem C12_patch_list (E : Env) (t u : Ty) (xs ys : List Obj) :
    (∃ zs, patch E (.vec t xs) (.vec u ys) = .vec t zs ∧ Patched E xs (fun i => ys[i]?) zs) ∧
    (∃ zs, patch E (.array t xs) (.array u ys) = .array t zs ∧ Patched E xs (fun i => ys[i]?) zs) := by
  constructor
  · exact ⟨_, by rw [patch_vec, if_pos (by rfl)], patchPos_patched E (.vec u ys) xs⟩
  · exact ⟨_, by rw [patch_array, if_pos (by rfl)], patchPos_patched E (.array u ys) xs⟩

/-- C12: patching a map keeps its keys. The value of each key is patched, in order, with the values
of the patch whose key converts to a key equal to it. -/
theorem C12_patch_map {E : Env} (hO : OrdLaws E) {kt vt u w : Ty} {kvs new : List (Obj × Obj)}
    (hx : HasTy E (.map kt vt) (.map kt vt kvs)) {S : Ty} (hv : HasTy E S (.map u w new)) :
    patch E (.map kt vt kvs) (.map u w new) = .map kt vt (kvs.map fun p => (p.1,
      ((new.filter fun q => (fromReflect E kt q.1).any fun k => E.kcmp kt k p.1 = .eq).map
        (·.2)).foldl (patch E) p.2)) := by
  cases hx with
  | map _ _ _ hs hk hv' =>
    have hnew : ∀ p ∈ new, p.1.OK E := fun p hp => (map_entry_ok ⟨S, hv⟩ hp).1
    rw [patch_map, patchEntries_eq hO _ hnew _ hs hk]
    congr 1
    apply List.map_congr_left
    intro p _
    congr 1
    unfold patchSeq
    congr 1
    unfold hits
    clear hnew hv
    induction new with
    | nil => rfl
    | cons q new ih =>
      simp only [List.filterMap_cons, List.filter_cons]
      cases hf : fromReflect E kt q.1 with
      | none => simpa using ih
      | some k =>
        by_cases he : E.kcmp kt k p.1 = .eq
        · simp [he, ih]
        · simp [he, ih]

/-- C12 for the usual case: a key the patch does not have keeps its value, and a key it has exactly
once gets its value patched with that entry. -/
theorem C12_patch_map_entry {E : Env} (hO : OrdLaws E) {kt vt u w : Ty} {kvs new : List (Obj × Obj)}
    (hx : HasTy E (.map kt vt) (.map kt vt kvs)) {S : Ty} (hv : HasTy E S (.map u w new)) :
    ∃ r, patch E (.map kt vt kvs) (.map u w new) = .map kt vt r ∧ r.map (·.1) = kvs.map (·.1) ∧
      ∀ k a, (k, a) ∈ kvs →
        ((∀ q ∈ new, ∀ k', fromReflect E kt q.1 = some k' → E.kcmp kt k' k ≠ .eq) →
          (k, a) ∈ r) ∧
        (∀ l₁ l₂ kq b k', new = l₁ ++ (kq, b) :: l₂ → fromReflect E kt kq = some k' →
          E.kcmp kt k' k = .eq →
          (∀ q ∈ l₁ ++ l₂, ∀ k', fromReflect E kt q.1 = some k' → E.kcmp kt k' k ≠ .eq) →
          (k, patch E a b) ∈ r) := by
  refine ⟨_, C12_patch_map hO hx hv, by simp [Function.comp_def], ?_⟩
  have none_of : ∀ (l : List (Obj × Obj)) k,
      (∀ q ∈ l, ∀ k', fromReflect E kt q.1 = some k' → E.kcmp kt k' k ≠ .eq) →
      (l.filter fun q => (fromReflect E kt q.1).any fun k' => E.kcmp kt k' k = .eq) = [] := by
    intro l k h
    rw [List.filter_eq_nil_iff]
    intro q hq hc
    cases hf : fromReflect E kt q.1 with
    | none => simp [hf] at hc
    | some k' => simp [hf] at hc; exact h q hq k' hf hc
  intro k a ha
  refine ⟨fun h => ?_, fun l₁ l₂ kq b k' hn hk' he h => ?_⟩
  · refine List.mem_map.mpr ⟨(k, a), ha, ?_⟩
    simp [none_of new k h]
  · refine List.mem_map.mpr ⟨(k, a), ha, ?_⟩
    subst hn
    rw [List.filter_append, List.filter_cons,
      none_of l₁ k fun q hq => h q (by simp [hq]), none_of l₂ k fun q hq => h q (by simp [hq])]
    simp [hk', he]

/-- Non-vacuity of C12: a map patched with an overlapping map; `b` is changed, `c` is not added. -/
example : patch demoEnv
    (.map (.scalar .string) (.scalar (.int .u8))
      [(.scalar (.string "a"), .scalar (.int .u8 1)), (.scalar (.string "b"), .scalar (.int .u8 2))])
    (.map .value .value
      [(.scalar (.string "b"), .scalar (.int .u8 9)), (.scalar (.string "c"), .scalar (.int .u8 3))]) =
    .map (.scalar .string) (.scalar (.int .u8))
      [(.scalar (.string "a"), .scalar (.int .u8 1)), (.scalar (.string "b"), .scalar (.int .u8 9))] := by
  simp [patch_map, patchEntry, fromReflect_scalar, Obj.isTy, Obj.typeOf, Scalar.kind, bmModify,
    demoEnv, valueOrdEnv, Obj.toValue, Value.cmp, Scalar.cmp, strCmp, patch_scalar, natListCmp]

/-! ## C13 -/

theorem patchO_vis {E : Env} (hO : OrdLaws E) {a : Obj} {o : Option Obj} (ha : a.isHidden = true ∨ a.OK E)
    (ho : ∀ w, o = some w → w.OK E) : (patchO E a o).isHidden = a.isHidden := by
  rcases ha with h | h
  · rw [patchO_of_hidden E h]
  · cases o with
    | none => rfl
    | some w =>
      obtain ⟨t, h⟩ := h
      rw [h.not_hidden]
      exact (patch_hasTy hO w (ho w rfl) h).not_hidden

theorem visFields_patchNamed {E : Env} {v : Obj} {fs : List (String × Obj)}
    (h : ∀ p ∈ fs, (patchO E p.2 (v.field p.1)).isHidden = p.2.isHidden) :
    visFields (patchNamed E v fs) = patchNamed E v (visFields fs) := by
  induction fs with
  | nil => rfl
  | cons p fs ih =>
    have h1 := h p (by simp)
    have ih := ih fun q hq => h q (by simp [hq])
    simp only [patchNamed, visFields, List.map_cons, List.filter_cons, h1] at ih ⊢
    split <;> simp_all

theorem lookup_patchNamed (E : Env) (v : Obj) (fs : List (String × Obj)) (n : String) :
    lookup n (patchNamed E v fs) = (lookup n fs).map fun a => patchO E a (v.field n) := by
  induction fs with
  | nil => rfl
  | cons p fs ih =>
    obtain ⟨m, a⟩ := p
    simp only [patchNamed, List.map_cons, lookup] at ih ⊢
    split
    · next h => simp_all
    · exact ih

theorem field_vis_or_ok {E : Env} {x : Obj} (hx : x.OK E) :
    (∀ tag fs, x = .struct tag fs → ∀ p ∈ fs, p.2.isHidden = true ∨ p.2.OK E) ∧
    (∀ tag fs, x = .tupleStruct tag fs → ∀ p ∈ fs, p.isHidden = true ∨ p.OK E) ∧
    (∀ tag fs, x = .tuple tag fs → ∀ p ∈ fs, p.isHidden = true ∨ p.OK E) := by
  refine ⟨?_, ?_, ?_⟩
  · rintro tag fs rfl p hp
    cases hh : p.2.isHidden with
    | true => exact .inl rfl
    | false => exact .inr (hx.parts (List.mem_map_of_mem (List.mem_filter.mpr ⟨hp, by simp [hh]⟩)))
  · rintro tag fs rfl p hp
    cases hh : p.isHidden with
    | true => exact .inl rfl
    | false => exact .inr (hx.parts (List.mem_filter.mpr ⟨hp, by simp [hh]⟩))
  · rintro tag fs rfl p hp
    cases hh : p.isHidden with
    | true => exact .inl rfl
    | false => exact .inr (hx.parts (List.mem_filter.mpr ⟨hp, by simp [hh]⟩))

/-- C13: patching a struct with a struct changes a field exactly when the patch has a field of that
name, by patching it with that field; no field appears, disappears, is renamed or moved; skipped
fields keep their content. -/
theorem C13_patch_struct_frame {E : Env} (hO : OrdLaws E) {S T : Ty} {tag : STag}
    {fs : List (String × Obj)} {v : Obj} (hx : HasTy E T (.struct tag fs)) (hv : HasTy E S v)
    (hk : v.kind = .struct) :
    ∃ gs, patch E (.struct tag fs) v = .struct tag gs ∧ gs.map (·.1) = fs.map (·.1) ∧
      (∀ n, (Obj.struct tag gs).field n = match (Obj.struct tag fs).field n, v.field n with
        | some a, some w => some (patch E a w)
        | r, none => r
        | none, _ => none) ∧
      (∀ (i : Nat) n d, fs[i]? = some (n, .hidden d) → gs[i]? = some (n, .hidden d)) := by
  refine ⟨patchNamed E v fs, by rw [patch_struct, if_pos hk], by simp [patchNamed, Function.comp_def],
    fun n => ?_, fun i n d h => by simp [patchNamed, h, patchO_hidden]⟩
  rw [Obj.field, visFields_patchNamed, lookup_patchNamed]
  · rw [Obj.field]
    cases lookup n (visFields fs) <;> cases v.field n <;> rfl
  · intro p hp
    exact patchO_vis hO ((field_vis_or_ok ⟨T, hx⟩).1 _ _ rfl p hp) fun w hw => OK_field ⟨S, hv⟩ hw

/-- C13 for tuple structs and tuples: position by position. -/
theorem C13_patch_positional_frame (E : Env) {v : Obj} {fs : List Obj} :
    (∀ tag, v.kind = .tupleStruct →
      ∃ gs, patch E (.tupleStruct tag fs) v = .tupleStruct tag gs ∧ Patched E fs v.fieldAt gs) ∧
    (∀ tag, v.kind = .tuple →
      ∃ gs, patch E (.tuple tag fs) v = .tuple tag gs ∧ Patched E fs v.fieldAt gs) :=
  ⟨fun tag hk => ⟨_, by rw [patch_tupleStruct, if_pos hk], patchPos_patched E v fs⟩,
   fun tag hk => ⟨_, by rw [patch_tuple, if_pos hk], patchPos_patched E v fs⟩⟩

/-- C13: skipped positions keep their content. -/
theorem C13_skipped_positions_kept (E : Env) {v : Obj} {fs gs : List Obj} {tag tag' : TSTag}
    (h : patch E (.tupleStruct tag fs) v = .tupleStruct tag' gs) (i : Nat) (d : Nat)
    (hi : fs[i]? = some (.hidden d)) : gs[i]? = some (.hidden d) := by
  rw [patch_tupleStruct] at h
  split at h <;> cases h
  · simp [patchPos, hi, patchO_hidden]
  · exact hi

/-- C13 for enums (partial): a patch of the same variant that cannot be converted to the enum's type
changes only the fields it carries, by name; a patch of another variant that cannot be converted
changes nothing. Missing: a patch that can be converted replaces the whole value, which resets
skipped fields (`C10_enum_forgets_skipped`). -/
theorem C13_patch_enum_frame_partial {E : Env} {n : String} {x v : Obj}
    (hk : x.kind = .enum) (ht : x.typeOf = some (.named n)) (hc : fromReflect E (.named n) v = none)
    (hn : v.typeOf ≠ some (.named n)) :
    (v.variantName ≠ x.variantName → patch E x v = x) ∧
    (∀ tag vn fs, x = .enumS tag vn fs → v.variantName = some vn →
      ∃ gs, patch E x v = .enumS tag vn gs ∧ gs.map (·.1) = fs.map (·.1) ∧
        ∀ (i : Nat) m a, fs[i]? = some (m, a) →
          (∀ w, v.field m = some w → gs[i]? = some (m, patch E a w)) ∧
          (v.field m = none → gs[i]? = some (m, a))) ∧
    (∀ tag vn fs, x = .enumT tag vn fs → v.variantName = some vn →
      ∃ gs, patch E x v = .enumT tag vn gs ∧ Patched E fs v.fieldAt gs) := by
  have hi : v.isTy (.named n) = false := by simpa [Obj.isTy] using hn
  have base := patch_enum_derived E hk ht v
  rw [hi, Bool.false_and, if_neg (by simp), hc] at base
  refine ⟨fun h => ?_, ?_, ?_⟩
  · rw [base]; simp [h]
  · rintro tag vn fs rfl hvn
    have hvk : v.kind = .enum := by cases v <;> simp [Obj.variantName] at hvn <;> rfl
    rw [if_pos hvk] at base
    refine ⟨patchNamed E v fs, by rw [base]; exact if_pos hvn,
      by simp [patchNamed, Function.comp_def],
      fun i m a ha => ⟨fun w hw => ?_, fun hw => ?_⟩⟩ <;> simp [patchNamed, ha, hw, patchO]
  · rintro tag vn fs rfl hvn
    have hvk : v.kind = .enum := by cases v <;> simp [Obj.variantName] at hvn <;> rfl
    rw [if_pos hvk] at base
    exact ⟨patchPos E v fs, by rw [base]; exact if_pos hvn,
      patchPos_patched E v fs⟩

/-- Non-vacuity of C13: `Secret { a: 7, .. }` patched with a struct that has `a` and an unknown name. -/
example : patch demoEnv demoSecret (.struct (.dyn ["a", "zzz"])
      [("a", .scalar (.int .u8 9)), ("zzz", .scalar (.bool true))]) =
    .struct (.derived "Secret") [("a", .scalar (.int .u8 9)), ("hidden", .hidden 3),
      ("b", .vec (.scalar (.int .u8)) [.scalar (.int .u8 1), .scalar (.int .u8 2)])] := by
  simp [demoSecret, patch_struct, Obj.kind, patchNamed, Obj.field, visFields, Obj.isHidden, lookup,
    patchO, patch_scalar, Obj.isTy, Obj.typeOf, Scalar.kind]

/-- Non-vacuity of the enum case: `Sec::S { a: 1, h: 5 }` patched with an `EnumValue` `S {}`. -/
example : patch patchEnv (secS 1 5) (.enumS (.dyn []) "S" []) = secS 1 5 ∧
    fromReflect patchEnv (.named "Sec") (.enumS (.dyn []) "S" []) = none := by
  have hd : patchEnv.decl "Sec" = some ⟨.enum [.struct "S" [⟨"a", .scalar (.int .u8), false⟩,
    ⟨"h", .scalar .bool, true⟩], .unit "U"], false⟩ := rfl
  have h1 : fromReflect patchEnv (.named "Sec") (.enumS (.dyn []) "S" []) = none := by
    rw [fromReflect_enum hd]
    simp [Obj.variantName, VariantDef.name, convNamed, Obj.field, visFields, lookup, optAll]
  refine ⟨?_, h1⟩
  rw [patch_enum_derived (n := "Sec") patchEnv rfl rfl, h1]
  simp [Obj.isTy, Obj.typeOf, Obj.kind, Obj.variantName, secS, patchFields, patchNamed, Obj.field,
    visFields, lookup, patchO]

end Mirror
