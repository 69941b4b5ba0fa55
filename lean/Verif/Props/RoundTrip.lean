import Verif.Lemmas.SelfConvExact
import Verif.Lemmas.RoundTripExact
import Verif.Lemmas.Demo

set_option linter.unusedSimpArgs false

/-!
# C01-C06: conversions between typed values and `Value`

`x.to_value()` is `x.toValue`, seen through reflection as `x.toValue.toObj`;
`T::from_reflect(&y)` is `fromReflect E T y`.
-/

namespace Mirror

/-! ## C01 -/

/-- C01: for types without skipped fields, `T::from_reflect(&x.to_value())` is `Some(x)`.
`KeysShown` restricts the user's `Ord` of map keys: it must not separate keys whose `Value`s are
equal (see `C01_fine_key_order_loses_entries`). -/
theorem C01_roundtrip {E : Env} (hD : DeclsOK E) (hO : OrdLaws E) (hK : KeysShown E)
    (hN : NoSkips E) {T : Ty} {x : Obj} (h : HasTy E T x) :
    fromReflect E T x.toValue.toObj = some x := by
  have hS : SkipsLast E := by
    constructor
    · intro n fds c hd i j fd fd' hi _ hs _
      simp [hN.2.1 n fds c hd fd (List.mem_of_getElem? hi)] at hs
    · intro n vds c vn fds hd hv i j fd fd' hi _ hs _
      simp [hN.2.2 n vds c vn fds hd (.inr hv) fd (List.mem_of_getElem? hi)] at hs
  rw [roundtrip hD hO hK hS h, h.reset_eq hN]

/-- An environment in which nothing is skipped: a recursive struct with a map and a vector, and an
enum behind a box. -/
def plainEnv : Env := valueOrdEnv fun n =>
  if n = "Tree" then
    some ⟨.struct [⟨"kids", .map (.scalar .string) (.named "Tree"), false⟩,
      ⟨"tag", .box (.named "E"), false⟩], false⟩
  else if n = "E" then
    some ⟨.enum [.tuple "A" [⟨"", .array (.scalar .bool) 1, false⟩], .unit "B"], false⟩
  else none

/-- Non-vacuity of C01: the hypotheses hold of `plainEnv` and of a nested value with an array, a map
and an enum. -/
example : DeclsOK plainEnv ∧ OrdLaws plainEnv ∧ KeysShown plainEnv ∧ NoSkips plainEnv ∧
    HasTy plainEnv (.named "Tree") (.struct (.derived "Tree")
      [("kids", .map (.scalar .string) (.named "Tree") [(.scalar (.string "k"),
          .struct (.derived "Tree") [("kids", .map (.scalar .string) (.named "Tree") []),
            ("tag", .enumU (.derived "E") "B")])]),
       ("tag", .enumT (.derived "E") "A" [.array (.scalar .bool) [.scalar (.bool true)]])]) := by
  refine ⟨⟨?_, ?_, ?_⟩, valueOrdEnv_ordLaws _, valueOrdEnv_keysShown _, ⟨?_, ?_, ?_⟩, ?_⟩
  · intro n fds c h
    simp only [plainEnv, valueOrdEnv] at h
    split at h
    · simp at h; obtain ⟨rfl, _⟩ := h; decide
    · split at h <;> simp at h
  · intro n vds c h
    simp only [plainEnv, valueOrdEnv] at h
    split at h
    · simp at h
    · split at h <;> simp at h
      obtain ⟨rfl, _⟩ := h; decide
  · intro n vds c vn fds h hv
    simp only [plainEnv, valueOrdEnv] at h
    split at h
    · simp at h
    · split at h <;> simp at h
      obtain ⟨rfl, _⟩ := h; simp at hv
  · intro n fds c h
    simp only [plainEnv, valueOrdEnv] at h
    split at h
    · simp at h; obtain ⟨rfl, _⟩ := h; simp
    · split at h <;> simp at h
  · intro n fds c h
    simp only [plainEnv, valueOrdEnv] at h
    split at h
    · simp at h
    · split at h <;> simp at h
  · intro n vds c vn fds h hv
    simp only [plainEnv, valueOrdEnv] at h
    split at h
    · simp at h
    · split at h <;> simp at h
      obtain ⟨rfl, _⟩ := h; simp at hv; obtain ⟨_, rfl⟩ := hv; simp
  · have tree : ∀ m e, HasTy plainEnv (.map (.scalar .string) (.named "Tree")) m →
        HasTy plainEnv (.named "E") e →
        HasTy plainEnv (.named "Tree") (.struct (.derived "Tree") [("kids", m), ("tag", e)]) := by
      intro m e hm he
      refine .struct "Tree" _ false _ rfl rfl ?_ ?_
      · intro i fd p hfd hp hs
        match i with
        | 0 => simp at hfd; subst hfd; simp at hs
        | 1 => simp at hfd; subst hfd; simp at hs
        | i + 2 => simp at hfd
      · intro i fd p hfd hp hs
        match i with
        | 0 => simp at hfd hp; subst hfd hp; exact hm
        | 1 => simp at hfd hp; subst hfd hp; exact .box _ _ he
        | i + 2 => simp at hfd
    refine tree _ _ (.map _ _ _ (by simp [BMSorted]) ?_ ?_) ?_
    · intro p hp; simp at hp; subst hp; exact .scalar' rfl
    · intro p hp; simp at hp; subst hp
      exact tree _ _ (.map _ _ _ (by simp [BMSorted]) (by simp) (by simp))
        (.enumU "E" _ false "B" rfl (List.mem_cons_of_mem _ List.mem_cons_self))
    · refine .enumT "E" _ false "A" _ _ rfl List.mem_cons_self rfl ?_ ?_
      · intro i fd p hfd hp hs
        match i with
        | 0 => simp at hfd; subst hfd; simp at hs
        | i + 1 => simp at hfd
      · intro i fd p hfd hp hs
        match i with
        | 0 =>
          simp at hfd hp; subst hfd hp
          exact .array _ [.scalar (.bool true)] (by
            intro x hx; simp at hx; subst hx; exact .scalar' rfl)
        | i + 1 => simp at hfd

/-- The bit pattern inside a one-field tuple struct holding an `f32`. -/
def bitsOf : Obj → Nat
  | .tupleStruct _ [.scalar (.f32 b)] => b.toNat
  | _ => 0

/-- `struct K(f32)` whose user-written `Ord` compares bit patterns (as `f32::total_cmp` does on
non-negative zeros and positives): lawful, but finer than the order of `Value`. -/
def fineEnv : Env :=
  ⟨fun n => if n = "K" then some ⟨.tupleStruct [⟨"", .scalar .f32, false⟩], false⟩ else none,
   fun t a b =>
    if t = .named "K" then compare (bitsOf a) (bitsOf b) else Value.cmp a.toValue b.toValue⟩

theorem fineEnv_ordLaws : OrdLaws fineEnv where
  refl t a _ := by
    simp only [fineEnv]; split
    · simp
    · exact Value.cmp_self _
  swap t a b _ _ := by
    simp only [fineEnv]; split
    · exact Nat.compare_swap _ _ |>.symm
    · exact Value.cmp_swap _ _
  lt_trans t a b c _ _ _ := by
    simp only [fineEnv]; split
    · simp only [Nat.compare_eq_lt]; omega
    · exact Value.cmp_lt_trans
  eq_trans t a b c _ _ _ := by
    simp only [fineEnv]; split
    · simp only [Nat.compare_eq_eq]; intro h; rw [h]
    · exact fun h => valueCmpOn.eq_trans _ _ _ trivial trivial trivial h
  value a b ha hb := by
    simp [fineEnv, Value.toObj_toValue ha, Value.toObj_toValue hb]

/-- Why C01 needs `KeysShown`: with a lawful but finer `Ord` on keys, the map
`{K(0.0): true, K(-0.0): false}` loses an entry on the way through `Value`. -/
theorem C01_fine_key_order_loses_entries :
    ∃ (T : Ty) (x y : Obj), HasTy fineEnv T x ∧ fromReflect fineEnv T x.toValue.toObj = some y ∧
      x.fieldsLen = 2 ∧ y.fieldsLen = 1 := by
  have key : ∀ b, HasTy fineEnv (.named "K") (.tupleStruct (.derived "K") [.scalar (.f32 b)]) := by
    intro b
    refine .tupleStruct "K" _ false _ rfl rfl ?_ ?_
    · intro i fd p hfd hp hs
      match i with
      | 0 => simp at hfd; subst hfd; simp at hs
      | i + 1 => simp at hfd
    · intro i fd p hfd hp hs
      match i with
      | 0 => simp at hfd hp; subst hfd hp; exact .scalar' rfl
      | i + 1 => simp at hfd
  refine ⟨.map (.named "K") (.scalar .bool), .map (.named "K") (.scalar .bool)
    [(.tupleStruct (.derived "K") [.scalar (.f32 0#32)], .scalar (.bool true)),
     (.tupleStruct (.derived "K") [.scalar (.f32 0x80000000#32)], .scalar (.bool false))],
    .map (.named "K") (.scalar .bool)
    [(.tupleStruct (.derived "K") [.scalar (.f32 0x80000000#32)], .scalar (.bool false))], ?_, ?_, rfl, rfl⟩
  · refine .map _ _ _ ?_ ?_ ?_
    · simp [BMSorted, fineEnv, bitsOf]; decide
    · intro p hp; simp at hp; rcases hp with rfl | rfl <;> exact key _
    · intro p hp; simp at hp; rcases hp with rfl | rfl <;> exact .scalar' rfl
  · have hd : fineEnv.decl "K" = some ⟨.tupleStruct [⟨"", .scalar .f32, false⟩], false⟩ := rfl
    have : Value.cmp (.tupleStruct [.scalar (.f32 0x80000000#32)]) (.tupleStruct [.scalar (.f32 0#32)])
        = .eq := by
      simp [Value.cmp, Value.cmpList]; decide
    simp [Obj.toValue, bmOfList, bmInsert, bmCollect, bmPut, this, Value.toObj, Obj.isHidden, fromReflect_map,
      fromReflect_tupleStruct hd, Obj.kind, convPos, convField, Obj.fieldAt, visAt, optAll,
      Obj.isTy, Obj.typeOf, Scalar.kind, fromReflect_scalar]

/-! ## C02 -/

/-- C02 (partial): `T::from_reflect(&x.to_value())` is `Some` of `x` with every skipped field
replaced by its default and everything else intact. Skipped fields may be anywhere in structs and
struct variants; in tuple structs and tuple variants they must come last (`SkipsLast`). Missing: the
other positions, for which the property is false (`C02_misplaced_skip_fails`). -/
theorem C02_roundtrip_resets_skipped_partial {E : Env} (hD : DeclsOK E) (hO : OrdLaws E)
    (hK : KeysShown E) (hS : SkipsLast E) {T : Ty} {x : Obj} (h : HasTy E T x) :
    fromReflect E T x.toValue.toObj = some x.reset :=
  roundtrip hD hO hK hS h

/-- Non-vacuity of C02: a struct with a skipped field in the middle, whose payload is not the default. -/
example : HasTy demoEnv (.named "Secret") demoSecret ∧ demoSecret.reset ≠ demoSecret ∧
    fromReflect demoEnv (.named "Secret") demoSecret.toValue.toObj = some demoSecret.reset :=
  ⟨demoSecret_hasTy, by simp [demoSecret, Obj.reset],
    C02_roundtrip_resets_skipped_partial demo_declsOK demo_ordLaws demo_keysShown demo_skipsLast
      demoSecret_hasTy⟩

/-- C02, exactly: `T::from_reflect(&x.to_value())` is `Some` of `x` with its skipped fields reset if no tuple
struct or tuple variant anywhere in `x` has a skipped field before a reflected one, and `None` otherwise. -/
theorem C02_roundtrip_exactly {E : Env} (hD : DeclsOK E) (hO : OrdLaws E) (hK : KeysShown E) {T : Ty}
    {x : Obj} (h : HasTy E T x) :
    (x.NoGaps → fromReflect E T x.toValue.toObj = some x.reset) ∧
    (¬ x.NoGaps → fromReflect E T x.toValue.toObj = none) := by
  refine ⟨roundtrip_noGaps hD hO hK h, fun hn => ?_⟩
  cases hf : fromReflect E T x.toValue.toObj with
  | none => rfl
  | some y => exact absurd (noGaps_of_roundtrip hD hO hK h (by simp [hf])) hn

/-- C02 fails for misplaced skips: if a tuple struct has a skipped field before a reflected one,
then no value of it survives the round trip; `from_reflect` is always `None`. -/
theorem C02_misplaced_skip_fails {E : Env} {n : String} {fds : List FieldDef} {c : Bool} {i j : Nat}
    {fi fj : FieldDef} (hd : E.decl n = some ⟨.tupleStruct fds, c⟩)
    (hi : fds[i]? = some fi) (hj : fds[j]? = some fj) (hsi : fi.skip = true) (hsj : fj.skip = false)
    (hij : i < j) {x : Obj} (h : HasTy E (.named n) x) :
    fromReflect E (.named n) x.toValue.toObj = none := by
  cases h with
  | tupleStruct _ fds' c' fs hd' h2 h3 h4 =>
    rw [hd] at hd'; cases hd'
    rw [fromReflect_tupleStruct hd, toValue_tupleStruct, Value.toObj,
      conv_pos_none hi hj hsi hsj hij h2 h3]
    · simp [Obj.kind]
    · intro i
      simp only [Obj.fieldAt, toObj_visAt, List.getElem?_map, Option.map_map]; rfl
  | struct _ _ _ _ hd' => rw [hd] at hd'; cases hd'
  | enumS _ _ _ _ _ _ hd' => rw [hd] at hd'; cases hd'
  | enumT _ _ _ _ _ _ hd' => rw [hd] at hd'; cases hd'
  | enumU _ _ _ _ hd' => rw [hd] at hd'; cases hd'

/-- The same for tuple variants of enums. -/
theorem C02_misplaced_skip_in_variant_fails {E : Env} (hD : DeclsOK E) {n vn : String}
    {vds : List VariantDef} {fds : List FieldDef} {c : Bool} {i j : Nat} {fi fj : FieldDef}
    (hd : E.decl n = some ⟨.enum vds, c⟩) (hv : VariantDef.tuple vn fds ∈ vds)
    (hi : fds[i]? = some fi) (hj : fds[j]? = some fj) (hsi : fi.skip = true) (hsj : fj.skip = false)
    (hij : i < j) {fs : List Obj} (h : HasTy E (.named n) (.enumT (.derived n) vn fs)) :
    fromReflect E (.named n) (Obj.enumT (.derived n) vn fs).toValue.toObj = none := by
  cases h with
  | enumT _ vds' c' _ fds' _ hd' hv' h2 h3 h4 =>
    rw [hd] at hd'; cases hd'
    have hf : vds.find? (fun d => d.name = vn) = some _ :=
      find_variant (hD.variant_names n vds c hd) hv
    have hf' : vds.find? (fun d => d.name = vn) = some _ :=
      find_variant (hD.variant_names n vds c hd) hv'
    rw [hf] at hf'; cases hf'
    rw [fromReflect_enum hd, toValue_enumT, Value.toObj]
    simp only [Obj.variantName, Option.bind_some, hf]
    rw [conv_pos_none hi hj hsi hsj hij h2 h3]
    · rfl
    · intro i
      simp only [Obj.fieldAt, toObj_visAt, List.getElem?_map, Option.map_map]; rfl

/-- `struct Bad(#[reflect(skip)] _, u8)`, with and without `opt_out(Clone)`. -/
def badEnv (c : Bool) : Env := valueOrdEnv fun n =>
  if n = "Bad" then
    some ⟨.tupleStruct [⟨"", .scalar .bool, true⟩, ⟨"", .scalar (.int .u8), false⟩], c⟩
  else none

theorem bad_hasTy (c : Bool) (d : Nat) (k : Int) : HasTy (badEnv c) (.named "Bad")
    (.tupleStruct (.derived "Bad") [.hidden d, .scalar (.int .u8 k)]) := by
  refine .tupleStruct "Bad" _ c _ rfl rfl ?_ ?_
  · intro i fd p hfd hp hs
    match i with
    | 0 => simp at hp; subst hp; rfl
    | 1 => simp at hfd; subst hfd; simp at hs
    | i + 2 => simp at hfd
  · intro i fd p hfd hp hs
    match i with
    | 0 => simp at hfd; subst hfd; simp at hs
    | 1 => simp at hfd hp; subst hfd hp; exact .scalar' rfl
    | i + 2 => simp at hfd

/-- Non-vacuity of `C02_misplaced_skip_fails`: `Bad(_, 7)`. -/
example : fromReflect (badEnv false) (.named "Bad")
    (Obj.tupleStruct (.derived "Bad") [.hidden 1, .scalar (.int .u8 7)]).toValue.toObj = none :=
  C02_misplaced_skip_fails (fi := ⟨"", .scalar .bool, true⟩) (fj := ⟨"", .scalar (.int .u8), false⟩)
    (i := 0) (j := 1) rfl rfl rfl rfl rfl (by omega) (bad_hasTy false 1 7)

/-- `Bad(_, 7)` inside a vector: a gap, and nothing comes back. -/
example : ¬ (Obj.vec (.named "Bad") [.tupleStruct (.derived "Bad") [.hidden 1, .scalar (.int .u8 7)]]).NoGaps ∧
    fromReflect (badEnv false) (.vec (.named "Bad"))
      (Obj.vec (.named "Bad") [.tupleStruct (.derived "Bad") [.hidden 1, .scalar (.int .u8 7)]]).toValue.toObj =
        none := by
  have hn : ¬ (Obj.vec (.named "Bad")
      [.tupleStruct (.derived "Bad") [.hidden 1, .scalar (.int .u8 7)]]).NoGaps := by
    intro h
    have := (h.parts (x := .tupleStruct (.derived "Bad") [.hidden 1, .scalar (.int .u8 7)])
      (by simp [Obj.parts])).here.1 _ _ rfl 0 1 _ _ rfl rfl rfl rfl
    omega
  refine ⟨hn, (C02_roundtrip_exactly ⟨?_, ?_, ?_⟩ (valueOrdEnv_ordLaws _) (valueOrdEnv_keysShown _)
    (.vec _ _ ?_)).2 hn⟩
  · intro n fds c h
    simp only [badEnv, valueOrdEnv] at h
    split at h <;> simp at h
  · intro n vds c h
    simp only [badEnv, valueOrdEnv] at h
    split at h <;> simp at h
  · intro n vds c vn fds h
    simp only [badEnv, valueOrdEnv] at h
    split at h <;> simp at h
  · intro x hx
    simp at hx; subst hx
    exact bad_hasTy false 1 7

/-! ## C03 -/

/-- C03: reflecting a `Value` and asking for its value gives it back; converting any reflected
object to `Value` succeeds and is its `to_value`; so a `Value` converts to itself. -/
theorem C03_value_is_its_own_view (E : Env) (v : Value) (h : v.WF) (x : Obj) :
    v.toObj.toValue = v ∧ fromReflect E .value x = some x.toValue.toObj ∧
      fromReflect E .value v.toObj = some v.toObj :=
  ⟨Value.toObj_toValue h, fromReflect_value E x, by rw [fromReflect_value, Value.toObj_toValue h]⟩

/-- Non-vacuity of C03: a value with a map, a struct with a duplicated name, and an enum. -/
example : (Value.map [(.enumU "A", .struct ["x", "y", "x"]
    [("x", .scalar (.bool true)), ("y", .list [.tuple []])])]).WF := by
  refine .map _ (by simp [BMSorted]) ?_ ?_
  · intro p hp; simp at hp; subst hp; exact .enumU _
  · intro p hp; simp at hp; subst hp
    refine .struct _ _ ?_ ?_ ?_
    · intro n; simp; constructor
      · rintro (h | h | h) <;> simp [h]
      · rintro (h | h) <;> simp [h]
    · simp [BMSorted]; decide
    · intro p hp; simp at hp
      rcases hp with rfl | rfl
      · exact .scalar _
      · exact .list _ (by intro x hx; simp at hx; subst hx; exact .tuple _ (by simp))

/-- C03: the `to_value` of every proper value is a proper `Value`. -/
theorem C03_to_value_wf {E : Env} {T : Ty} {x : Obj} (h : HasTy E T x) : x.toValue.WF :=
  h.toValue_wf

/-! ## C04 -/

/-- C04 (partial): `T::from_reflect(&x)` is `Some(x)` when `x` has type `T`, for values without
fixed-size arrays inside and types without skipped fields. Missing: arrays, for which it is false
(`C04_array_never_converts_from_itself`). -/
theorem C04_converts_to_own_type_partial {E : Env} (hD : DeclsOK E) (hO : OrdLaws E)
    (hK : KeysShown E) (hN : NoSkips E) {T : Ty} {x : Obj} (h : HasTy E T x) (ha : x.ArrayFree) :
    fromReflect E T x = some x := by
  obtain ⟨y, hy, he⟩ := selfconv hD hO hK h ha
  have hty := fromReflect_sound hO T x ⟨T, h⟩ hy
  rw [hty.reset_eq hN, h.reset_eq hN] at he
  rw [hy, he]

/-- C04 (partial) with skipped fields anywhere: the conversion succeeds and the result shows the same
content (it agrees with `x` after resetting skipped fields). -/
theorem C04_converts_to_own_type_skips_partial {E : Env} (hD : DeclsOK E) (hO : OrdLaws E)
    (hK : KeysShown E) {T : Ty} {x : Obj} (h : HasTy E T x) (ha : x.ArrayFree) :
    ∃ y, fromReflect E T x = some y ∧ HasTy E T y ∧ y.reset = x.reset := by
  obtain ⟨y, hy, he⟩ := selfconv hD hO hK h ha
  exact ⟨y, hy, fromReflect_sound hO T x ⟨T, h⟩ hy, he⟩

/-- Non-vacuity of C04: a recursive struct with a map and `NonZero` fields. -/
example : HasTy demoEnv (.named "Tree") demoTree ∧ demoTree.ArrayFree := by
  refine ⟨demoTree_hasTy, ?_⟩
  refine .struct _ _ ?_
  intro p hp; simp at hp
  rcases hp with rfl | rfl | rfl
  · exact .nonzero _ _
  · refine .vec _ _ ?_
    intro x hx; simp at hx; subst hx
    refine .struct _ _ ?_
    intro p hp; simp at hp
    rcases hp with rfl | rfl | rfl
    · exact .nonzero _ _
    · exact .vec _ _ (by simp)
    · exact .map _ _ _ (by simp) (by simp)
  · refine .map _ _ _ ?_ ?_
    · intro p hp; simp at hp; rcases hp with rfl | rfl <;> exact .scalar _
    · intro p hp; simp at hp; rcases hp with rfl | rfl <;> exact .scalar _

/-- C04 is false for arrays: `<[T; N]>::from_reflect(&x)` is `None` for every array `x`. -/
theorem C04_array_never_converts_from_itself (E : Env) (t u : Ty) (n : Nat) (xs : List Obj) :
    fromReflect E (.array t n) (.array u xs) = none := by
  rw [fromReflect]
  intros; simp_all

/-- C04, exactly: `T::from_reflect(&x)` succeeds if and only if the conversion meets no fixed-size
array (`NoArrayMet`), and then the result shows the same content as `x`; without skipped fields it is
`x`. -/
theorem C04_converts_exactly {E : Env} (hD : DeclsOK E) (hO : OrdLaws E) (hK : KeysShown E) {T : Ty}
    {x : Obj} (h : HasTy E T x) :
    (NoArrayMet E T x → ∃ y, fromReflect E T x = some y ∧ HasTy E T y ∧ y.reset = x.reset ∧
      (NoSkips E → y = x)) ∧
    (¬ NoArrayMet E T x → fromReflect E T x = none) := by
  constructor
  · intro hm
    obtain ⟨y, hy⟩ := Option.isSome_iff_exists.mp ((selfconv_isSome_iff hD h).mpr hm)
    have hty := fromReflect_sound hO T x ⟨T, h⟩ hy
    have he := selfconv_sound hD hO hK h hy
    exact ⟨y, hy, hty, he, fun hN => by rwa [hty.reset_eq hN, h.reset_eq hN] at he⟩
  · intro hm
    cases hf : fromReflect E T x with
    | none => rfl
    | some y => exact absurd ((selfconv_isSome_iff hD h).mp (by simp [hf])) hm

/-- An array in a field of its declared type is cloned, not met; on its own it is met. -/
example (E : Env) (x : Obj) (hd : E.decl "A" = some ⟨.struct [⟨"a", .array (.scalar .bool) 1, false⟩], false⟩) :
    NoArrayMet E (.named "A") (.struct (.derived "A") [("a", .array (.scalar .bool) [x])]) ∧
    ¬ NoArrayMet E (.array (.scalar .bool) 1) (.array (.scalar .bool) [x]) := by
  refine ⟨.struct "A" _ false _ hd ?_, fun h => by cases h⟩
  intro i fd p hfd hp _ hn
  match i with
  | 0 => simp at hfd hp; subst hfd hp; exact absurd ⟨rfl, rfl⟩ hn
  | i + 1 => simp at hfd

/-! ## C05 -/

/-- C05: whatever `T::from_reflect` returns is a proper value of `T`: declared fields of declared
types, exact array lengths, strictly ordered map keys, non-zero `NonZero` integers. The source may
be a proper value of any type. -/
theorem C05_from_reflect_sound {E : Env} (hO : OrdLaws E) {S T : Ty} {v y : Obj}
    (hv : HasTy E S v) (h : fromReflect E T v = some y) : HasTy E T y :=
  fromReflect_sound hO T v ⟨S, hv⟩ h

/-- Non-vacuity of C05: a conversion between different types that succeeds, from the dynamic value
of a `Tree` to `Tree`. -/
example : ∃ y, fromReflect demoEnv (.named "Tree") demoTree.toValue.toObj = some y ∧
    HasTy demoEnv .value demoTree.toValue.toObj :=
  ⟨_, C02_roundtrip_resets_skipped_partial demo_declsOK demo_ordLaws demo_keysShown demo_skipsLast
    demoTree_hasTy, .value _ _ demoTree_hasTy.toValue_wf rfl⟩

/-! ## C06 -/

theorem typeOf_hasTy_roundtrip {E : Env} (hD : DeclsOK E) (hO : OrdLaws E) (hK : KeysShown E)
    (hS : SkipsLast E) {T u : Ty} {x : Obj} (h : HasTy E T x) (hu : x.typeOf = some u) :
    fromReflect E u x.toValue.toObj = some x.reset := by
  obtain ⟨w, hw, h⟩ := h.typeOf hO
  rw [hu] at hw; cases hw
  exact roundtrip hD hO hK hS h

/-- C06 (partial): `clone_reflect` does not panic and yields a value of the same type with the same
content, up to skipped fields (which are either cloned or reset, depending on the type). Missing:
`opt_out(Clone)` tuple structs and variants with a skipped field before a reflected one, for which
it always panics (`C06_clone_panics`). -/
theorem C06_clone_reflect_partial {E : Env} (hD : DeclsOK E) (hO : OrdLaws E) (hK : KeysShown E)
    (hS : SkipsLast E) {T : Ty} {x : Obj} (h : HasTy E T x) :
    ∃ y, cloneReflect E x = some y ∧ HasTy E T y ∧ y.typeOf = x.typeOf ∧ y.reset = x.reset ∧
      (NoSkips E → y = x) := by
  have reset_typeOf : x.reset.typeOf = x.typeOf := by
    cases x <;> simp [Obj.reset, Obj.typeOf]
    case struct tag _ => cases tag <;> rfl
    case tupleStruct tag _ => cases tag <;> rfl
    case tuple tag _ => cases tag <;> rfl
    case enumS tag _ _ => cases tag <;> rfl
    case enumT tag _ _ => cases tag <;> rfl
  have rr : x.reset.reset = x.reset := by
    have h1 := roundtrip hD hO hK hS h
    have h2 := roundtrip hD hO hK hS (h.reset hO hK)
    rw [toValue_reset, h1] at h2
    exact (Option.some.inj h2).symm
  have same : ∃ y, some x = some y ∧ HasTy E T y ∧ y.typeOf = x.typeOf ∧ y.reset = x.reset ∧
      (NoSkips E → y = x) := ⟨x, rfl, h, rfl, rfl, fun _ => rfl⟩
  have viaValue : ∀ u, x.typeOf = some u → ∃ y, fromReflect E u x.toValue.toObj = some y ∧
      HasTy E T y ∧ y.typeOf = x.typeOf ∧ y.reset = x.reset ∧ (NoSkips E → y = x) := fun u hu =>
    ⟨x.reset, typeOf_hasTy_roundtrip hD hO hK hS h hu, h.reset hO hK, reset_typeOf, rr,
      fun hN => h.reset_eq hN⟩
  unfold cloneReflect
  split
  · next n hn => split
                 · exact viaValue _ hn
                 · exact same
  · next hn => exact viaValue _ hn
  · next hn => exact viaValue _ hn
  · next hn => exact viaValue _ hn
  · exact same

/-- The concrete types that are cloned through their `Value`: `Vec`, arrays, maps, and derived types with
`opt_out(Clone)`. -/
inductive ClonedThroughValue (E : Env) : Ty → Prop
  | vec (t) : ClonedThroughValue E (.vec t)
  | array (t n) : ClonedThroughValue E (.array t n)
  | map (k v) : ClonedThroughValue E (.map k v)
  | optOut (n d) : E.decl n = some d → d.cloneOptOut = true → ClonedThroughValue E (.named n)

/-- C06, exactly: values whose concrete type is not cloned through `Value` are cloned as they are. All others
panic if some tuple struct or tuple variant inside has a skipped field before a reflected one, and lose the
contents of their skipped fields if not. -/
theorem C06_clone_reflect_exactly {E : Env} (hD : DeclsOK E) (hO : OrdLaws E) (hK : KeysShown E) {T u : Ty}
    {x : Obj} (h : HasTy E T x) (hu : x.typeOf = some u) :
    (¬ ClonedThroughValue E u → cloneReflect E x = some x) ∧
    (ClonedThroughValue E u → x.NoGaps → cloneReflect E x = some x.reset) ∧
    (ClonedThroughValue E u → ¬ x.NoGaps → cloneReflect E x = none) := by
  obtain ⟨w, hw, h⟩ := h.typeOf hO
  rw [hu] at hw; cases hw
  have hc : ClonedThroughValue E u → cloneReflect E x = fromReflect E u x.toValue.toObj := by
    intro hc
    cases hc with
    | vec t => simp only [cloneReflect, hu]
    | array t n => simp only [cloneReflect, hu]
    | map k v => simp only [cloneReflect, hu]
    | optOut n d hd ho => simp only [cloneReflect, hu, hd, Option.any_some, ho, if_true]
  obtain ⟨h1, h2⟩ := C02_roundtrip_exactly hD hO hK h
  refine ⟨fun hn => ?_, fun hv hg => by rw [hc hv, h1 hg], fun hv hg => by rw [hc hv, h2 hg]⟩
  unfold cloneReflect
  split
  · next n hn' =>
    split
    · next ho =>
      rw [Option.any_eq_true] at ho
      obtain ⟨d, hd, ho⟩ := ho
      rw [hu] at hn'; cases hn'
      exact absurd (.optOut n d hd ho) hn
    · rfl
  · next hn' => rw [hu] at hn'; cases hn'; exact absurd (.vec _) hn
  · next hn' => rw [hu] at hn'; cases hn'; exact absurd (.array _ _) hn
  · next hn' => rw [hu] at hn'; cases hn'; exact absurd (.map _ _) hn
  · rfl

/-- C06: the clone is equal to the value exactly if the type is not cloned through `Value`, or nothing inside
has a misplaced skip and all skipped fields hold their default. -/
theorem C06_clone_equal_iff {E : Env} (hD : DeclsOK E) (hO : OrdLaws E) (hK : KeysShown E) {T u : Ty}
    {x : Obj} (h : HasTy E T x) (hu : x.typeOf = some u) :
    cloneReflect E x = some x ↔ (ClonedThroughValue E u → x.NoGaps ∧ x.reset = x) := by
  obtain ⟨h1, h2, h3⟩ := C06_clone_reflect_exactly hD hO hK h hu
  constructor
  · intro he hc
    by_cases hg : x.NoGaps
    · rw [h2 hc hg] at he; exact ⟨hg, Option.some.inj he⟩
    · rw [h3 hc hg] at he; cases he
  · intro hi
    by_cases hc : ClonedThroughValue E u
    · rw [h2 hc (hi hc).1, (hi hc).2]
    · exact h1 hc

/-- A vector of `Secret`s is cloned without the contents of its skipped fields. -/
example : cloneReflect demoEnv (.vec (.named "Secret") [demoSecret]) =
      some (Obj.vec (.named "Secret") [demoSecret]).reset ∧
    (Obj.vec (.named "Secret") [demoSecret]).reset ≠ .vec (.named "Secret") [demoSecret] := by
  have h : HasTy demoEnv (.vec (.named "Secret")) (.vec (.named "Secret") [demoSecret]) :=
    .vec _ _ (by intro x hx; simp at hx; subst hx; exact demoSecret_hasTy)
  refine ⟨(C06_clone_reflect_exactly demo_declsOK demo_ordLaws demo_keysShown h rfl).2.1 (.vec _)
    (h.noGaps demo_skipsLast), ?_⟩
  simp [demoSecret, Obj.reset]

/-- Non-vacuity of C06: a type with `opt_out(Clone)`. -/
example : HasTy demoEnv (.named "Opt") (.enumT (.derived "Opt") "Some" [demoPoint]) := by
  refine .enumT "Opt" _ true "Some" _ _ rfl List.mem_cons_self rfl ?_ ?_
  · intro i fd p hfd hp hs
    match i with
    | 0 => simp at hfd; subst hfd; simp at hs
    | i + 1 => simp at hfd
  · intro i fd p hfd hp hs
    match i with
    | 0 => simp at hfd hp; subst hfd hp; exact demoPoint_hasTy
    | i + 1 => simp at hfd

/-- C06 is false for `opt_out(Clone)` tuple structs with a misplaced skip: every `clone_reflect`
panics. -/
theorem C06_clone_panics {E : Env} {n : String} {fds : List FieldDef} {i j : Nat}
    {fi fj : FieldDef} (hd : E.decl n = some ⟨.tupleStruct fds, true⟩)
    (hi : fds[i]? = some fi) (hj : fds[j]? = some fj) (hsi : fi.skip = true) (hsj : fj.skip = false)
    (hij : i < j) {fs : List Obj} (h : HasTy E (.named n) (.tupleStruct (.derived n) fs)) :
    cloneReflect E (.tupleStruct (.derived n) fs) = none := by
  have := C02_misplaced_skip_fails hd hi hj hsi hsj hij h
  simp [cloneReflect, Obj.typeOf, hd, this]

/-- Non-vacuity of `C06_clone_panics`. -/
example : cloneReflect (badEnv true)
    (.tupleStruct (.derived "Bad") [.hidden 1, .scalar (.int .u8 7)]) = none :=
  C06_clone_panics (fi := ⟨"", .scalar .bool, true⟩) (fj := ⟨"", .scalar (.int .u8), false⟩)
    (i := 0) (j := 1) rfl rfl rfl rfl rfl (by omega) (bad_hasTy true 1 7)

end Mirror
