import Verif.Lemmas.ReflectEqExtra
import Verif.Lemmas.ReflectEqExact
import Verif.Props.Patch

set_option linter.unusedSimpArgs false

/-!
# C14-C19: `reflect_eq`

`reflectEq E a b` is the result of `reflect_eq(&a, &b)`: `none` when it cannot answer.
-/

namespace Mirror

/-! ## Facts about the demo environment -/

theorem demo_skipsLastAll : SkipsLastAll demoEnv := by
  refine ⟨demo_skipsLast, ?_⟩
  intro n vds c vn fds h hv i j fd fd' hi hj hs hs'
  simp only [demoEnv, valueOrdEnv, demoDecl] at h
  split at h <;> simp at h <;> (obtain ⟨rfl, _⟩ := h; simp at hv)
  obtain ⟨_, rfl⟩ := hv
  match i with
  | 0 => simp at hi; subst hi; simp at hs
  | i + 1 => simp at hi

/-- An object without parts. -/
theorem everywhere_leaf {P : Obj → Prop} {o : Obj} (h : P o) (hp : o.parts = []) : o.Everywhere P :=
  .mk o h (by rw [hp]; simp)

theorem demoSecret_everywhere {P : Obj → Prop}
    (h : P demoSecret) (hs : ∀ n, P (.scalar (.int .u8 n)))
    (hv : ∀ xs, P (.vec (.scalar (.int .u8)) xs)) : demoSecret.Everywhere P := by
  refine .mk _ h ?_
  intro x hx
  simp [demoSecret, Obj.parts, visFields, Obj.isHidden] at hx
  rcases hx with rfl | rfl
  · exact everywhere_leaf (hs _) rfl
  · refine .mk _ (hv _) ?_
    intro x hx
    simp [Obj.parts] at hx
    rcases hx with rfl | rfl <;> exact everywhere_leaf (hs _) rfl

theorem demoSecret_noNaN : demoSecret.NoNaN := by
  apply demoSecret_everywhere
  · intro s hs; simp [demoSecret, Obj.asScalar] at hs
  · intro n s hs; simp [Obj.asScalar] at hs; subst hs; rfl
  · intro n s hs; simp [Obj.asScalar] at hs

theorem demoSecret_keysArrayFree : demoSecret.KeysArrayFree := by
  apply demoSecret_everywhere <;> simp [demoSecret]

theorem demoSecret_namesNodup : demoSecret.NamesNodup := by
  apply demoSecret_everywhere <;> simp [demoSecret]

theorem demoSecret_arrayFree : demoSecret.ArrayFree := by
  refine .struct _ _ ?_
  intro p hp
  simp at hp
  rcases hp with rfl | rfl | rfl
  · exact .scalar _
  · exact .hidden _
  · refine .vec _ _ ?_
    intro x hx; simp at hx; rcases hx with rfl | rfl <;> exact .scalar _

/-- A map with one entry, from `true` to the unit tuple. -/
def demoMap : Obj := .map (.scalar .bool) (.tuple []) [(.scalar (.bool true), .tuple (.typed []) [])]

theorem demoMap_hasTy (E : Env) : HasTy E (.map (.scalar .bool) (.tuple [])) demoMap := by
  refine .map _ _ _ (by simp [BMSorted]) ?_ ?_
  · intro p hp; simp at hp; subst hp; exact .scalar' rfl
  · intro p hp; simp at hp; subst hp; exact .tuple _ _ rfl (by simp)

theorem demoMap_everywhere {P : Obj → Prop} (h : P demoMap) (hs : P (.scalar (.bool true)))
    (ht : P (.tuple (.typed []) [])) : demoMap.Everywhere P := by
  refine .mk _ h ?_
  intro x hx
  simp [demoMap, Obj.parts] at hx
  rcases hx with rfl | rfl
  · exact everywhere_leaf hs rfl
  · exact everywhere_leaf ht rfl

/-! ## C14 -/

/-- C14 (partial): `reflect_eq(x, x)` is `Some(true)` for every proper `x` of every type that contains
no NaN. (No proper value is opaque: skipped fields are never visited.) Missing: maps whose keys
contain fixed-size arrays, for which the claim is false, see `C14_array_keys`. -/
theorem C14_reflect_eq_refl_partial {E : Env} (hD : DeclsOK E) (hO : OrdLaws E) (hK : KeysShown E)
    {T : Ty} {x : Obj} (hx : HasTy E T x) (hn : x.NoNaN) (ha : x.KeysArrayFree) :
    reflectEq E x x = some true :=
  reflectEq_self hD hO hK ⟨T, hx⟩ hn ha

/-- Non-vacuity of C14: a struct with a skipped field, and a map. -/
example : reflectEq demoEnv demoSecret demoSecret = some true ∧
    reflectEq demoEnv demoMap demoMap = some true := by
  refine ⟨C14_reflect_eq_refl_partial demo_declsOK demo_ordLaws demo_keysShown demoSecret_hasTy
    demoSecret_noNaN demoSecret_keysArrayFree,
    C14_reflect_eq_refl_partial demo_declsOK demo_ordLaws demo_keysShown (demoMap_hasTy _) ?_ ?_⟩
  · apply demoMap_everywhere <;> simp [demoMap, Obj.asScalar, Scalar.isNaN]
  · apply demoMap_everywhere
    · intro kt vt kvs h p hp
      cases h; simp at hp; subst hp; exact .scalar _
    all_goals simp

/-- C14 fails for every non-empty map with fixed-size arrays as keys: it does not even equal itself,
because looking a key up converts it with `FromReflect`, which no array survives. -/
theorem C14_array_keys {E : Env} {t vt : Ty} {n : Nat} {kvs : List (Obj × Obj)}
    (hx : HasTy E (.map (.array t n) vt) (.map (.array t n) vt kvs)) (hne : kvs ≠ []) :
    reflectEq E (.map (.array t n) vt kvs) (.map (.array t n) vt kvs) = some false := by
  refine reflectEq_array_keys hne ?_
  cases hx with
  | map _ _ _ _ hk _ =>
    intro p hp
    have h := hk p hp
    generalize hT : Ty.array t n = T at h
    generalize p.1 = o at h
    cases h with
    | array _ xs _ => cases hT; exact ⟨xs, rfl⟩
    | _ => cases hT

/-- Non-vacuity of `C14_array_keys`: `BTreeMap<[bool; 1], ()>` with one entry. -/
example : ∃ kvs, HasTy demoEnv (.map (.array (.scalar .bool) 1) (.tuple []))
    (.map (.array (.scalar .bool) 1) (.tuple []) kvs) ∧ kvs ≠ [] := by
  refine ⟨[(.array (.scalar .bool) [.scalar (.bool true)], .tuple (.typed []) [])],
    .map _ _ _ (by simp [BMSorted]) ?_ ?_, by simp⟩
  · intro p hp; simp at hp; subst hp
    exact .array _ [.scalar (.bool true)] (by intro x hx; simp at hx; subst hx; exact .scalar' rfl)
  · intro p hp; simp at hp; subst hp; exact .tuple _ _ rfl (by simp)

/-- C14 needs the exclusion of NaN: a NaN is not equal to itself. -/
theorem C14_nan (E : Env) (s : Scalar) (h : s.isNaN = true) :
    reflectEq E (.scalar s) (.scalar s) = some false := by
  rw [reflectEq]
  cases s <;> simp [Scalar.isNaN] at h <;>
    simp [Obj.asScalar, Scalar.eqv, f32Eq, f64Eq, h]

example : (Scalar.f32 0x7fc00000#32).isNaN = true := by decide

/-- C14, exactly: for every proper `x`, `reflect_eq(x, x)` is `Some(true)` if and only if walking over
`x` meets no NaN and no map with a key that does not convert to its own type (`EqualsItself`), and
`Some(false)` otherwise. -/
theorem C14_reflect_eq_refl_exactly {E : Env} (hD : DeclsOK E) (hO : OrdLaws E) (hK : KeysShown E)
    {T : Ty} {x : Obj} (hx : HasTy E T x) :
    (x.EqualsItself E → reflectEq E x x = some true) ∧
    (¬ x.EqualsItself E → reflectEq E x x = some false) := by
  have hi := reflectEq_self_iff hD hO hK ⟨T, hx⟩
  refine ⟨hi.mpr, fun h => ?_⟩
  obtain ⟨b, hb⟩ := Option.isSome_iff_exists.mp (reflectEq_total (E := E) ⟨T, hx⟩ ⟨T, hx⟩)
  cases b with
  | true => exact absurd (hi.mp hb) h
  | false => exact hb

/-- A variant `V { #[reflect(skip)] a: u8, b: f32 }` with a NaN in `b`: the walk stops at the skipped
field, so the value equals itself; a list with a NaN does not. -/
example (E : Env) :
    (Obj.enumS (.derived "T") "V" [("a", .hidden 0), ("b", .scalar (.f32 0x7fc00000#32))]).EqualsItself E ∧
    ¬ (Obj.vec (.scalar .f32) [.scalar (.f32 0x7fc00000#32)]).EqualsItself E := by
  constructor
  · refine .mk _ ⟨fun s hs => by simp [Obj.asScalar] at hs, by simp⟩ ?_
    intro x hx
    simp [Obj.walked, Obj.namedIter, Obj.posIter, List.takeWhile, Obj.isHidden] at hx
  · rintro ⟨_, _, h⟩
    obtain ⟨_, ⟨h, _⟩, _⟩ := h (.scalar (.f32 0x7fc00000#32)) (by simp [Obj.walked, Obj.posIter])
    exact absurd (h _ rfl) (by decide)

/-! ## C15, C16 -/

/-- `a` is a proper value of some type. Its `StructValue`s do not list a name twice and the keys of
its maps have types in `K`. -/
def Comparable (E : Env) (K : Ty → Prop) (a : Obj) : Prop :=
  (∃ T, HasTy E T a) ∧ a.NamesNodup ∧ a.KeyTypes K

/-- C15 (partial): `reflect_eq(a, b) == reflect_eq(b, a)`, for values of any two types, static or
dynamic, and the answer is never `None`. Excluded, with counterexamples: `StructValue`s with a repeated
name (`C15_repeated_name`), maps with convertible but different key types (`C15_key_types`), and skipped
fields followed by reflected ones (`C16_misplaced_skip`). -/
theorem C15_reflect_eq_symm_partial {E : Env} (hD : DeclsOK E) (hO : OrdLaws E)
    (hS : SkipsLastAll E) {K : Ty → Prop} (hV : KeysByValue E K) {a b : Obj} (ha : Comparable E K a)
    (hb : Comparable E K b) :
    reflectEq E a b = reflectEq E b a ∧ (reflectEq E a b).isSome := by
  have fa : Fine E K a := ⟨ha.1, ha.2.1, ha.2.2⟩
  have fb : Fine E K b := ⟨hb.1, hb.2.1, hb.2.2⟩
  have h1 := reflectEq_total fa.ok fb.ok
  have h2 := reflectEq_total fb.ok fa.ok
  refine ⟨?_, h1⟩
  obtain ⟨p, hp⟩ := Option.isSome_iff_exists.mp h1
  obtain ⟨q, hq⟩ := Option.isSome_iff_exists.mp h2
  have hpq : p = true → q = true := fun h => by
    subst h
    have := reflectEq_true_symm hD hO hS hV fa fb hp
    rw [hq] at this; cases this; rfl
  have hqp : q = true → p = true := fun h => by
    subst h
    have := reflectEq_true_symm hD hO hS hV fb fa hq
    rw [hp] at this; cases this; rfl
  rw [hp, hq]
  cases p <;> cases q <;> simp_all

/-- C16 (partial): `reflect_eq` is transitive, across values of any three types. The exclusions are
those of C15. -/
theorem C16_reflect_eq_trans_partial {E : Env} (hD : DeclsOK E) (hO : OrdLaws E)
    (hS : SkipsLastAll E) {K : Ty → Prop} (hV : KeysByValue E K) {a b c : Obj}
    (ha : Comparable E K a) (hb : Comparable E K b) (hc : Comparable E K c)
    (h : reflectEq E a b = some true) (h' : reflectEq E b c = some true) :
    reflectEq E a c = some true :=
  reflectEq_true_trans hD hO hS hV ⟨ha.1, ha.2.1, ha.2.2⟩ ⟨hb.1, hb.2.1, hb.2.2⟩
    ⟨hc.1, hc.2.1, hc.2.2⟩ h h'

theorem demoSecret_comparable : Comparable demoEnv PlainKey demoSecret :=
  ⟨⟨_, demoSecret_hasTy⟩, demoSecret_namesNodup, by apply demoSecret_everywhere <;> simp [demoSecret]⟩

theorem demoMap_comparable : Comparable demoEnv PlainKey demoMap := by
  refine ⟨⟨_, demoMap_hasTy _⟩, by apply demoMap_everywhere <;> simp [demoMap], ?_⟩
  apply demoMap_everywhere
  · intro kt vt kvs h; cases h; trivial
  all_goals simp

/-- The same content as `demoMap`, as a dynamic value: keys and values are `Value`s. -/
def demoMapV : Obj := .map .value .value [(.scalar (.bool true), .tuple .dyn [])]

theorem demoMapV_comparable : Comparable demoEnv PlainKey demoMapV := by
  have e : demoMapV = (Value.map [(.scalar (.bool true), .tuple [])]).toObj := by
    simp [demoMapV, Value.toObj]
  have hw : (Value.map [(.scalar (.bool true), .tuple [])]).WF := by
    refine .map _ (by simp [BMSorted]) ?_ ?_
    · intro p hp; simp at hp; subst hp; exact .scalar _
    · intro p hp; simp at hp; subst hp; exact .tuple _ (by simp)
  have ev : ∀ {P : Obj → Prop}, P demoMapV → P (.scalar (.bool true)) → P (.tuple .dyn []) →
      demoMapV.Everywhere P := by
    intro P h hs ht
    refine .mk _ h ?_
    intro x hx
    simp [demoMapV, Obj.parts] at hx
    rcases hx with rfl | rfl
    · exact everywhere_leaf hs rfl
    · exact everywhere_leaf ht rfl
  refine ⟨e ▸ hw.ok, by apply ev <;> simp [demoMapV], ?_⟩
  apply ev
  · intro kt vt kvs h; cases h; trivial
  all_goals simp

/-- Non-vacuity of C15 and C16: maps with scalar keys and maps with `Value` keys can be mixed, and a
typed map does equal its dynamic counterpart. -/
example : reflectEq demoEnv demoMap demoMapV = reflectEq demoEnv demoMapV demoMap ∧
    reflectEq demoEnv demoMap demoMapV = some true ∧
    reflectEq demoEnv demoSecret demoMap = reflectEq demoEnv demoMap demoSecret := by
  refine ⟨(C15_reflect_eq_symm_partial demo_declsOK demo_ordLaws demo_skipsLastAll
    (keysByValue_plain _) demoMap_comparable demoMapV_comparable).1, ?_,
    (C15_reflect_eq_symm_partial demo_declsOK demo_ordLaws demo_skipsLastAll
    (keysByValue_plain _) demoSecret_comparable demoMap_comparable).1⟩
  rw [demoMap, demoMapV, reflectEq_iff]
  refine ⟨rfl, (fun h => by cases h), rfl, rfl, rfl, by simp [Obj.asScalar], by simp [Obj.namedIter],
    by simp [Obj.posIter], ?_⟩
  intro p hp
  simp [Obj.entries] at hp
  subst hp
  refine ⟨.tuple .dyn [], ?_, ?_⟩
  · simp [Obj.mapGet, fromReflect_value, Obj.toValue, Value.toObj, bmGet, demoEnv, valueOrdEnv,
      Value.cmp_self]
  · rw [reflectEq]; simp [Obj.kind, Obj.fieldsLen, Obj.posIter, eqAll]

/-- C15 fails when a `StructValue` lists a name twice, which `set_field` allows: with
`a = {x: 1, x: 1}` and `b = {x: 1, y: 1}`, `reflect_eq(a, b)` is `Some(true)` and `reflect_eq(b, a)` is
`Some(false)`. -/
theorem C15_repeated_name (E : Env) :
    let one := Value.scalar (.int .u8 1)
    let a := (svFinish (svOfList [("x", one), ("x", one)])).toObj
    let b := (svFinish (svOfList [("x", one), ("y", one)])).toObj
    reflectEq E a b = some true ∧ reflectEq E b a = some false := by
  have h1 : svOfList [("x", Value.scalar (.int .u8 1)), ("x", .scalar (.int .u8 1))] =
      (["x", "x"], [("x", .scalar (.int .u8 1))]) := rfl
  have h2 : svOfList [("x", Value.scalar (.int .u8 1)), ("y", .scalar (.int .u8 1))] =
      (["x", "y"], [("x", .scalar (.int .u8 1)), ("y", .scalar (.int .u8 1))]) := rfl
  simp only [h1, h2, svFinish]
  constructor
  · rw [reflectEq_iff]
    simp only [Value.toObj, List.map_cons, List.map_nil]
    refine ⟨rfl, (fun h => by cases h), rfl, rfl, rfl, by simp [Obj.asScalar], ?_,
      by simp [Obj.posIter], by simp [Obj.entries]⟩
    intro p hp
    simp [Obj.namedIter, dynIter, lookup] at hp
    subst hp
    refine ⟨.scalar (.int .u8 1), by simp [Obj.field, visFields, Obj.isHidden, lookup], ?_⟩
    rw [reflectEq]; simp [Obj.asScalar, Scalar.eqv]
  · simp [Value.toObj, reflectEq, Obj.kind, Obj.fieldsLen, Obj.namedIter, dynIter, lookup, Obj.field,
      visFields, Obj.isHidden, Obj.asScalar, Scalar.eqv, eqAll]

/-- C15 fails for maps with different key types of which only one converts to the other: comparing a
`BTreeMap<NonZeroU8, ()>` with the `BTreeMap<u8, ()>` of the same content gives `Some(false)`, and in
the other order `Some(true)`. -/
theorem C15_key_types :
    let a := Obj.map (.nonzero .u8) (.tuple []) [(.nonzero .u8 1, .tuple (.typed []) [])]
    let b := Obj.map (.scalar (.int .u8)) (.tuple []) [(.scalar (.int .u8 1), .tuple (.typed []) [])]
    reflectEq demoEnv a b = some false ∧ reflectEq demoEnv b a = some true := by
  constructor
  · simp [reflectEq, Obj.kind, Obj.fieldsLen, Obj.mapGet, fromReflect, Obj.isTy, Obj.typeOf, eqAll]
  · simp [reflectEq, Obj.kind, Obj.fieldsLen, Obj.mapGet, fromReflect, Obj.isTy, Obj.typeOf, eqAll, bmGet,
      demoEnv, valueOrdEnv, Value.cmp_self, Obj.toValue, Obj.posIter]

theorem dynPair_ok {E : Env} (x y : Int) :
    (Obj.tupleStruct .dyn [.scalar (.int .u8 x), .scalar (.int .u8 y)]).OK E := by
  have h : (Value.tupleStruct [.scalar (.int .u8 x), .scalar (.int .u8 y)]).WF := by
    refine .tupleStruct _ ?_
    intro v hv; simp at hv; rcases hv with rfl | rfl <;> exact .scalar _
  have := h.ok (E := E)
  simpa [Value.toObj] using this

/-- C16 fails when a skipped field comes before a reflected one: `struct Bad3(#[reflect(skip)] _, u8,
u8)` shows no field to an iterator, so it equals every tuple struct with two fields. -/
theorem C16_misplaced_skip (a b : Int) :
    let t (x y : Int) := Obj.tupleStruct .dyn [.scalar (.int .u8 x), .scalar (.int .u8 y)]
    reflectEq patchEnv (t 1 2) (bad3 a b) = some true ∧ reflectEq patchEnv (bad3 a b) (t 3 4) = some true ∧
      reflectEq patchEnv (t 1 2) (t 3 4) = some false ∧ HasTy patchEnv (.named "Bad3") (bad3 a b) := by
  refine ⟨?_, ?_, ?_, bad3_hasTy a b⟩
  · rw [reflectEq_iff]
    exact ⟨rfl, (fun h => by cases h), rfl, rfl, rfl, by simp [Obj.asScalar], by simp [Obj.namedIter],
      by simp [Obj.posIter, bad3, Obj.isHidden], by simp [Obj.entries]⟩
  · rw [reflectEq_iff]
    exact ⟨rfl, (fun h => by cases h), rfl, rfl, rfl, by simp [bad3, Obj.asScalar],
      by simp [bad3, Obj.namedIter], by simp [Obj.posIter, bad3, Obj.isHidden],
      by simp [bad3, Obj.entries]⟩
  · obtain ⟨r, hr⟩ := Option.isSome_iff_exists.mp (reflectEq_total (E := patchEnv)
      (a := .tupleStruct .dyn [.scalar (.int .u8 1), .scalar (.int .u8 2)])
      (b := .tupleStruct .dyn [.scalar (.int .u8 3), .scalar (.int .u8 4)]) (dynPair_ok _ _) (dynPair_ok _ _))
    cases r with
    | false => exact hr
    | true =>
      rw [reflectEq_iff] at hr
      have := hr.pos 0 (.scalar (.int .u8 1)) (.scalar (.int .u8 3)) rfl rfl
      rw [reflectEq] at this
      simp [Obj.asScalar, Scalar.eqv] at this

/-! ## C17 -/

/-- C17 (partial): `reflect_eq(x, &x.to_value())` is `Some(true)`, and so is `reflect_eq` in the other
order. Missing: fixed-size arrays, for which the claim is false (`C17_arrays`), and types with a
skipped field before a reflected one. -/
theorem C17_reflect_eq_to_value_partial {E : Env} (hD : DeclsOK E) (hO : OrdLaws E)
    (hK : KeysShown E) (hS : SkipsLastAll E) {T : Ty} {x : Obj} (hx : HasTy E T x) (hn : x.NoNaN)
    (ha : x.ArrayFree) :
    reflectEq E x x.toValue.toObj = some true ∧ reflectEq E x.toValue.toObj x = some true :=
  reflectEq_toValue hD hO hK hS ⟨T, hx⟩ hn ha

/-- Non-vacuity of C17. -/
example : reflectEq demoEnv demoSecret demoSecret.toValue.toObj = some true :=
  (C17_reflect_eq_to_value_partial demo_declsOK demo_ordLaws demo_keysShown demo_skipsLastAll
    demoSecret_hasTy demoSecret_noNaN demoSecret_arrayFree).1

/-- C17 fails for every fixed-size array: `to_value` turns it into a list, which never equals an
array. -/
theorem C17_arrays {E : Env} (t : Ty) (xs : List Obj) :
    reflectEq E (.array t xs) (Obj.array t xs).toValue.toObj = some false ∧
      reflectEq E (Obj.array t xs).toValue.toObj (.array t xs) = some false :=
  reflectEq_array_toValue t xs

/-- C17, exactly: for every proper `x`, with skipped fields anywhere, `reflect_eq(x, &x.to_value())` is
`Some(true)` if and only if walking over `x` meets no NaN and no fixed-size array, and `Some(false)`
otherwise. -/
theorem C17_to_value_exactly {E : Env} (hD : DeclsOK E) (hO : OrdLaws E) (hK : KeysShown E) {T : Ty}
    {x : Obj} (hx : HasTy E T x) :
    (x.EqualsItsValue → reflectEq E x x.toValue.toObj = some true) ∧
    (¬ x.EqualsItsValue → reflectEq E x x.toValue.toObj = some false) := by
  have hi := reflectEq_toValue_iff hD hO hK ⟨T, hx⟩
  refine ⟨hi.mpr, fun h => ?_⟩
  obtain ⟨b, hb⟩ := Option.isSome_iff_exists.mp
    (reflectEq_total (E := E) ⟨T, hx⟩ (Obj.OK.toValue_wf ⟨T, hx⟩).ok)
  cases b with
  | true => exact absurd (hi.mp hb) h
  | false => exact hb

/-- C17, exactly, in the other order: `reflect_eq(&x.to_value(), x)`. Here the fields of a struct
variant after a skipped field count as well, and map keys must survive the round trip. -/
theorem C17_value_first_exactly {E : Env} (hD : DeclsOK E) (hO : OrdLaws E) (hK : KeysShown E)
    {T : Ty} {x : Obj} (hx : HasTy E T x) :
    (x.ItsValueEquals → reflectEq E x.toValue.toObj x = some true) ∧
    (¬ x.ItsValueEquals → reflectEq E x.toValue.toObj x = some false) := by
  have hi := toValue_reflectEq_iff hD hO hK ⟨T, hx⟩
  refine ⟨hi.mpr, fun h => ?_⟩
  obtain ⟨b, hb⟩ := Option.isSome_iff_exists.mp
    (reflectEq_total (E := E) (Obj.OK.toValue_wf ⟨T, hx⟩).ok ⟨T, hx⟩)
  cases b with
  | true => exact absurd (hi.mp hb) h
  | false => exact hb

/-- The orders differ: a NaN after a skipped field of a struct variant is met in one of them only. A map
with array keys, not equal to itself, equals its value. -/
example :
    (Obj.enumS (.derived "T") "V" [("a", .hidden 0), ("b", .scalar (.f32 0x7fc00000#32))]).EqualsItsValue ∧
    ¬ (Obj.enumS (.derived "T") "V" [("a", .hidden 0), ("b", .scalar (.f32 0x7fc00000#32))]).ItsValueEquals ∧
    (Obj.map (.array (.scalar .bool) 0) (.scalar .bool)
      [(.array (.scalar .bool) [], .scalar (.bool true))]).EqualsItsValue := by
  refine ⟨.mk _ ⟨fun s hs => by simp [Obj.asScalar] at hs, by simp⟩ ?_, ?_,
    .mk _ ⟨fun s hs => by simp [Obj.asScalar] at hs, by simp⟩ ?_⟩
  · intro x hx
    simp [Obj.walked, Obj.namedIter, Obj.posIter, List.takeWhile, Obj.isHidden] at hx
  · rintro ⟨_, _, h⟩
    obtain ⟨_, ⟨h, _⟩, _⟩ := h (.scalar (.f32 0x7fc00000#32))
      (by simp [Obj.walkedAll, visFields, Obj.isHidden])
    exact absurd (h _ rfl) (by decide)
  · intro x hx
    simp [Obj.walked] at hx
    subst hx
    refine .mk _ ⟨fun s hs => by simp [Obj.asScalar] at hs; subst hs; rfl, by simp⟩ ?_
    simp [Obj.walked, Obj.namedIter, Obj.posIter]

/-! ## C18 -/

/-- C18 (partial): on two values of the same type `reflect_eq` always answers, and answers
`Some(true)` exactly when they agree in everything but skipped fields (`Agree`, scalars compared with
`==`). Missing: maps whose keys contain arrays (`C14_array_keys`), `StructValue`s with repeated
names, and types with a skipped field before a reflected one (none of these exist in a type without
skipped fields and arrays). -/
theorem C18_reflect_eq_decides_partial {E : Env} (hD : DeclsOK E) (hO : OrdLaws E) (hK : KeysShown E)
    (hS : SkipsLastAll E) {T : Ty} {x y : Obj} (hx : HasTy E T x) (hy : HasTy E T y)
    (nx : x.NamesNodup) (ny : y.NamesNodup) (ka : x.KeysArrayFree) :
    (Agree E x y → reflectEq E x y = some true) ∧ (¬ Agree E x y → reflectEq E x y = some false) := by
  have h := reflectEq_agree hD hO hK hS hx hy nx ny ka
  refine ⟨h.mpr, fun hn => ?_⟩
  obtain ⟨b, hb⟩ := Option.isSome_iff_exists.mp (reflectEq_total (E := E) ⟨T, hx⟩ ⟨T, hy⟩)
  cases b with
  | false => exact hb
  | true => exact absurd (h.mp hb) hn

/-- Non-vacuity of C18: two `Secret`s that differ only in the skipped field agree. -/
example : ∃ y, y ≠ demoSecret ∧ HasTy demoEnv (.named "Secret") y ∧ Agree demoEnv demoSecret y := by
  refine ⟨.struct (.derived "Secret") [("a", .scalar (.int .u8 7)), ("hidden", .hidden 4),
    ("b", .vec (.scalar (.int .u8)) [.scalar (.int .u8 1), .scalar (.int .u8 2)])], ?_, ?_, ?_⟩
  · simp [demoSecret]
  · refine .struct "Secret" _ false _ rfl rfl ?_ ?_
    · intro i fd p hfd hp hs
      match i with
      | 0 => simp at hfd; subst hfd; simp at hs
      | 1 => simp at hp; subst hp; rfl
      | 2 => simp at hfd; subst hfd; simp at hs
      | i + 3 => simp at hfd
    · intro i fd p hfd hp hs
      match i with
      | 0 => simp at hfd hp; subst hfd hp; exact .scalar' rfl
      | 1 => simp at hfd; subst hfd; simp at hs
      | 2 =>
        simp at hfd hp; subst hfd hp
        refine .vec _ _ ?_
        intro x hx
        simp at hx
        rcases hx with rfl | rfl <;> exact .scalar' rfl
      | i + 3 => simp at hfd
  · refine .struct _ _ _ rfl ?_
    intro i p q hp hq
    match i with
    | 0 => simp at hp hq; subst hp hq; exact .scalar _ _ (by decide)
    | 1 => simp at hp hq; subst hp hq; exact .hidden _ _
    | 2 =>
      simp at hp hq; subst hp hq
      refine .vec _ _ _ rfl ?_
      intro i p q hp hq
      match i with
      | 0 => simp at hp hq; subst hp hq; exact .scalar _ _ (by decide)
      | 1 => simp at hp hq; subst hp hq; exact .scalar _ _ (by decide)
      | i + 2 => simp at hp
    | i + 3 => simp at hp

/-- C18: an agreement of structs is an agreement of every field, so values that differ in one
reflected field are told apart. -/
theorem C18_differing_field {E : Env} {n : String} {fs gs : List (String × Obj)} {i : Nat}
    {p q : String × Obj} (hp : fs[i]? = some p) (hq : gs[i]? = some q) (h : ¬ Agree E p.2 q.2) :
    ¬ Agree E (.struct (.derived n) fs) (.struct (.derived n) gs) := by
  intro ha
  cases ha with
  | struct _ _ _ _ h' => exact h (h' i p q hp hq)

/-! ## C19 -/

/-- C19: two `StructValue`s built from the same fields in different orders are `reflect_eq`. -/
theorem C19_order_insensitive {E : Env} (hD : DeclsOK E) (hO : OrdLaws E) (hK : KeysShown E)
    {l m : List (String × Value)} (hp : l.Perm m) (hnd : (l.map (·.1)).Nodup) (hw : ∀ p ∈ l, p.2.WF)
    (hn : (svFinish (svOfList l)).toObj.NoNaN) :
    reflectEq E (svFinish (svOfList l)).toObj (svFinish (svOfList m)).toObj = some true := by
  have e : bmOfList strCmp m = bmOfList strCmp l := by
    apply bmOfList_eq_of_perm strCmpOn (m := bmOfList strCmp l)
    · intro _ _; trivial
    · exact bmOfList_sorted strCmpOn (by simp)
    · exact hp.symm.trans (bmOfList_str_perm hnd).symm
  have hw' : (svFinish (svOfList l)).WF := by rw [svOfList_eq]; exact svWF hw
  rw [svOfList_eq, svFinish] at hw' hn ⊢
  rw [svOfList_eq, svFinish, e]
  exact reflectEq_permuted_names hD hO hK (hp.map _) hw' hn

/-- Non-vacuity of C19, and the contrast with `Value`'s own `==`, which does look at the order. -/
example : reflectEq demoEnv
      (svFinish (svOfList [("x", .scalar (.bool true)), ("y", .scalar (.bool false))])).toObj
      (svFinish (svOfList [("y", .scalar (.bool false)), ("x", .scalar (.bool true))])).toObj = some true ∧
    Value.beq (svFinish (svOfList [("x", .scalar (.bool true)), ("y", .scalar (.bool false))]))
      (svFinish (svOfList [("y", .scalar (.bool false)), ("x", .scalar (.bool true))])) = false := by
  refine ⟨C19_order_insensitive demo_declsOK demo_ordLaws demo_keysShown (List.Perm.swap ..) (by decide) ?_ ?_,
    by simp [svFinish, svOfList, svSet, Value.beq]⟩
  · intro p hp; simp at hp; rcases hp with rfl | rfl <;> exact .scalar _
  · have h : svOfList [("x", Value.scalar (.bool true)), ("y", .scalar (.bool false))] =
      (["x", "y"], [("x", .scalar (.bool true)), ("y", .scalar (.bool false))]) := rfl
    rw [h, svFinish, Value.toObj]
    refine .mk _ (by simp [Obj.asScalar]) ?_
    intro x hx
    simp [Obj.parts, visFields, Value.toObj, Obj.isHidden] at hx
    rcases hx with rfl | rfl <;>
      exact everywhere_leaf (by simp [Obj.asScalar, Scalar.isNaN]) rfl

end Mirror
