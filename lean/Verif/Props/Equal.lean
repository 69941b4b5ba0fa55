import Verif.Lemmas.Equal
import Verif.Props.ReflectEq

/-!
# C72: what `reflect_eq` decides; C15 and C16 value by value

`reflectEq E a b` is the answer of `a.reflect_eq(&b)`.
-/

set_option linter.unusedSimpArgs false

namespace Mirror

/-- A concrete environment with a misplaced skip in a struct variant and one in a tuple struct:
`enum Gap { V { #[reflect(skip)] a: bool, b: u8 } }`, `struct Bad3(#[reflect(skip)] _, u8, u8)`. -/
def gapEnv : Env := valueOrdEnv fun n =>
  if n = "Gap" then
    some ⟨.enum [.struct "V" [⟨"a", .scalar .bool, true⟩, ⟨"b", .scalar (.int .u8), false⟩]], false⟩
  else if n = "Bad3" then
    some ⟨.tupleStruct [⟨"", .scalar .bool, true⟩, ⟨"", .scalar (.int .u8), false⟩,
      ⟨"", .scalar (.int .u8), false⟩], false⟩
  else none

theorem gap_declsOK : DeclsOK gapEnv where
  struct_names n fds c h := by
    simp only [gapEnv, valueOrdEnv] at h
    split at h
    · simp at h
    · split at h <;> simp at h
  variant_names n vds c h := by
    simp only [gapEnv, valueOrdEnv] at h
    split at h
    · simp at h; obtain ⟨rfl, _⟩ := h; decide
    · split at h <;> simp at h
  variant_fields n vds c vn fds h hv := by
    simp only [gapEnv, valueOrdEnv] at h
    split at h
    · simp at h; obtain ⟨rfl, _⟩ := h; simp at hv; simp [hv]
    · split at h <;> simp at h

/-- `Gap::V { a: _, b }`. -/
def gapV (b : Int) : Obj :=
  .enumS (.derived "Gap") "V" [("a", .hidden 1), ("b", .scalar (.int .u8 b))]

theorem gapV_hasTy (b : Int) : HasTy gapEnv (.named "Gap") (gapV b) := by
  refine .enumS "Gap" _ false "V" _ _ rfl List.mem_cons_self rfl ?_ ?_
  · intro i fd p hfd hp hs
    match i with
    | 0 => simp at hp; subst hp; rfl
    | 1 => simp at hfd; subst hfd; simp at hs
    | i + 2 => simp at hfd
  · intro i fd p hfd hp hs
    match i with
    | 0 => simp at hfd; subst hfd; simp at hs
    | 1 => simp at hfd hp; subst hfd hp; exact .scalar' rfl
    | i + 2 => simp at hfd

theorem gapBad3_hasTy (a b : Int) : HasTy gapEnv (.named "Bad3") (bad3 a b) := by
  refine .tupleStruct "Bad3" _ false _ rfl rfl ?_ ?_
  · intro i fd p hfd hp hs
    match i with
    | 0 => simp at hp; subst hp; rfl
    | 1 => simp at hfd; subst hfd; simp at hs
    | 2 => simp at hfd; subst hfd; simp at hs
    | i + 3 => simp at hfd
  · intro i fd p hfd hp hs
    match i with
    | 0 => simp at hfd; subst hfd; simp at hs
    | 1 => simp at hfd hp; subst hfd hp; exact .scalar' rfl
    | 2 => simp at hfd hp; subst hfd hp; exact .scalar' rfl
    | i + 3 => simp at hfd

/-! ## C72 -/

/-- C72: for proper values `a` and `b` of any two types, `a.reflect_eq(&b)` is `Some(true)` if and only if
`a` is equal to `b` in the sense of `EqualTo`, the relation built up from the accessors, and `Some(false)`
otherwise. -/
theorem C72_reflect_eq_exact {E : Env} (hD : DeclsOK E) (hO : OrdLaws E) {S T : Ty} {a b : Obj}
    (ha : HasTy E S a) (hb : HasTy E T b) :
    (reflectEq E a b = some true ↔ EqualTo E a b) ∧ (reflectEq E a b = some false ↔ ¬ EqualTo E a b) := by
  have hi := reflectEq_equalTo hD hO (b := b) ⟨S, ha⟩
  refine ⟨hi, ⟨fun h h' => ?_, fun h => ?_⟩⟩
  · rw [hi.mpr h'] at h; simp at h
  · exact eq_false_of (reflectEq_total ⟨S, ha⟩ ⟨T, hb⟩) fun h' => h (hi.mp h')

/-- C72: `EqualTo` is a fixed point: a value is equal to another exactly when one step of the comparison
holds with the parts equal. -/
theorem C72_unfold {E : Env} (a b : Obj) : EqualTo E a b ↔ EqStep E (EqualTo E) a b := equalTo_step

/-- Non-vacuity of C72: a struct equals another with the same fields, whatever their types are called; it
differs from the tuple struct with the same content. -/
example : EqualTo demoEnv demoPoint demoPoint.toValue.toObj ∧ ¬ EqualTo demoEnv demoPoint (.tupleStruct .dyn []) ∧
    reflectEq demoEnv demoPoint demoPoint.toValue.toObj = some true := by
  have h : reflectEq demoEnv demoPoint demoPoint.toValue.toObj = some true := by
    rw [reflectEq_toValue_iff demo_declsOK demo_ordLaws demo_keysShown ⟨_, demoPoint_hasTy⟩]
    refine .mk _ ⟨fun s hs => by simp [demoPoint, Obj.asScalar] at hs, by simp [demoPoint]⟩ ?_
    intro x hx
    simp [demoPoint, Obj.walked, Obj.namedIter, Obj.posIter, visFields, Obj.isHidden, Obj.entries,
      List.filter] at hx
    rcases hx with rfl | rfl <;>
      refine .mk _ ⟨fun s hs => by simp [Obj.asScalar] at hs; subst hs; decide, by simp⟩ fun x hx => by
        simp [Obj.walked, Obj.namedIter, Obj.posIter, Obj.entries] at hx
  refine ⟨(C72_reflect_eq_exact demo_declsOK demo_ordLaws demoPoint_hasTy
    (.value _ _ demoPoint_hasTy.toValue_wf rfl)).1.mp h, fun h' => ?_, h⟩
  rw [C72_unfold] at h'
  cases h' <;> simp_all [demoPoint, Obj.kind, Obj.asScalar, Obj.variantKind]
  next h1 h2 _ _ => rw [← h1] at h2; cases h2

/-! ## C15, C16 -/

/-- C15 (partial), value by value: `reflect_eq(a, b) == reflect_eq(b, a)` for proper values of any two types,
whatever the other types of the program look like, provided that walking over them meets no `StructValue`
that lists a name twice (`C15_repeated_name`), no map with a key type outside `K`, among which keys are found
by their `Value` (`C15_key_types`), and no struct variant with a skipped field before a reflected one
(`C15_gap_breaks`). Skipped fields of tuple structs and tuple variants can be anywhere. -/
theorem C15_reflect_eq_symm_local_partial {E : Env} (hD : DeclsOK E) (hO : OrdLaws E) {K : Ty → Prop}
    (hV : KeysByValue E K) {a b : Obj} (ha : Comparable E K a) (hb : Comparable E K b)
    (ga : a.VariantsGapless) (gb : b.VariantsGapless) : reflectEq E a b = reflectEq E b a := by
  have fa : Fair E K a := ⟨ha.1, ha.2.1, ha.2.2, ga⟩
  have fb : Fair E K b := ⟨hb.1, hb.2.1, hb.2.2, gb⟩
  obtain ⟨p, hp⟩ := Option.isSome_iff_exists.mp (reflectEq_total fa.ok fb.ok)
  obtain ⟨q, hq⟩ := Option.isSome_iff_exists.mp (reflectEq_total fb.ok fa.ok)
  have hpq : p = true → q = true := fun h => by
    subst h
    have := reflectEq_symm_fair hD hO hV fa fb hp
    rw [hq] at this; cases this; rfl
  have hqp : q = true → p = true := fun h => by
    subst h
    have := reflectEq_symm_fair hD hO hV fb fa hq
    rw [hp] at this; cases this; rfl
  rw [hp, hq]
  cases p <;> cases q <;> simp_all

/-- C16 (partial), value by value: if `a` equals `b` and `b` equals `c` then `a` equals `c`, for proper
values of any three types, provided that walking over the middle one meets no skipped field before a
reflected one (`C16_gap_breaks`), and that the keys of all maps have types in `K`. The outer two can have
skipped fields anywhere, and names can be repeated. -/
theorem C16_reflect_eq_trans_local_partial {E : Env} (hD : DeclsOK E) (hO : OrdLaws E) {K : Ty → Prop}
    (hV : KeysByValue E K) {S T U : Ty} {a b c : Obj} (ha : HasTy E S a) (hb : HasTy E T b)
    (hc : HasTy E U c) (ka : a.KeyTypes K) (kb : b.KeyTypes K) (kc : c.KeyTypes K) (hg : b.AllGapless)
    (h : reflectEq E a b = some true) (h' : reflectEq E b c = some true) : reflectEq E a c = some true :=
  reflectEq_trans_gapless hD hO hV ⟨⟨S, ha⟩, ka⟩ ⟨⟨T, hb⟩, kb⟩ ⟨⟨U, hc⟩, kc⟩ hg h h'

/-- C15 fails at every struct variant with a skipped field before a reflected one that equals its own
`Value`: there is a dynamic value to which it is equal and which is not equal to it. -/
theorem C15_gap_breaks {E : Env} (hD : DeclsOK E) (hO : OrdLaws E) {T : Ty} {x : Obj} (hx : HasTy E T x)
    (hk : x.variantKind = some .struct) (hg : ¬ x.Gapless)
    (h : reflectEq E x x.toValue.toObj = some true) :
    ∃ b, HasTy E .value b ∧ reflectEq E x b = some true ∧ reflectEq E b x = some false := by
  obtain ⟨v, hv, h1, h2⟩ := gap_breaks_symm hD hO ⟨T, hx⟩ hk hg h
  exact ⟨_, .value v _ hv rfl, h1, h2⟩

/-- C16 fails at every tuple struct and tuple variant with a skipped field before a reflected one that
equals its own `Value` and the other way around: it stands between two dynamic values that differ. -/
theorem C16_gap_breaks {E : Env} {T : Ty} {x : Obj} (hx : HasTy E T x)
    (hk : x.kind = .tupleStruct ∨ x.variantKind = some .tuple) (hg : ¬ x.Gapless)
    (h : reflectEq E x x.toValue.toObj = some true) (h' : reflectEq E x.toValue.toObj x = some true) :
    ∃ a c, HasTy E .value a ∧ HasTy E .value c ∧ reflectEq E a x = some true ∧
      reflectEq E x c = some true ∧ reflectEq E a c = some false := by
  obtain ⟨v, hv, h1, h2⟩ := gap_breaks_trans ⟨T, hx⟩ hk hg h
  exact ⟨_, _, .value _ _ hx.toValue_wf rfl, .value v _ hv rfl, h', h1, h2⟩

theorem bad3_everywhere {P : Obj → Prop} {a b : Int} (h : P (bad3 a b)) (ha : P (.scalar (.int .u8 a)))
    (hb : P (.scalar (.int .u8 b))) : (bad3 a b).Everywhere P := by
  refine .mk _ h ?_
  intro x hx
  simp [bad3, Obj.parts, visPos, Obj.isHidden, List.filter_cons] at hx
  rcases hx with rfl | rfl
  · exact everywhere_leaf ha rfl
  · exact everywhere_leaf hb rfl

/-- Non-vacuity of C15: `Bad3(_, 1, 2)` and `Bad3(_, 3, 4)`, which have a gap, compare alike in both orders,
in an environment that does not satisfy `SkipsLastAll`. -/
example : reflectEq gapEnv (bad3 1 2) (bad3 3 4) = reflectEq gapEnv (bad3 3 4) (bad3 1 2) := by
  have c : ∀ a b, Comparable gapEnv PlainKey (bad3 a b) := fun a b =>
    ⟨⟨_, gapBad3_hasTy a b⟩, by apply bad3_everywhere <;> simp [bad3], by apply bad3_everywhere <;> simp [bad3]⟩
  exact C15_reflect_eq_symm_local_partial gap_declsOK (valueOrdEnv_ordLaws _) (keysByValue_plain _) (c _ _)
    (c _ _) (by apply bad3_everywhere <;> simp [bad3, Obj.variantKind])
    (by apply bad3_everywhere <;> simp [bad3, Obj.variantKind])

/-- Non-vacuity of C16: `Bad3(_, 1, 2)` equals the tuple struct `(3, 4)`, which equals itself. -/
example : reflectEq gapEnv (bad3 1 2) (.tupleStruct .dyn [.scalar (.int .u8 3), .scalar (.int .u8 4)]) =
    some true := by
  have w : (Value.tupleStruct [.scalar (.int .u8 3), .scalar (.int .u8 4)]).WF := by
    refine .tupleStruct _ ?_
    intro v hv; simp at hv; rcases hv with rfl | rfl <;> exact .scalar _
  have e : (Value.tupleStruct [.scalar (.int .u8 3), .scalar (.int .u8 4)]).toObj =
      .tupleStruct .dyn [.scalar (.int .u8 3), .scalar (.int .u8 4)] := by simp [Value.toObj]
  have ev : ∀ {P : Obj → Prop}, P (.tupleStruct .dyn [.scalar (.int .u8 3), .scalar (.int .u8 4)]) →
      (∀ n, P (.scalar (.int .u8 n))) →
      (Obj.tupleStruct .dyn [.scalar (.int .u8 3), .scalar (.int .u8 4)]).Everywhere P := by
    intro P h hs
    refine .mk _ h ?_
    intro x hx
    simp [Obj.parts, visPos, Obj.isHidden, List.filter_cons] at hx
    rcases hx with rfl | rfl <;> exact everywhere_leaf (hs _) rfl
  have gl : (Obj.tupleStruct .dyn [.scalar (.int .u8 3), .scalar (.int .u8 4)]).AllGapless := by
    refine .mk _ ?_ ?_
    · intro i x hi j hj
      match i, j with
      | 0, 0 => simp [Obj.fieldAt, visAt, Obj.isHidden]
      | 1, 0 => simp [Obj.fieldAt, visAt, Obj.isHidden]
      | 1, 1 => simp [Obj.fieldAt, visAt, Obj.isHidden]
      | 0, j + 1 => omega
      | 1, j + 2 => omega
      | i + 2, _ => simp [Obj.fieldAt, visAt] at hi
    · intro x hx
      simp [Obj.walked, Obj.namedIter, Obj.posIter, Obj.entries, Obj.isHidden, List.takeWhile] at hx
      rcases hx with rfl | rfl <;> refine .mk _ (fun i x hi => by simp [Obj.fieldAt] at hi) fun x hx => by
        simp [Obj.walked, Obj.namedIter, Obj.posIter, Obj.entries] at hx
  have h1 : reflectEq gapEnv (bad3 1 2) (.tupleStruct .dyn [.scalar (.int .u8 3), .scalar (.int .u8 4)]) =
      some true := by
    rw [reflectEq_iff]
    exact ⟨rfl, (fun h => by cases h), rfl, rfl, rfl, by simp [bad3, Obj.asScalar],
      by simp [bad3, Obj.namedIter], by simp [Obj.posIter, bad3, Obj.isHidden],
      by simp [bad3, Obj.entries]⟩
  have h2 : reflectEq gapEnv (.tupleStruct .dyn [.scalar (.int .u8 3), .scalar (.int .u8 4)])
      (.tupleStruct .dyn [.scalar (.int .u8 3), .scalar (.int .u8 4)]) = some true := by
    rw [reflectEq_iff]
    refine ⟨rfl, (fun h => by cases h), rfl, rfl, rfl, by simp [Obj.asScalar], by simp [Obj.namedIter], ?_,
      by simp [Obj.entries]⟩
    intro i x y hx hy
    rw [hx] at hy; cases hy
    have := List.mem_of_getElem? hx
    simp [Obj.posIter, Obj.isHidden, List.takeWhile_cons] at this
    rcases this with rfl | rfl <;> (rw [reflectEq]; simp [Obj.asScalar, Scalar.eqv])
  refine C16_reflect_eq_trans_local_partial (E := gapEnv) gap_declsOK (valueOrdEnv_ordLaws _)
    (keysByValue_plain _) (gapBad3_hasTy 1 2) (.value _ _ w rfl) (.value _ _ w rfl)
    (by apply bad3_everywhere <;> simp [bad3]) (by rw [e]; apply ev <;> simp) (by rw [e]; apply ev <;> simp)
    (by rw [e]; exact gl) (by rw [e]; exact h1) (by rw [e]; exact h2) |> (e ▸ ·)

/-- Non-vacuity of `C15_gap_breaks` (`Gap::V { a: _, b: 7 }`) and `C16_gap_breaks` (`Bad3(_, 1, 2)`). -/
example : (∃ b, HasTy gapEnv .value b ∧ reflectEq gapEnv (gapV 7) b = some true ∧
      reflectEq gapEnv b (gapV 7) = some false) ∧
    (∃ a c, HasTy gapEnv .value a ∧ HasTy gapEnv .value c ∧ reflectEq gapEnv a (bad3 1 2) = some true ∧
      reflectEq gapEnv (bad3 1 2) c = some true ∧ reflectEq gapEnv a c = some false) := by
  constructor
  · refine C15_gap_breaks gap_declsOK (valueOrdEnv_ordLaws _) (gapV_hasTy 7) rfl (fun h => ?_) ?_
    · have := h 1 (.scalar (.int .u8 7)) rfl 0 (Nat.zero_le _)
      simp [gapV, Obj.fieldAt, visAt, Obj.isHidden] at this
    · rw [reflectEq_toValue_iff gap_declsOK (valueOrdEnv_ordLaws _) (valueOrdEnv_keysShown _) ⟨_, gapV_hasTy 7⟩]
      refine .mk _ ⟨fun s hs => by simp [gapV, Obj.asScalar] at hs, by simp [gapV]⟩ fun x hx => ?_
      simp [gapV, Obj.walked, Obj.namedIter, Obj.posIter, Obj.isHidden, Obj.entries, List.takeWhile] at hx
  · have e : (bad3 1 2).toValue.toObj = .tupleStruct .dyn [.scalar (.int .u8 1), .scalar (.int .u8 2)] := by
      simp [bad3, toValue_tupleStruct, visPos, Obj.toValue, Value.toObj, Obj.isHidden, List.filter_cons]
    refine C16_gap_breaks (gapBad3_hasTy 1 2) (.inl rfl) (fun h => ?_) ?_ ?_
    · have := h 1 (.scalar (.int .u8 1)) rfl 0 (Nat.zero_le _)
      simp [bad3, Obj.fieldAt, visAt, Obj.isHidden] at this
    · rw [e, reflectEq_iff]
      exact ⟨rfl, (fun h => by cases h), rfl, rfl, rfl, by simp [bad3, Obj.asScalar],
        by simp [bad3, Obj.namedIter], by simp [Obj.posIter, bad3, Obj.isHidden], by simp [bad3, Obj.entries]⟩
    · rw [e, reflectEq_iff]
      exact ⟨rfl, (fun h => by cases h), rfl, rfl, rfl, by simp [bad3, Obj.asScalar],
        by simp [bad3, Obj.namedIter], by simp [Obj.posIter, bad3, Obj.isHidden], by simp [bad3, Obj.entries]⟩

/-! ## C18 -/

/-- C18 (partial), value by value: on two values of the same type `reflect_eq` answers `Some(true)` exactly when
they agree in everything but skipped fields, whatever the other types of the program look like, provided
that the first contains no skipped field before a reflected one (`C18_gap_blind`), no map key with an array
(`C14_array_keys`) and neither a `StructValue` with a repeated name. -/
theorem C18_reflect_eq_decides_local_partial {E : Env} (hD : DeclsOK E) (hO : OrdLaws E) (hK : KeysShown E)
    {T : Ty} {x y : Obj} (hx : HasTy E T x) (hy : HasTy E T y) (nx : x.NamesNodup) (ny : y.NamesNodup)
    (ka : x.KeysArrayFree) (hg : x.Everywhere Obj.Gapless) :
    (Agree E x y → reflectEq E x y = some true) ∧ (¬ Agree E x y → reflectEq E x y = some false) := by
  have h := reflectEq_agree_gapless hD hO hK hx hy nx ny ka hg
  exact ⟨h.mpr, fun hn => eq_false_of (reflectEq_total ⟨T, hx⟩ ⟨T, hy⟩) fun h' => hn (h.mp h')⟩

/-- C18 fails at every gap: two values of a tuple struct, or of one tuple variant, that are the same up to
the first skipped field cannot be told apart by `reflect_eq`, in either position and against any value. -/
theorem C18_gap_blind {E : Env} (hD : DeclsOK E) {n : String} {x x' : Obj} (hx : HasTy E (.named n) x)
    (hx' : HasTy E (.named n) x') (hk : x.kind = .tupleStruct ∨ x.variantKind = some .tuple)
    (hn : x'.variantName = x.variantName) (h : ∀ i, x.Reaches i → x'.fieldAt i = x.fieldAt i) {T : Ty} {y : Obj}
    (hy : HasTy E T y) : reflectEq E x y = reflectEq E x' y ∧ reflectEq E y x = reflectEq E y x' :=
  gap_blind_pos hD hx hx' hk hn h ⟨T, hy⟩

/-- C18 fails at every gap of a struct variant: as the receiver of `reflect_eq`, what it holds after its
first skipped field makes no difference. -/
theorem C18_gap_blind_variant {E : Env} (hD : DeclsOK E) (hO : OrdLaws E) {n : String} {x x' : Obj}
    (hx : HasTy E (.named n) x) (hx' : HasTy E (.named n) x') (hk : x.variantKind = some .struct)
    (hn : x'.variantName = x.variantName) (h : ∀ i, x.Reaches i → x'.fieldAt i = x.fieldAt i) {T : Ty} {y : Obj}
    (hy : HasTy E T y) : reflectEq E x y = reflectEq E x' y :=
  gap_blind_named hD hO hx hx' hk hn h ⟨T, hy⟩

/-- Non-vacuity of C18 and its failures: `Bad3(_, 1, 2)` cannot be told from `Bad3(_, 3, 4)`, nor
`Gap::V { a: _, b: 7 }` from `Gap::V { a: _, b: 8 }`. -/
example : reflectEq gapEnv (bad3 1 2) (bad3 3 4) = reflectEq gapEnv (bad3 3 4) (bad3 3 4) ∧
    reflectEq gapEnv (gapV 7) (gapV 8) = reflectEq gapEnv (gapV 8) (gapV 8) := by
  constructor
  · refine (C18_gap_blind gap_declsOK (gapBad3_hasTy 1 2) (gapBad3_hasTy 3 4) (.inl rfl) rfl ?_
      (gapBad3_hasTy 3 4)).1
    intro i h
    have := h 0 (Nat.zero_le _)
    simp [bad3, Obj.fieldAt, visAt, Obj.isHidden] at this
  · refine C18_gap_blind_variant gap_declsOK (valueOrdEnv_ordLaws _) (gapV_hasTy 7) (gapV_hasTy 8) rfl rfl ?_
      (gapV_hasTy 8)
    intro i h
    have := h 0 (Nat.zero_le _)
    simp [gapV, Obj.fieldAt, visAt, Obj.isHidden] at this

/-- Non-vacuity of `C18_reflect_eq_decides_local_partial`, in an environment with gaps in other types. -/
example : reflectEq gapEnv (.tuple (.typed [.scalar .bool]) [.scalar (.bool true)])
    (.tuple (.typed [.scalar .bool]) [.scalar (.bool true)]) = some true := by
  have ev : ∀ {P : Obj → Prop}, P (.tuple (.typed [.scalar .bool]) [.scalar (.bool true)]) →
      P (.scalar (.bool true)) → (Obj.tuple (.typed [.scalar .bool]) [.scalar (.bool true)]).Everywhere P := by
    intro P h hs
    refine .mk _ h ?_
    intro x hx
    simp [Obj.parts, visPos, Obj.isHidden] at hx
    subst hx
    exact everywhere_leaf hs rfl
  have ht : HasTy gapEnv (.tuple [.scalar .bool]) (.tuple (.typed [.scalar .bool]) [.scalar (.bool true)]) := by
    refine .tuple _ _ rfl ?_
    intro i t x h1 h2
    match i with
    | 0 => simp at h1 h2; subst h1 h2; exact .scalar' rfl
    | i + 1 => simp at h1
  refine (C18_reflect_eq_decides_local_partial gap_declsOK (valueOrdEnv_ordLaws _) (valueOrdEnv_keysShown _) ht
    ht (by apply ev <;> simp) (by apply ev <;> simp) (by apply ev <;> simp) ?_).1 ?_
  · apply ev
    · intro i x hi j hj
      match i, j with
      | 0, 0 => simp [Obj.fieldAt, visAt, Obj.isHidden]
      | 0, j + 1 => omega
      | i + 1, _ => simp [Obj.fieldAt, visAt] at hi
    · intro i x hi; simp [Obj.fieldAt] at hi
  · refine .tuple _ _ _ rfl ?_
    intro i p q hp hq
    match i with
    | 0 => simp at hp hq; subst hp hq; exact .scalar _ _ rfl
    | i + 1 => simp at hp

end Mirror
