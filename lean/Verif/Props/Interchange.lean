import Verif.Lemmas.Interchange
import Verif.Lemmas.Demo
import Verif.Lemmas.TypeEq
import Verif.Props.RoundTrip
import Verif.Props.ReflectEq

set_option linter.unusedSimpArgs false

/-!
# C80: values and key paths that are `==` are interchangeable

`Value` has `==` so that it can be compared and be a key of a map, and `KeyPath` has `==` and `Hash` so that it can
be stored in a set. Whoever does that relies on equal things being treated alike: if `x.to_value() == y.to_value()`
then nothing in the crate that takes `x` does something else with `y`. For `Value`s themselves take `T` to be
`Value`; `==` of `Value` identifies all NaNs and the two zeros, so equal values need not be identical.
-/

namespace Mirror

variable {E : Env}

/-- C80: converting equal values to any type fails for both, or gives equal values. -/
theorem C80_from_reflect (hD : DeclsOK E) (hO : OrdLaws E) (hK : KeysShown E) {T : Ty} {x y : Obj}
    (hx : HasTy E T x) (hy : HasTy E T y) (h : SameShown x y) (U : Ty) :
    BothShow (fromReflect E U x) (fromReflect E U y) := by
  refine bothShow_of_rep ?_
  rw [← fromReflect_rep hO hK U ⟨T, hx⟩, h.rep hD hO hK hx hy, fromReflect_rep hO hK U ⟨T, hy⟩]

/-- C80: patching anything with equal values gives equal results. -/
theorem C80_patch_with (hD : DeclsOK E) (hO : OrdLaws E) (hK : KeysShown E) {T U : Ty} {x y z : Obj}
    (hx : HasTy E T x) (hy : HasTy E T y) (h : SameShown x y) (hz : HasTy E U z) :
    SameShown (patch E z x) (patch E z y) := by
  refine sameShown_of_rep ?_
  rw [← patch_rep hO hK ⟨U, hz⟩ ⟨T, hx⟩, h.rep hD hO hK hx hy, patch_rep hO hK ⟨U, hz⟩ ⟨T, hy⟩]

/-- C80: patching equal values with the same thing gives equal results. -/
theorem C80_patched (hD : DeclsOK E) (hO : OrdLaws E) (hK : KeysShown E) {T U : Ty} {x y v : Obj}
    (hx : HasTy E T x) (hy : HasTy E T y) (h : SameShown x y) (hv : HasTy E U v) :
    SameShown (patch E x v) (patch E y v) := by
  refine sameShown_of_rep ?_
  rw [← patch_rep hO hK ⟨T, hx⟩ ⟨U, hv⟩, h.rep hD hO hK hx hy, patch_rep hO hK ⟨T, hy⟩ ⟨U, hv⟩]

/-- C80: `reflect_eq` gives the same answer for equal values, on either side. -/
theorem C80_reflect_eq (hD : DeclsOK E) (hO : OrdLaws E) (hK : KeysShown E) {T U : Ty} {x y z : Obj}
    (hx : HasTy E T x) (hy : HasTy E T y) (h : SameShown x y) (hz : HasTy E U z) :
    reflectEq E x z = reflectEq E y z ∧ reflectEq E z x = reflectEq E z y := by
  have hr := h.rep hD hO hK hx hy
  constructor
  · rw [← reflectEq_rep hO hK ⟨T, hx⟩ ⟨U, hz⟩, hr, reflectEq_rep hO hK ⟨T, hy⟩ ⟨U, hz⟩]
  · rw [← reflectEq_rep hO hK ⟨U, hz⟩ ⟨T, hx⟩, hr, reflectEq_rep hO hK ⟨U, hz⟩ ⟨T, hy⟩]

/-- C80: so values with `x.to_value() == y.to_value()` are `reflect_eq`, unless `x` is not even `reflect_eq` to
itself (`EqualsItself`, see C14: a NaN, or a map with a key that contains an array). -/
theorem C80_eq_is_reflect_eq (hD : DeclsOK E) (hO : OrdLaws E) (hK : KeysShown E) {T : Ty} {x y : Obj}
    (hx : HasTy E T x) (hy : HasTy E T y) (h : SameShown x y) :
    (x.EqualsItself E → reflectEq E x y = some true) ∧ (¬ x.EqualsItself E → reflectEq E x y = some false) := by
  rw [← (C80_reflect_eq hD hO hK hx hy h hx).2]
  exact C14_reflect_eq_refl_exactly hD hO hK hx

/-- C80: the parts of equal values at a path are both missing, or equal. -/
theorem C80_at (hD : DeclsOK E) (hO : OrdLaws E) (hK : KeysShown E) {T : Ty} {x y : Obj} {p : KeyPath}
    (hx : HasTy E T x) (hy : HasTy E T y) (h : SameShown x y) (hp : p.WF) :
    BothShow (atPath E x p) (atPath E y p) := by
  refine bothShow_of_rep ?_
  rw [← atPath_rep hO hK ⟨T, hx⟩ hp, h.rep hD hO hK hx hy, atPath_rep hO hK ⟨T, hy⟩ hp]

/-- C80: `clone_reflect` of equal values panics for both, or gives equal values. -/
theorem C80_clone_reflect (hD : DeclsOK E) (hO : OrdLaws E) (hK : KeysShown E) {T : Ty} {x y : Obj}
    (hx : HasTy E T x) (hy : HasTy E T y) (h : SameShown x y) :
    BothShow (cloneReflect E x) (cloneReflect E y) := by
  refine bothShow_of_rep ?_
  rw [← cloneReflect_rep hO hK hx, h.rep hD hO hK hx hy, cloneReflect_rep hO hK hy]

/-- C80: a map finds and removes the very same entry under equal keys. -/
theorem C80_map_key (hD : DeclsOK E) (hO : OrdLaws E) (hK : KeysShown E) {T U : Ty} {x y m : Obj}
    (hx : HasTy E T x) (hy : HasTy E T y) (h : SameShown x y) (hm : HasTy E U m) :
    m.mapGet E x = m.mapGet E y ∧ m.mapGetMut E x = m.mapGetMut E y ∧ m.mapRemove E x = m.mapRemove E y := by
  have hr := h.rep hD hO hK hx hy
  exact ⟨mapGet_same hO hK ⟨U, hm⟩ ⟨T, hx⟩ ⟨T, hy⟩ hr, mapGetMut_same hO hK ⟨U, hm⟩ ⟨T, hx⟩ ⟨T, hy⟩ hr,
    mapRemove_same hO hK ⟨U, hm⟩ ⟨T, hx⟩ ⟨T, hy⟩ hr⟩

/-- C80: inserting equal values under equal keys gives back the very same old value and leaves equal maps. -/
theorem C80_map_insert (hD : DeclsOK E) (hO : OrdLaws E) (hK : KeysShown E) {T S U : Ty} {x y v w m : Obj}
    (hx : HasTy E T x) (hy : HasTy E T y) (h : SameShown x y) (hv : HasTy E S v) (hw : HasTy E S w)
    (h' : SameShown v w) (hm : HasTy E U m) :
    (m.mapInsert E x v).1 = (m.mapInsert E y w).1 ∧ SameShown (m.mapInsert E x v).2 (m.mapInsert E y w).2 := by
  have := mapInsert_same hO hK ⟨U, hm⟩ ⟨T, hx⟩ ⟨T, hy⟩ ⟨S, hv⟩ ⟨S, hw⟩ (h.rep hD hO hK hx hy) (h'.rep hD hO hK hv hw)
  exact ⟨this.1, sameShown_of_rep this.2⟩

/-! ## Key paths -/

/-- C80: `==` of key paths is an equivalence relation. -/
theorem C80_path_equivalence : (∀ p : KeyPath, p.beq p = true) ∧
    (∀ p q : KeyPath, p.beq q = true → q.beq p = true) ∧
    (∀ p q r : KeyPath, p.beq q = true → q.beq r = true → p.beq r = true) := by
  simp only [KeyPath.beq_iff]
  refine ⟨fun _ => trivial, fun _ _ h => h.symm, fun _ _ _ h h' => h.trans h'⟩

/-- C80: equal key paths have equal hashes: they write the same to the hasher. -/
theorem C80_path_hash : ∀ p q : KeyPath, p.beq q = true → p.hashFeed = q.hashFeed := by
  have key : ∀ k l : Key, k.beq l = true → k.hashFeed = l.hashFeed := by
    intro k l h
    cases k <;> cases l <;> simp only [Key.beq, beq_iff_eq, Bool.false_eq_true] at h
    · rw [h]
    · rw [h]
    · rw [Key.hashFeed, Key.hashFeed, Value.hash_of_beq _ _ h]
    · rw [h]
  have go : ∀ p q : List Key, KeyPath.beq p q = true → p.length = q.length ∧ p.map Key.hashFeed = q.map Key.hashFeed := by
    intro p
    induction p with
    | nil => intro q h; cases q <;> simp [KeyPath.beq] at h ⊢
    | cons k p ih =>
      intro q h
      cases q with
      | nil => simp [KeyPath.beq] at h
      | cons l q =>
        simp only [KeyPath.beq, Bool.and_eq_true] at h
        have := ih q h.2
        simp [this.1, this.2, key k l h.1]
  intro p q h
  rw [KeyPath.hashFeed, KeyPath.hashFeed, (go p q h).1, (go p q h).2]

/-- C80: two key paths write the same to the hasher, whatever is written after them, exactly if they are
equal. -/
theorem C80_path_hash_iff : ∀ (p q : KeyPath) (r s : List HTok),
    p.hashFeed ++ r = q.hashFeed ++ s ↔ p.beq q = true ∧ r = s := by
  have key : ∀ (k l : Key) (r s : List HTok), k.hashFeed ++ r = l.hashFeed ++ s ↔ k.beq l = true ∧ r = s := by
    intro k l r s
    cases k <;> cases l <;> simp [Key.hashFeed, Key.beq]
    · exact fun _ => Int.ofNat_inj
    · exact Splits.value.free _ _ r s
  have go : ∀ (p q : List Key) (r s : List HTok), p.length = q.length →
      ((p.map Key.hashFeed).flatten ++ r = (q.map Key.hashFeed).flatten ++ s ↔ KeyPath.beq p q = true ∧ r = s) := by
    intro p
    induction p with
    | nil => intro q r s h; cases q with
      | nil => simp [KeyPath.beq]
      | cons l q => cases h
    | cons k p ih =>
      intro q r s h
      cases q with
      | nil => cases h
      | cons l q =>
        simp only [List.map_cons, List.flatten_cons, List.append_assoc, KeyPath.beq, Bool.and_eq_true]
        rw [key, ih q r s (by simpa using h), and_assoc]
  have len : ∀ p q : List Key, KeyPath.beq p q = true → p.length = q.length := by
    intro p
    induction p with
    | nil => intro q h; cases q <;> simp [KeyPath.beq] at h ⊢
    | cons k p ih =>
      intro q h
      cases q with
      | nil => simp [KeyPath.beq] at h
      | cons l q =>
        simp only [KeyPath.beq, Bool.and_eq_true] at h
        simp [ih q h.2]
  intro p q r s
  simp only [KeyPath.hashFeed, List.cons_append, List.cons.injEq, HTok.len.injEq]
  constructor
  · rintro ⟨h1, h2⟩
    exact (go p q r s h1).mp h2
  · rintro ⟨h1, rfl⟩
    exact ⟨len p q h1, (go p q r r (len p q h1)).mpr ⟨h1, rfl⟩⟩

/-- C80: equal key paths lead to the very same part, for reading and for writing. -/
theorem C80_at_path (hO : OrdLaws E) (hK : KeysShown E) {T : Ty} {x : Obj} {p q : KeyPath}
    (hx : HasTy E T x) (hp : p.WF) (hq : q.WF) (h : p.beq q = true) :
    atPath E x p = atPath E x q ∧ atMutPath E x p = atMutPath E x q := by
  rw [KeyPath.beq_iff] at h
  constructor
  · rw [atPath, atPath, canon_isEmpty h]
    split
    · rfl
    · exact atGo_same hO hK ⟨T, hx⟩ hp hq h
  · rw [atMutPath, atMutPath, canon_isEmpty h]
    split
    · rfl
    · exact atMutGo_same hO hK ⟨T, hx⟩ hp hq h

/-- C80: and to the very same place in a type descriptor. -/
theorem C80_type_at_path (d : TypeDescriptor) {p q : KeyPath} (h : p.beq q = true) : d.typeAt p = d.typeAt q := by
  rw [KeyPath.beq_iff] at h
  simp only [TypeDescriptor.typeAt, TypeAt.typeAt, canon_isEmpty h, typeAtGo_same d.graph h]

/-! ## The order of the keys matters -/

/-- C80 needs key types whose `Ord` does not tell apart what `==` of `Value` identifies (`KeysShown`). With a key
type ordered by the bits of a float (`fineEnv`), the map `{K(0.0): true}` has an entry under `K(0.0)` and none
under the equal `K(-0.0)`. -/
theorem C80_fine_key_order : DeclsOK fineEnv ∧ OrdLaws fineEnv ∧ ∃ (T U : Ty) (x y m : Obj), HasTy fineEnv T x ∧
    HasTy fineEnv T y ∧ SameShown x y ∧ HasTy fineEnv U m ∧ (m.mapGet fineEnv x).isSome = true ∧
    m.mapGet fineEnv y = none := by
  have key : ∀ b, HasTy fineEnv (.named "K") (.tupleStruct (.derived "K") [.scalar (.f32 b)]) := by
    intro b
    refine .tupleStruct "K" _ false _ rfl rfl ?_ ?_
    · intro i fd p hfd hp hs
      match i with
      | 0 => simp at hfd; subst hfd; simp at hs
      | i + 1 => simp at hfd
    · intro i fd p hfd hp hs
      match i with
      | 0 => simp at hfd hp; subst hfd hp; exact .scalar' rfl
      | i + 1 => simp at hfd
  have hd : fineEnv.decl "K" = some ⟨.tupleStruct [⟨"", .scalar .f32, false⟩], false⟩ := rfl
  have conv : ∀ b, fromReflect fineEnv (.named "K") (.tupleStruct (.derived "K") [.scalar (.f32 b)]) =
      some (.tupleStruct (.derived "K") [.scalar (.f32 b)]) := by
    intro b
    simp [fromReflect_tupleStruct hd, Obj.kind, convPos, convField, Obj.fieldAt, visAt, optAll, Obj.isHidden, Obj.isTy,
      Obj.typeOf, Scalar.kind, fromReflect_scalar]
  refine ⟨⟨?_, ?_, ?_⟩, fineEnv_ordLaws, .named "K", .map (.named "K") (.scalar .bool),
    .tupleStruct (.derived "K") [.scalar (.f32 0#32)], .tupleStruct (.derived "K") [.scalar (.f32 0x80000000#32)],
    .map (.named "K") (.scalar .bool) [(.tupleStruct (.derived "K") [.scalar (.f32 0#32)], .scalar (.bool true))],
    key _, key _, ?_, ?_, ?_, ?_⟩
  · intro n fds c h; simp only [fineEnv] at h; split at h <;> simp at h
  · intro n fds c h; simp only [fineEnv] at h; split at h <;> simp at h
  · intro n vds c vn fds h; simp only [fineEnv] at h; split at h <;> simp at h
  · simp [SameShown, Obj.toValue, Obj.isHidden, Value.beq, Value.beqList, Scalar.ordEq]; decide
  · refine .map _ _ _ (by simp [BMSorted]) ?_ ?_
    · intro p hp; simp at hp; subst hp; exact key _
    · intro p hp; simp at hp; subst hp; exact .scalar' rfl
  · rw [Obj.mapGet, conv, Option.bind_some]
    simp [bmGet, fineEnv]
  · rw [Obj.mapGet, conv, Option.bind_some]
    simp [bmGet, fineEnv, bitsOf]

/-! ## Non-vacuity -/

/-- `{0.0: [NaN]}`. -/
def demoZero : Value := .map [(.scalar (.f32 0#32), .list [.scalar (.f32 0x7FC00000#32)])]

/-- `{-0.0: [NaN]}`, with another NaN. -/
def demoMinusZero : Value := .map [(.scalar (.f32 0x80000000#32), .list [.scalar (.f32 0xFF800001#32)])]

theorem demoZero_wf : demoZero.WF := by
  refine .map _ (by simp [BMSorted]) ?_ ?_
  · intro p hp; simp at hp; subst hp; exact .scalar _
  · intro p hp; simp at hp; subst hp; exact .list _ fun x hx => by simp at hx; subst hx; exact .scalar _

theorem demoMinusZero_wf : demoMinusZero.WF := by
  refine .map _ (by simp [BMSorted]) ?_ ?_
  · intro p hp; simp at hp; subst hp; exact .scalar _
  · intro p hp; simp at hp; subst hp; exact .list _ fun x hx => by simp at hx; subst hx; exact .scalar _

theorem demoZero_same : Value.beq demoZero demoMinusZero = true := by
  simp [demoZero, demoMinusZero, Value.beq, Value.beqPairs, Value.beqList, Scalar.ordEq]; decide

/-- The hypotheses of C80 are met by different values, and the conversion to `BTreeMap<Value, Vec<f32>>` succeeds
for both. -/
example : HasTy demoEnv .value demoZero.toObj ∧ HasTy demoEnv .value demoMinusZero.toObj ∧
    SameShown demoZero.toObj demoMinusZero.toObj ∧ demoZero.toObj ≠ demoMinusZero.toObj ∧
    (fromReflect demoEnv (.map .value (.vec (.scalar .f32))) demoZero.toObj).isSome = true := by
  refine ⟨.value _ _ demoZero_wf rfl, .value _ _ demoMinusZero_wf rfl, ?_, ?_, ?_⟩
  · rw [SameShown, Value.toObj_toValue demoZero_wf, Value.toObj_toValue demoMinusZero_wf]; exact demoZero_same
  · simp [demoZero, demoMinusZero, Value.toObj]
  · simp [demoZero, Value.toObj, fromReflect_map, fromReflect_value, fromReflect_vec, fromReflect_scalar, optAll,
      Obj.isTy, Obj.typeOf, Scalar.kind]

/-- Two equal key paths that are not identical, and a map in which both lead to the same part. -/
example : KeyPath.beq [.get (.scalar (.f32 0#32))] [.get (.scalar (.f32 0x80000000#32))] = true ∧
    (atPath demoEnv demoZero.toObj [.get (.scalar (.f32 0x80000000#32))]).isSome = true := by
  have e : KeyPath.beq [.get (.scalar (.f32 0#32))] [.get (.scalar (.f32 0x80000000#32))] = true := by
    simp [KeyPath.beq, Key.beq, Value.beq, Scalar.ordEq]; decide
  refine ⟨e, ?_⟩
  have w : ∀ b, KeyPath.WF [.get (.scalar (.f32 b))] := fun b v hv => by
    simp only [List.mem_singleton, Key.get.injEq] at hv; subst hv; exact .scalar _
  rw [← (C80_at_path demo_ordLaws demo_keysShown (.value _ _ demoZero_wf rfl) (w _) (w _) e).1]
  simp [atPath, KeyPath.isEmpty, atGo, Obj.atKey, demoZero, Value.toObj, Obj.kind, Obj.mapGet, fromReflect_value, bmGet,
    demoEnv, valueOrdEnv, Obj.toValue, Value.cmp_self]

/-- And two paths that are not equal: the length matters, and so does the kind of a number. -/
example : KeyPath.beq [.named "a"] [.named "a", .numbered 0] = false ∧
    KeyPath.beq [.get (.scalar (.int .u8 1))] [.get (.scalar (.int .i32 1))] = false := by
  simp [KeyPath.beq, Key.beq, Value.beq, Scalar.ordEq]

end Mirror
