import Verif.Lemmas.Access
import Verif.Lemmas.Demo
import Verif.Props.RoundTrip
import Verif.Props.Patch

set_option linter.unusedSimpArgs false

/-!
# Views and downcasts (C45), `NonZero` integers (C46), `get_field` (C47)
-/

namespace Mirror

variable {E : Env}

/-! ## C45 -/

/-- C45, `reflect_ref` and `reflect_owned`: for a value of type `t` exactly one accessor gives something,
in both, and it is one for a kind that `t` has. -/
theorem views_exclusive {t : Ty} {o : Obj} (h : HasTy E t o) :
    ∃ k, t.HasKind E k ∧ o.reflectRef.Only k ∧ o.reflectOwned.Only k :=
  ⟨o.kind, h.kind, o.reflectRef_only, by rw [o.reflectOwned_eq]; exact o.reflectRef_only⟩

/-- A type other than `Value` has one kind only, so values of the same type are of the same kind. -/
theorem kind_unique {t : Ty} {k k' : Kind} (hv : ∀ u, (∃ n, t = Nat.repeat Ty.box n u) → u ≠ .value)
    (h : t.HasKind E k) (h' : t.HasKind E k') : k = k' := by
  induction h with
  | struct n fds c hd | tupleStruct n fds c hd | enum n fds c hd =>
    cases h' <;> first | rfl | (rename_i hd'; rw [hd] at hd'; cases hd')
  | box t k _ ih =>
    cases h' with
    | box _ _ h' =>
      refine ih (fun u hu => hv u ?_) h'
      obtain ⟨n, rfl⟩ := hu
      exact ⟨n + 1, rfl⟩
  | value => exact absurd rfl (hv .value ⟨0, rfl⟩)
  | _ => cases h'; rfl

/-- The view gives access to the object itself; only for `NonZero` integers it is to a plain integer of the
same width and value. -/
theorem views_as_reflect (o : Obj) :
    o.reflectRef.asReflect = o ∨
      ∃ k n, o = .nonzero k n ∧ o.reflectRef.asReflect = .scalar (.int k n) := by
  cases o <;> first
    | exact .inl rfl
    | exact .inr ⟨_, _, rfl, rfl⟩

/-- C45, `reflect_mut`: it agrees with `reflect_ref`. Missing for the full property: `NonZero` integers, for
which it does not (`nonzero_views_disagree`). -/
theorem reflect_mut_agrees_partial {t : Ty} {o : Obj} (h : HasTy E t o)
    (hn : ∀ k n, o ≠ .nonzero k n) :
    (∃ k, t.HasKind E k ∧ o.reflectMut.Only k ∧ o.reflectRef.Only k) ∧ o.reflectMut.asReflect = o := by
  rw [o.reflectMut_eq hn]
  refine ⟨⟨o.kind, h.kind, o.reflectRef_only, o.reflectRef_only⟩, ?_⟩
  rcases views_as_reflect o with h | ⟨k, n, rfl, _⟩
  · exact h
  · exact absurd rfl (hn k n)

/-- C45 fails for all `NonZero` integers: a scalar to `reflect_ref`, opaque to `reflect_mut`. -/
theorem nonzero_views_disagree (k : IntKind) (n : Int) :
    (Obj.nonzero k n).reflectRef.Only .scalar ∧ (Obj.nonzero k n).reflectMut.Only .opaque := by
  simp [View.Only, Obj.reflectRef, Obj.reflectMut, View.asStruct, View.asTupleStruct, View.asTuple,
    View.asEnum, View.asArray, View.asList, View.asMap, View.asScalar, View.asOpaque]

/-- C45, downcasts, exactly: a reference to a value of the Rust type `s` downcasts to the type it shows, as
itself, and to no other type. It shows the type of the content, except for a `Value` that holds a struct or an
enum. -/
theorem downcast_exact (hO : OrdLaws E) {s t : Ty} {o y : Obj} (h : HasTy E s o) :
    o.downcast s t = some y ↔ y = o ∧ Reveals E s.Bare t o := by
  rw [downcast_iff, anyTy_iff hO ⟨s, h⟩]

/-- C45, downcasts: a value of type `t` downcasts to `t`, as itself, and to no other type. Missing for the
full property: `t` being `Value` or a `Box`, which no downcast can reveal (`downcast_value_never`). -/
theorem downcast_exact_partial {t u : Ty} {o y : Obj} (h : HasTy E t o) (hc : t.Concrete) :
    o.downcast t u = some y ↔ u = t ∧ y = o := by
  have ht := h.typeOf_concrete hc
  rw [downcast_iff, anyTy_typeOf ht, ht]
  simp only [Option.some.injEq]
  exact ⟨fun ⟨a, b⟩ => ⟨b.symm, a⟩, fun ⟨a, b⟩ => ⟨b, a.symm⟩⟩

/-- What a downcast gives is of the type asked for, whatever the static type of the value. -/
theorem downcast_sound (hO : OrdLaws E) {s u : Ty} {o y : Obj} (h : HasTy E s o)
    (hd : o.downcast s u = some y) : HasTy E u y := by
  obtain ⟨rfl, hs⟩ := (downcast_exact hO h).mp hd
  cases hs with
  | content _ _ ht => exact ht
  | struct _ _ ht => exact .box _ _ ht
  | enum _ _ ht => exact .box _ _ ht

/-- C45 fails for `Value` and `Box<T>`: even a value that is one does not downcast to it. `Box<StructValue>`
and `Box<EnumValue>` are left out; values that were never given as one do downcast to these
(`downcast_value_box`). -/
theorem downcast_value_never (hO : OrdLaws E) {s : Ty} {o : Obj} (h : HasTy E s o) :
    o.downcast s .value = none ∧
    ∀ t, t ≠ .structValue → t ≠ .enumValue → o.downcast s (.box t) = none := by
  constructor
  · cases hd : o.downcast s .value with
    | none => rfl
    | some y =>
      cases ((downcast_exact hO h).mp hd).2 with
      | content _ _ _ hc => exact hc.elim
  · intro t h1 h2
    cases hd : o.downcast s (.box t) with
    | none => rfl
    | some y =>
      cases ((downcast_exact hO h).mp hd).2 with
      | content _ _ _ hc => exact hc.elim
      | struct => exact absurd rfl h1
      | enum => exact absurd rfl h2

/-- C45 fails for every `Value` holding a struct or an enum: it does not downcast to `StructValue`, or
`EnumValue`, which it holds, but to a `Box` of it. What `as_reflect` makes of the same `Value` does the
opposite. -/
theorem downcast_value_box (hO : OrdLaws E) {o : Obj} {u : Ty} (hu : u = .structValue ∨ u = .enumValue)
    (h : HasTy E .value o) (ht : HasTy E u o) :
    o.downcast .value u = none ∧ o.downcast .value (.box u) = some o ∧
    ∃ s, o.reflTy .value = some s ∧ o.downcast s u = some o ∧ o.downcast s (.box u) = none := by
  have hc : u.Concrete := by rcases hu with rfl | rfl <;> trivial
  have hty := ht.typeOf_concrete hc
  have hr : o.reflTy .value = some (.box u) := by
    rw [Obj.reflTy, hty]; rcases hu with rfl | rfl <;> rfl
  have ha : o.anyTy .value = some (.box u) := by
    rw [Obj.anyTy, hty]; rcases hu with rfl | rfl <;> rfl
  have hb := anyTy_reflTy o .value hr
  refine ⟨?_, downcast_iff.mpr ⟨rfl, ha⟩, .box u, hr, downcast_iff.mpr ⟨rfl, hb.trans hty⟩, ?_⟩
  · cases hd : o.downcast .value u with
    | none => rfl
    | some y =>
      have := (downcast_iff.mp hd).2
      rw [ha] at this; rcases hu with rfl | rfl <;> cases this
  · cases hd : o.downcast (.box u) (.box u) with
    | none => rfl
    | some y =>
      have := (downcast_iff.mp hd).2
      rw [hb, hty] at this; rcases hu with rfl | rfl <;> cases this

/-! ## C46 -/

/-- C46: nothing that `from_reflect` produces contains a zero in a `NonZero` integer. -/
theorem from_reflect_nonzero (hO : OrdLaws E) {S T : Ty} {v y : Obj} (hv : HasTy E S v)
    (h : fromReflect E T v = some y) : y.NoZero :=
  OK.noZero ⟨T, C05_from_reflect_sound hO hv h⟩

/-- C46: nor does anything that `patch` leaves behind. -/
theorem patch_nonzero_kept (hO : OrdLaws E) {S T : Ty} {x v : Obj} (hx : HasTy E T x) (hv : HasTy E S v) :
    (patch E x v).NoZero :=
  OK.noZero ⟨T, C07_patch_keeps_type hO hx hv⟩

/-- C46: a `NonZero` integer converts from exactly the non-zero integers of the same width. -/
theorem nonzero_from_reflect_iff {S : Ty} {k : IntKind} {v y : Obj} (hv : HasTy E S v) :
    fromReflect E (.nonzero k) v = some y ↔
      ∃ n, n ≠ 0 ∧ y = .nonzero k n ∧ (v = .nonzero k n ∨ v = .scalar (.int k n)) := by
  have hz := OK.noZero ⟨S, hv⟩
  rw [fromReflect_nonzero]
  by_cases ht : v.isTy (.nonzero k) = true
  · rw [if_pos ht]
    have ht' : v.typeOf = some (.nonzero k) := by simpa [Obj.isTy] using ht
    have : ∃ n, v = .nonzero k n := by
      cases v with
      | nonzero k' n => simp [Obj.typeOf] at ht'; subst ht'; exact ⟨n, rfl⟩
      | struct tag | tupleStruct tag | tuple tag | enumS tag | enumT tag | enumU tag =>
        cases tag <;> simp [Obj.typeOf] at ht'
      | _ => simp [Obj.typeOf] at ht'
    obtain ⟨n, rfl⟩ := this
    have hn : n ≠ 0 := by cases hz with | mk _ h _ => exact h k n rfl
    constructor
    · intro h; cases h; exact ⟨n, hn, rfl, .inl rfl⟩
    · rintro ⟨m, _, rfl, h | h⟩ <;> cases h; rfl
  · rw [if_neg ht]
    constructor
    · intro h
      split at h
      · rename_i k' n
        split at h
        · rename_i hk
          obtain ⟨rfl, hn⟩ := hk
          cases h
          exact ⟨n, hn, rfl, .inr rfl⟩
        · cases h
      · cases h
    · rintro ⟨n, hn, rfl, rfl | rfl⟩
      · simp [Obj.isTy, Obj.typeOf] at ht
      · simp [hn]

/-- C46: patching a `NonZero` integer with a non-zero integer of the same width sets it, with anything
else, in particular with zero, leaves the old value. -/
theorem nonzero_patch {S : Ty} {k : IntKind} {n : Int} {v : Obj} (hv : HasTy E S v) :
    (∀ m, m ≠ 0 → v = .nonzero k m ∨ v = .scalar (.int k m) →
      patch E (.nonzero k n) v = .nonzero k m) ∧
    ((∀ m, m ≠ 0 → v ≠ .nonzero k m ∧ v ≠ .scalar (.int k m)) →
      patch E (.nonzero k n) v = .nonzero k n) := by
  rw [patch_nonzero]
  constructor
  · intro m hm h
    rw [(nonzero_from_reflect_iff hv).mpr ⟨m, hm, rfl, h⟩]; rfl
  · intro h
    cases hf : fromReflect E (.nonzero k) v with
    | none => rfl
    | some y =>
      obtain ⟨m, hm, _, h' | h'⟩ := (nonzero_from_reflect_iff hv).mp hf
      · exact absurd h' (h m hm).1
      · exact absurd h' (h m hm).2

/-! ## C47 -/

/-- C47, structs and enums with a name, exactly: `get_field` gives the field of that name if the type asked
for is the one it shows, and nothing otherwise. -/
theorem get_field_named (hD : DeclsOK E) (hO : OrdLaws E) {S t : Ty} {o y : Obj} {n : String}
    (h : HasTy E S o) :
    getNamed E o n t = some y ↔ FieldNamed o n y ∧ Reveals E (BareKey E o (.named n)) t y := by
  unfold getNamed
  rw [downcast_bind (P := Reveals E (BareKey E o (.named n)) t) fun x hx => fieldRefTy_shows hD hO h hx t,
    h.field_iff hD]

/-- C47, tuple structs, tuples, enums, arrays and lists with an index. -/
theorem get_field_indexed (hD : DeclsOK E) (hO : OrdLaws E) {S t : Ty} {o y : Obj} {i : Nat}
    (h : HasTy E S o) (hk : o.kind ≠ .struct) :
    getIndexed o i t = some y ↔ FieldAt o i y ∧ Reveals E (BareKey E o (.numbered i)) t y := by
  unfold getIndexed
  rw [downcast_bind (P := Reveals E (BareKey E o (.numbered i)) t)
    fun x hx => fieldAtRefTy_shows hO h hx hk t, h.fieldAt_iff hD hk]

/-- C47, maps: `get_field` gives the value at that key if it is of the type asked for. -/
theorem get_field_entry (hO : OrdLaws E) {S K t : Ty} {o k y : Obj} (h : HasTy E S o) (hk : HasTy E K k) :
    getEntry E o k t = some y ↔ EntryAt E o k y ∧ HasTy E t y ∧ t.Concrete := by
  unfold getEntry
  rw [downcast_bind (P := Reveals E False t) fun x hx => plain_shows hO (OK_mapGet ⟨S, h⟩ hx) id t,
    h.mapGet_entry hO hk, shows_not id]

/-- C47: for a type other than `StructValue`, `EnumValue`, `Value` and boxes, what is shown is just what is
there. -/
theorem shows_plain {p : Prop} {t : Ty} {y : Obj} (hc : t.Concrete) (h1 : t ≠ .structValue)
    (h2 : t ≠ .enumValue) : Reveals E p t y ↔ HasTy E t y := by
  constructor
  · intro h; cases h with
    | content _ _ ht => exact ht
    | struct => exact hc.elim
    | enum => exact hc.elim
  · exact fun h => .content _ _ h hc fun _ => ⟨h1, h2⟩

/-- C47, in the words of the property: `get_field` gives exactly the field of the given name, index or key
if it is of the type asked for. Missing for the full property: `StructValue` and `EnumValue`
(`get_field_struct_value_misses`), `Value` and boxes. -/
theorem get_field_partial (hD : DeclsOK E) (hO : OrdLaws E) {S t : Ty} {o y : Obj} (h : HasTy E S o)
    (hc : t.Concrete) (h1 : t ≠ .structValue) (h2 : t ≠ .enumValue) :
    (∀ n, getNamed E o n t = some y ↔ FieldNamed o n y ∧ HasTy E t y) ∧
    (∀ i, o.kind ≠ .struct → (getIndexed o i t = some y ↔ FieldAt o i y ∧ HasTy E t y)) ∧
    (∀ K k, HasTy E K k → (getEntry E o k t = some y ↔ EntryAt E o k y ∧ HasTy E t y)) := by
  refine ⟨fun n => ?_, fun i hk => ?_, fun K k hk => ?_⟩
  · rw [get_field_named hD hO h, shows_plain hc h1 h2]
  · rw [get_field_indexed hD hO h hk, shows_plain hc h1 h2]
  · rw [get_field_entry hO h hk]; simp [hc]

/-- C47 fails for every struct and enum in a field of a `StructValue`, in a field of a derived struct declared
as `Value`, and in such an element of a tuple: `get_field` does not give it as the `StructValue` or `EnumValue`
that it is, but as a `Box`. -/
theorem get_field_struct_value_misses (hD : DeclsOK E) (hO : OrdLaws E) {S u : Ty} {o y : Obj}
    (hu : u = .structValue ∨ u = .enumValue) (h : HasTy E S o) (ht : HasTy E u y) :
    (∀ n, BareKey E o (.named n) → FieldNamed o n y →
      getNamed E o n u = none ∧ getNamed E o n (.box u) = some y) ∧
    (∀ i, BareKey E o (.numbered i) → FieldAt o i y →
      getIndexed o i u = none ∧ getIndexed o i (.box u) = some y) := by
  have no : ∀ {p : Prop} {z : Obj}, p → ¬Reveals E p u z := by
    intro p z hp hs
    rcases hu with rfl | rfl
    · cases hs with | content _ _ _ _ hn => exact (hn hp).1 rfl
    · cases hs with | content _ _ _ _ hn => exact (hn hp).2 rfl
  have yes : ∀ {p : Prop}, p → Reveals E p (.box u) y := by
    intro p hp
    rcases hu with rfl | rfl
    · exact .struct _ hp ht
    · exact .enum _ hp ht
  refine ⟨fun n hb hf => ⟨?_, (get_field_named hD hO h).mpr ⟨hf, yes hb⟩⟩, fun i hb hf => ?_⟩
  · cases hg : getNamed E o n u with
    | none => rfl
    | some z => exact absurd ((get_field_named hD hO h).mp hg).2 (no hb)
  · have hk : o.kind ≠ .struct := by cases hf <;> simp [Obj.kind]
    refine ⟨?_, (get_field_indexed hD hO h hk).mpr ⟨hf, yes hb⟩⟩
    cases hg : getIndexed o i u with
    | none => rfl
    | some z => exact absurd ((get_field_indexed hD hO h hk).mp hg).2 (no hb)

/-- C47, a value of unknown kind with a `&str`: the field of a struct or enum, or the entry of a map. -/
theorem get_field_value_str (hD : DeclsOK E) (hO : OrdLaws E) {S t : Ty} {o y : Obj} {n : String}
    (h : HasTy E S o) :
    valueGetStr E o n t = some y ↔
      (FieldNamed o n y ∧ Reveals E (BareKey E o (.named n)) t y) ∨
        (EntryAt E o (.scalar (.string n)) y ∧ HasTy E t y ∧ t.Concrete) := by
  have hk : HasTy E (.scalar .string) (.scalar (.string n)) := .scalar' rfl
  have hA := get_field_named hD hO (n := n) (t := t) (y := y) h
  have hB := get_field_entry hO (t := t) (y := y) h hk
  cases o <;> simp only [valueGetStr, Obj.reflectRef, getEntryStr, hA, hB] <;> constructor <;>
    first
    | (rintro ⟨a, b⟩; first | exact .inl ⟨a, b⟩ | exact .inr ⟨a, b⟩)
    | (rintro (⟨a, b⟩ | ⟨a, b⟩) <;> first | exact ⟨a, b⟩ | cases a)
    | (intro h; cases h)

/-- C47, a value of unknown kind with an index. -/
theorem get_field_value_usize (hD : DeclsOK E) (hO : OrdLaws E) {S t : Ty} {o y : Obj} {i : Nat}
    (h : HasTy E S o) :
    valueGetKey E o (.scalar (.int .usize i)) t = some y ↔
      (FieldAt o i y ∧ Reveals E (BareKey E o (.numbered i)) t y) ∨
        (EntryAt E o (.scalar (.int .usize i)) y ∧ HasTy E t y ∧ t.Concrete) := by
  have hk : HasTy E (.scalar (.int .usize)) (.scalar (.int .usize i)) := .scalar' rfl
  have hA := get_field_indexed hD hO (i := i) (t := t) (y := y) h
  have hB := get_field_entry hO (t := t) (y := y) h hk
  cases o <;> simp only [valueGetKey, Obj.asUsize, Int.toNat_natCast, Obj.reflectRef, hB] <;>
    first
    | (rw [hA (by simp [Obj.kind])]; constructor <;>
        first
        | (rintro ⟨a, b⟩; exact .inl ⟨a, b⟩)
        | (rintro (⟨a, b⟩ | ⟨a, b⟩) <;> first | exact ⟨a, b⟩ | cases a))
    | (constructor <;>
        first
        | (rintro ⟨a, b⟩; exact .inr ⟨a, b⟩)
        | (rintro (⟨a, b⟩ | ⟨a, b⟩) <;> first | exact ⟨a, b⟩ | cases a)
        | (intro h; cases h))

/-- C47, a value of unknown kind with a `String`: the field of a struct or the entry of a map. -/
theorem get_field_value_string (hD : DeclsOK E) (hO : OrdLaws E) {S t : Ty} {o y : Obj} {n : String}
    (h : HasTy E S o) :
    valueGetKey E o (.scalar (.string n)) t = some y ↔
      (o.kind ≠ .enum ∧ FieldNamed o n y ∧ Reveals E (BareKey E o (.named n)) t y) ∨
        (EntryAt E o (.scalar (.string n)) y ∧ HasTy E t y ∧ t.Concrete) := by
  have hk : HasTy E (.scalar .string) (.scalar (.string n)) := .scalar' rfl
  have hA := get_field_named hD hO (n := n) (t := t) (y := y) h
  have hB := get_field_entry hO (t := t) (y := y) h hk
  cases o <;>
    simp only [valueGetKey, Obj.asUsize, Obj.asString, Obj.reflectRef, getEntryStr, hA, hB] <;>
    constructor <;>
    first
    | (rintro ⟨a, b⟩; first | exact .inl ⟨by simp [Obj.kind], a, b⟩ | exact .inr ⟨a, b⟩)
    | (rintro (⟨c, a, b⟩ | ⟨a, b⟩) <;> first | exact ⟨a, b⟩ | exact absurd rfl c | cases a)
    | (intro h; cases h)

/-- C47, a value of unknown kind with any other key: the entry of a map. -/
theorem get_field_value_other (hO : OrdLaws E) {S K t : Ty} {o k y : Obj}
    (h : HasTy E S o) (hk : HasTy E K k) (h1 : ∀ n, k ≠ .scalar (.int .usize n))
    (h2 : ∀ s, k ≠ .scalar (.string s)) :
    valueGetKey E o k t = some y ↔ EntryAt E o k y ∧ HasTy E t y ∧ t.Concrete := by
  have hB := get_field_entry hO (t := t) (y := y) h hk
  have e1 : k.asUsize = none := by
    unfold Obj.asUsize; split
    · exact absurd rfl (h1 _)
    · rfl
  have e2 : k.asString = none := by
    unfold Obj.asString; split
    · exact absurd rfl (h2 _)
    · rfl
  cases o <;> simp only [valueGetKey, e1, e2, Obj.reflectRef, hB] <;> constructor <;>
    first
    | exact id
    | (rintro ⟨a, b⟩; cases a)
    | (intro h; cases h)

/-- C47: `&str` and `String` keys agree. Missing for the full property: enums, where they never agree on a
field (`get_field_enum_string_misses`). -/
theorem get_field_str_string_partial (hD : DeclsOK E) (hO : OrdLaws E) {S t : Ty} {o : Obj} (n : String)
    (h : HasTy E S o) (hk : o.kind ≠ .enum) :
    valueGetStr E o n t = valueGetKey E o (.scalar (.string n)) t := by
  refine Option.ext fun y => ?_
  rw [get_field_value_str hD hO h, get_field_value_string hD hO h]
  simp only [hk, ne_eq, not_false_iff, true_and]

/-- C47 fails for every field of every struct-like enum variant: `get_field` on a value finds it by `&str`,
not by `String`. -/
theorem get_field_enum_string_misses (hD : DeclsOK E) (hO : OrdLaws E) {S t : Ty} {o y : Obj} {n : String}
    (h : HasTy E S o) (hk : o.kind = .enum) (hf : FieldNamed o n y)
    (ht : Reveals E (BareKey E o (.named n)) t y) :
    valueGetStr E o n t = some y ∧ valueGetKey E o (.scalar (.string n)) t = none := by
  refine ⟨(get_field_value_str hD hO h).mpr (.inl ⟨hf, ht⟩), ?_⟩
  cases hr : valueGetKey E o (.scalar (.string n)) t with
  | none => rfl
  | some z =>
    obtain ⟨hne, _⟩ | ⟨he, _⟩ := (get_field_value_string hD hO h).mp hr
    · exact absurd hk hne
    · cases he; simp [Obj.kind] at hk

/-! ## Concrete cases -/

/-- `Tree` and `Shape` values: their views and downcasts. -/
example : (∃ k, Ty.HasKind demoEnv (.named "Tree") k ∧ demoTree.reflectRef.Only k ∧
      demoTree.reflectOwned.Only k) ∧
    demoShape.downcast (.named "Shape") (.named "Shape") = some demoShape ∧
    demoShape.downcast (.named "Shape") (.named "Tree") = none :=
  ⟨views_exclusive demoTree_hasTy, (downcast_exact_partial demoShape_hasTy trivial).mpr ⟨rfl, rfl⟩, rfl⟩

/-- The `Tree` holds a `NonZeroU8`: patching it with `Tree { val: 0 }` as a dynamic value keeps the 5. -/
example : patch demoEnv (.nonzero .u8 5) (.scalar (.int .u8 0)) = .nonzero .u8 5 ∧
    patch demoEnv (.nonzero .u8 5) (.scalar (.int .u8 7)) = .nonzero .u8 7 ∧ demoTree.NoZero := by
  have h0 : HasTy demoEnv (.scalar (.int .u8)) (.scalar (.int .u8 0)) := .scalar' rfl
  have h7 : HasTy demoEnv (.scalar (.int .u8)) (.scalar (.int .u8 7)) := .scalar' rfl
  exact ⟨(nonzero_patch h0).2 fun m hm => ⟨by simp, by simp [hm.symm]⟩,
    (nonzero_patch h7).1 7 (by decide) (.inr rfl), OK.noZero ⟨_, demoTree_hasTy⟩⟩

/-- `get_field::<u8>("a")` of the `Secret` is 7, `"hidden"` is no field, `"a"` is no `u16`. -/
example : getNamed demoEnv demoSecret "a" (.scalar (.int .u8)) = some (.scalar (.int .u8 7)) ∧
    getNamed demoEnv demoSecret "hidden" (.scalar .bool) = none ∧
    getNamed demoEnv demoSecret "a" (.scalar (.int .u16)) = none ∧
    FieldNamed demoSecret "a" (.scalar (.int .u8 7)) :=
  ⟨rfl, rfl, rfl, .struct _ _ _ _ (by simp) rfl⟩

/-- `Shape::Circle { r: 0.0 }`, looked up with `"r"` and with `String::from("r")`. -/
example : valueGetStr demoEnv (.enumS (.derived "Shape") "Circle" [("r", .scalar (.f32 0#32))]) "r"
      (.scalar .f32) = some (.scalar (.f32 0#32)) ∧
    valueGetKey demoEnv (.enumS (.derived "Shape") "Circle" [("r", .scalar (.f32 0#32))])
      (.scalar (.string "r")) (.scalar .f32) = none := ⟨rfl, rfl⟩

/-- `Shape::Rect(3, ..)`, index 0, and the map of the `Tree`, key `"b"`. -/
example : FieldAt demoShape 0 (.scalar (.int .i32 3)) ∧ demoShape.kind ≠ .struct ∧
    getIndexed demoShape 0 (.scalar (.int .i32)) = some (.scalar (.int .i32 3)) ∧
    getEntry demoEnv (.map (.scalar .string) (.scalar (.int .u8))
      [(.scalar (.string "a"), .scalar (.int .u8 1)), (.scalar (.string "b"), .scalar (.int .u8 2))])
      (.scalar (.string "b")) (.scalar (.int .u8)) = some (.scalar (.int .u8 2)) := by
  refine ⟨.enumT _ _ _ _ _ rfl rfl, by simp [Obj.kind, demoShape], rfl, ?_⟩
  obtain ⟨S, h⟩ := OK_field (n := "names") ⟨_, demoTree_hasTy⟩ rfl
  exact (get_field_entry demo_ordLaws h (K := .scalar .string) (.scalar' rfl)).mpr
    ⟨.map _ _ _ _ (.scalar (.string "b")) (.scalar (.string "b"), .scalar (.int .u8 2))
      (by simp [fromReflect, Obj.isTy, Obj.typeOf, Scalar.kind]) (by simp) (Value.cmp_self _), .scalar' rfl, trivial⟩

/-- A `StructValue` with the field `inner` set to another `StructValue`: `get_field::<StructValue>("inner")`
gives nothing. As the only element of a `TupleValue` the inner one is found. -/
example :
    let inner := (Value.struct ["a"] [("a", .scalar (.int .u8 1))]).toObj
    let outer := Obj.struct (.dyn ["inner"]) [("inner", inner)]
    HasTy demoEnv .structValue outer ∧ HasTy demoEnv .structValue inner ∧ HasTy demoEnv .value inner ∧
    BareKey demoEnv outer (.named "inner") ∧ FieldNamed outer "inner" inner ∧
    getNamed demoEnv outer "inner" .structValue = none ∧
    getNamed demoEnv outer "inner" (.box .structValue) = some inner ∧
    getIndexed (.tuple .dyn [inner]) 0 .structValue = some inner := by
  intro inner outer
  have hw : (Value.struct ["a"] [("a", .scalar (.int .u8 1))]).WF :=
    .struct _ _ (by simp) (by simp [BMSorted]) (by simp; exact .scalar _)
  have hi : HasTy demoEnv .structValue inner := .structValue _ _ _ hw rfl
  have ho : HasTy demoEnv .structValue outer :=
    .structValue ["inner"] [("inner", .struct ["a"] [("a", .scalar (.int .u8 1))])] _
      (.struct _ _ (by simp) (by simp [BMSorted]) (by simpa using hw)) (by simp [outer, inner, Value.toObj])
  have hb : BareKey demoEnv outer (.named "inner") := .structValue _ _ _
  have hf : FieldNamed outer "inner" inner := .struct _ _ _ _ (by simp) (by simp [inner, Value.toObj, Obj.isHidden])
  have := (get_field_struct_value_misses demo_declsOK demo_ordLaws (.inl rfl) ho hi).1 "inner" hb hf
  refine ⟨ho, hi, .value _ _ hw rfl, hb, hf, this.1, this.2, ?_⟩
  simp [getIndexed, Obj.fieldAt, visAt, inner, Value.toObj, Obj.isHidden, Obj.fieldAtRefTy, Obj.typeOf,
    Obj.downcast, Obj.anyTy]

end Mirror
