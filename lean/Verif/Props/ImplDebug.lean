import Verif.Lemmas.ImplDebug
import Verif.Props.Impl

/-!
# C103: `reflect_debug` on hand-written `Reflect` implementations
-/

namespace Mirror

/-- C103: what is printed of a value is its name and its parts up to the first position that has none, whatever
number of parts it announces. -/
theorem C103_prints_iff {A : Type} (I : Impl A) (nm : A → String) (a : A) (d : DbgOf A) :
    (∃ n, I.reflectDebug nm n a = some (some d)) ↔ I.Prints nm a d :=
  ⟨fun ⟨_, h⟩ => Impl.prints_of h, fun h => h.runs.elim fun m hm => ⟨m, hm m le_rfl⟩⟩

/-- C103: it does not panic, whatever the implementation answers. -/
theorem C103_never_panics {A : Type} (I : Impl A) (nm : A → String) (n : Nat) (a : A) :
    I.reflectDebug nm n a ≠ some none :=
  I.reflectDebug_no_panic nm n a

/-- C103: it comes to an end exactly if some position has no part. -/
theorem C103_ends_iff {A : Type} (I : Impl A) (nm : A → String) (a : A) :
    (∃ n r, I.reflectDebug nm n a = some r) ↔ (I.view a).Ends := by
  rw [← Impl.prints_iff_ends (nm := nm)]
  constructor
  · rintro ⟨n, r, h⟩
    cases r with
    | none => exact absurd h (I.reflectDebug_no_panic nm n a)
    | some d => exact ⟨d, Impl.prints_of h⟩
  · rintro ⟨d, h⟩
    obtain ⟨m, hm⟩ := h.runs
    exact ⟨m, _, hm m le_rfl⟩

/-- C103: there is one answer. -/
theorem C103_one_answer {A : Type} (I : Impl A) (nm : A → String) (a : A) (n m : Nat) (r s : Option (DbgOf A))
    (hr : I.reflectDebug nm n a = some r) (hs : I.reflectDebug nm m a = some s) : r = s := by
  cases r with
  | none => exact absurd hr (I.reflectDebug_no_panic nm n a)
  | some d =>
    cases s with
    | none => exact absurd hs (I.reflectDebug_no_panic nm m a)
    | some d' => rw [(Impl.prints_of hr).unique (Impl.prints_of hs)]

/-- C103: the fields an enum yields: the named ones of a struct variant and the ones of a tuple variant, up to the
first gap, and none of a unit variant, whatever `field_at` answers. -/
theorem C103_variant_fields {A : Type} (kind : VKind) (nameAt : Nat → Option String) (fieldAt : Nat → Option A)
    (l : List (VFieldOf A)) : (∃ n, drain (variantItem kind nameAt fieldAt) n 0 = some l) ↔
      match kind with
      | .struct => ∃ fs, UpToFirstGap (fieldNamed nameAt fieldAt) fs ∧ l = fs.map fun p => .struct p.1 p.2
      | .tuple => ∃ fs, UpToFirstGap fieldAt fs ∧ l = fs.map .tuple
      | .unit => l = [] := by
  cases kind with
  | struct =>
    have : variantItem .struct nameAt fieldAt =
        fun i => (fieldNamed nameAt fieldAt i).map fun p => VFieldOf.struct p.1 p.2 := by
      funext i; rw [← fieldNamed_eq]; rfl
    rw [this]
    simp only [drain_map, Option.map_eq_some_iff]
    constructor
    · rintro ⟨n, fs, h, rfl⟩; exact ⟨fs, drain_iff.mp ⟨n, h⟩, rfl⟩
    · rintro ⟨fs, h, rfl⟩; obtain ⟨n, hn⟩ := drain_iff.mpr h; exact ⟨n, fs, hn, rfl⟩
  | tuple =>
    have : variantItem .tuple nameAt fieldAt = fun i => (fieldAt i).map VFieldOf.tuple := rfl
    rw [this]
    simp only [drain_map, Option.map_eq_some_iff]
    constructor
    · rintro ⟨n, fs, h, rfl⟩; exact ⟨fs, drain_iff.mp ⟨n, h⟩, rfl⟩
    · rintro ⟨fs, h, rfl⟩; obtain ⟨n, hn⟩ := drain_iff.mpr h; exact ⟨n, fs, hn, rfl⟩
  | unit =>
    rw [drain_iff]
    constructor
    · intro h
      exact gap_unique h (gap_nil.mpr rfl)
    · rintro rfl
      exact gap_nil.mpr rfl

/-- A tuple variant with two fields yields both; a struct variant that names only the first of them yields that one; a
unit variant yields none of them. -/
example : (∃ n, drain (variantItem .tuple (fun _ => none) fun i => [7, 8][i]?) n 0 = some [.tuple 7, .tuple 8]) ∧
    (∃ n, drain (variantItem .struct (fun i => ["a"][i]?) fun i => [7, 8][i]?) n 0 = some [.struct "a" 7]) ∧
    ∃ n, drain (variantItem .unit (fun _ => none) fun i => [7, 8][i]?) n 0 = some ([] : List (VFieldOf Nat)) :=
  ⟨⟨3, rfl⟩, ⟨2, rfl⟩, 1, rfl⟩

/-- C103: values that answer alike and have the same type name print alike, with parts that answer alike. -/
theorem C103_alike {A B : Type} (I : Impl A) (J : Impl B) (R : A → B → Prop) (h : I.Alike J R)
    (nm : A → String) (nm' : B → String) (a : A) (b : B) (hab : R a b) (hn : nm a = nm' b) (d : DbgOf A)
    (hd : I.Prints nm a d) : ∃ d', J.Prints nm' b d' ∧ DbgOf.Same R d d' :=
  hd.alike h hab hn

/-- C103: the derived and built-in types are one such implementation, and print what C58 says. -/
theorem C103_derived (E : Env) (nm : Obj → String) (o : Obj) :
    ∃ d, reflectDebug nm o = some d ∧ ∀ d', (Obj.impl E).Prints nm o d' ↔ d' = d.calls := by
  obtain ⟨d, h1, h2⟩ := Obj.impl_prints E nm o
  exact ⟨d, h1, fun d' => ⟨fun h => h.unique h2, fun h => h ▸ h2⟩⟩

/-- C103: a hand-written value that looks like a derived one of the same name prints like it. -/
theorem C103_hand_written {A : Type} (I : Impl A) (E : Env) (R : A → Obj → Prop) (h : I.Alike (Obj.impl E) R)
    (nm : A → String) (nm' : Obj → String) (a : A) (o : Obj) (hao : R a o) (hn : nm a = nm' o) :
    ∀ d, I.Prints nm a d → ∃ d', reflectDebug nm' o = some d' ∧ DbgOf.Same R d d'.calls := by
  intro d hd
  obtain ⟨d', h1, h2⟩ := C103_alike I _ R h nm nm' a o hao hn d hd
  obtain ⟨d0, h3, h4⟩ := C103_derived E nm' o
  exact ⟨d0, h3, (h4 d').mp h1 ▸ h2⟩

/-- A hand-written point. -/
example : (Hand.impl handEnv).Prints (fun _ => "Point") (.point 1 2)
      (.struct "Point" [("x", .obj (i32Obj 1)), ("y", .obj (i32Obj 2))]) ∧
    (Hand.impl handEnv).Alike (Obj.impl handEnv) (fun h o => h.as = some o) ∧
    (Hand.point 1 2).as = some (.struct (.derived "Point") [("x", i32Obj 1), ("y", i32Obj 2)]) := by
  refine ⟨(C103_prints_iff ..).mp ⟨3, ?_⟩, Hand.alike _, rfl⟩
  cbv

/-- A type that announces no fields but has one is printed with it. -/
example : (⟨fun b => if b then .tupleStruct 0 fun i => if i = 0 then some false else none else .opaque,
      fun _ => false⟩ : Impl Bool).Prints (fun _ => "T") true (.tuple "T" [false]) :=
  .tupleStruct rfl (by constructor <;> simp)

/-- C103: a list with an element at every position is never printed to the end. -/
theorem C103_endless (nm : Unit → String) (n : Nat) : endless.reflectDebug nm n () = none := by
  cases h : endless.reflectDebug nm n () with
  | none => rfl
  | some r =>
    obtain ⟨i, hi⟩ := (C103_ends_iff endless nm ()).mp ⟨n, r, h⟩
    cases hi

end Mirror
