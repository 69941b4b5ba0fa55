import Verif.Lemmas.Untrusted
import Verif.Props.RoundTrip
import Verif.Props.Path
import Verif.Props.Panic
import Verif.Props.Containers

set_option linter.unusedSimpArgs false

/-!
# C65, C66: serialised values

C65: what is written is read back unchanged. C66: what can come out of untrusted data, and what the
rest of the library makes of it.
-/

namespace Mirror

/-! ## C65 -/

/-- C65: reading what was written gives the same value back, whether the format names enum variants
by name or by position. The value may be anything the Rust type can hold. -/
theorem C65_roundtrip (m : VariantId) {v : Value} (h : v.Storable) :
    Value.de m v.ser = some v := de_ser h

/-- C65: in particular every value that safe code can build, if its integers are in range. -/
theorem C65_roundtrip_built (m : VariantId) {v : Value} (h : v.WF) (hf : v.Fits) :
    Value.de m v.ser = some v := de_ser (h.storable hf)

/-- C65: different values are written differently. -/
theorem C65_injective {v w : Value} (hv : v.Storable) (hw : w.Storable) (h : v.ser = w.ser) :
    v = w := by
  have := de_ser (m := .byName) hv
  rw [h, de_ser hw] at this
  exact (Option.some.inj this).symm

/-- C65: a typed value survives being turned into a `Value`, written, read and converted back. -/
theorem C65_typed_roundtrip (m : VariantId) {E : Env} (hD : DeclsOK E) (hO : OrdLaws E)
    (hK : KeysShown E) (hN : NoSkips E) {T : Ty} {x : Obj} (h : HasTy E T x)
    (hf : x.toValue.Fits) :
    ((Value.de m x.toValue.ser).bind fun v => fromReflect E T v.toObj) = some x := by
  rw [C65_roundtrip_built m h.toValue_wf hf, Option.bind_some, C01_roundtrip hD hO hK hN h]

theorem usize_inRange {i : Nat} (h : i < 2 ^ 64) : IntKind.InRange .usize i := by
  simp only [IntKind.InRange, IntKind.signed, IntKind.bits]
  simp only [Bool.false_eq_true, if_false]
  exact ⟨Int.natCast_nonneg i, by exact_mod_cast h⟩

theorem Key.de_ser {m : VariantId} {k : Key} (h : k.Storable) : Key.de m k.ser = some k := by
  cases k with
  | named n =>
    have h1 : deEnum m ["Field", "Get", "Variant"] (Key.ser (.named n)) =
        some (0, some (.newtype 0 "Named" (.str n))) := by cases m <;> rfl
    have h2 : deEnum m ["Named", "Numbered"] (.newtype 0 "Named" (.str n)) =
        some (0, some (.str n)) := by cases m <;> rfl
    simp [Key.de, h1, h2, deStr]
  | numbered i =>
    have h1 : deEnum m ["Field", "Get", "Variant"] (Key.ser (.numbered i)) =
        some (0, some (.newtype 1 "Numbered" (.int .u64 i))) := by cases m <;> rfl
    have h2 : deEnum m ["Named", "Numbered"] (.newtype 1 "Numbered" (.int .u64 i)) =
        some (1, some (.int .u64 i)) := by cases m <;> rfl
    have h3 : Scalar.de (.int .usize) (.int .u64 i) = some (.int .usize i) := by
      unfold Scalar.de
      exact if_pos (usize_inRange (by simpa only [Key.Storable] using h))
    unfold Key.de
    simp only [h1, h2, h3, Int.toNat_natCast]
  | get v =>
    have h1 : deEnum m ["Field", "Get", "Variant"] (Key.ser (.get v)) = some (1, some v.ser) := by
      cases m <;> rfl
    simp [Key.de, h1, Mirror.de_ser (v := v) h]
  | «variant» n =>
    have h1 : deEnum m ["Field", "Get", "Variant"] (Key.ser (.variant n)) =
        some (2, some (.str n)) := by cases m <;> rfl
    simp [Key.de, h1, deStr]

/-- C65: key paths survive as well. -/
theorem C65_key_path (m : VariantId) {p : KeyPath} (h : ∀ k ∈ p, k.Storable) :
    KeyPath.de m p.ser = some p := by
  have h1 : deStruct ["path"] (KeyPath.ser p) = some [.seq (List.map Key.ser p)] := rfl
  simp only [KeyPath.de, h1, deSeq, Option.bind_some]
  clear h1
  induction p with
  | nil => rfl
  | cons k p ih =>
    simp [List.mapM_cons, Key.de_ser (h k List.mem_cons_self),
      ih fun k hk => h k (List.mem_cons_of_mem _ hk)]

/-- Non-vacuity of C65: a struct inside an enum inside a map, a list of numbers of several widths,
written and read; and what the data look like. -/
example :
    let v : Value := .map [(.scalar (.string "k"), .enumS "V" ["b", "a"]
      [("a", .scalar (.int .i8 (-1))), ("b", .list [.scalar (.int .usize 7), .enumU "N"])])]
    v.Storable ∧ Value.de .byIndex v.ser = some v ∧ (Value.enumU "N").ser =
      .newtype 17 "EnumValue" (.struct [("name", .str "N"), ("kind", .unit 2 "Unit")]) := by
  have hv : Value.Storable (.map [(.scalar (.string "k"), .enumS "V" ["b", "a"]
      [("a", .scalar (.int .i8 (-1))), ("b", .list [.scalar (.int .usize 7), .enumU "N"])])]) := by
    refine .map _ (by simp [BMSorted]) (by simp; exact .scalar _ trivial) ?_
    simp only [List.mem_singleton, forall_eq]
    refine .enumS _ _ _ (by simp [BMSorted]; decide) ?_
    intro p hp
    simp at hp
    rcases hp with rfl | rfl
    · exact .scalar _ (by simp [Scalar.Fits, IntKind.InRange, IntKind.signed, IntKind.bits])
    · refine .list _ ?_
      intro x hx
      simp at hx
      rcases hx with rfl | rfl
      · exact .scalar _ (by simp [Scalar.Fits, IntKind.InRange, IntKind.signed, IntKind.bits])
      · exact .enumU _
  exact ⟨hv, C65_roundtrip _ hv, rfl⟩

/-! ## C66 -/

/-- C66: what can be read from some data is exactly what the Rust type can hold: whatever the data,
maps come out in key order and integers in range, but nothing relates the names of a `StructValue`
to its fields. -/
theorem C66_read_iff (m : VariantId) (v : Value) : (∃ d, Value.de m d = some v) ↔ v.Storable :=
  ⟨fun ⟨_, h⟩ => de_storable h, fun h => ⟨_, de_ser h⟩⟩

/-- C66: a value read from data is one that safe code could have built exactly if all the name lists
in it agree with the fields. -/
theorem C66_well_formed_iff (m : VariantId) {d : Data} {v : Value} (h : Value.de m d = some v) :
    v.WF ↔ v.NamesAgree := by
  have hs := de_storable h
  clear h
  constructor
  · intro h
    clear hs
    induction h with
    | scalar s => exact .scalar s
    | struct ns fs hn _ _ ih => exact .struct _ _ hn ih
    | enumS v ns fs hn _ _ ih => exact .enumS _ _ _ hn ih
    | enumT v fs _ ih => exact .enumT _ _ ih
    | enumU v => exact .enumU v
    | tupleStruct fs _ ih => exact .tupleStruct _ ih
    | tuple fs _ ih => exact .tuple _ ih
    | list xs _ ih => exact .list _ ih
    | map kvs _ _ _ ihk ihv => exact .map _ ihk ihv
  · intro h
    induction h with
    | scalar s => exact .scalar s
    | struct ns fs hn _ ih =>
      cases hs with | struct _ _ h1 h2 => exact .struct _ _ hn h1 fun p hp => ih p hp (h2 p hp)
    | enumS v ns fs hn _ ih =>
      cases hs with | enumS _ _ _ h1 h2 => exact .enumS _ _ _ hn h1 fun p hp => ih p hp (h2 p hp)
    | enumT v fs _ ih => cases hs with | enumT _ _ h2 => exact .enumT _ _ fun p hp => ih p hp (h2 p hp)
    | enumU v => exact .enumU v
    | tupleStruct fs _ ih =>
      cases hs with | tupleStruct _ h2 => exact .tupleStruct _ fun p hp => ih p hp (h2 p hp)
    | tuple fs _ ih => cases hs with | tuple _ h2 => exact .tuple _ fun p hp => ih p hp (h2 p hp)
    | list xs _ ih => cases hs with | list _ h2 => exact .list _ fun p hp => ih p hp (h2 p hp)
    | map kvs _ _ ihk ihv =>
      cases hs with
      | map _ h1 h2 h3 => exact .map _ h1 (fun p hp => ihk p hp (h2 p hp)) fun p hp => ihv p hp (h3 p hp)

theorem deValues_iff {m : VariantId} : ∀ {ds : List Data} {vs : List Value},
    deValues m ds = some vs ↔ List.Forall₂ (fun d v => Value.de m d = some v) ds vs
  | [], vs => by
    rw [deValues]
    constructor
    · intro h; cases h; exact .nil
    · intro h; cases h; rfl
  | d :: ds, vs => by
    rw [deValues]
    constructor
    · intro h
      split at h
      · next h1 h2 => cases h; exact .cons h1 (deValues_iff.1 h2)
      · cases h
    · intro h
      cases h with
      | cons h1 h2 => rw [h1, deValues_iff.2 h2]

theorem dePairs_iff {m : VariantId} : ∀ {ds : List (Data × Data)} {vs : List (Value × Value)},
    dePairs m ds = some vs ↔
      List.Forall₂ (fun d v => Value.de m d.1 = some v.1 ∧ Value.de m d.2 = some v.2) ds vs
  | [], vs => by
    rw [dePairs]
    constructor
    · intro h; cases h; exact .nil
    · intro h; cases h; rfl
  | d :: ds, vs => by
    rw [dePairs]
    constructor
    · intro h
      split at h
      · next h1 h2 h3 => cases h; exact .cons ⟨h1, h2⟩ (dePairs_iff.1 h3)
      · cases h
    · intro h
      cases h with
      | cons h1 h2 => rw [h1.1, h1.2, dePairs_iff.2 h2]

/-- C66: nothing is left out. A list is read only if each of its elements can be, and then holds
them in order. -/
theorem C66_list_strict (m : VariantId) (ds : List Data) (v : Value) :
    Value.de m (.newtype 20 "List" (.seq ds)) = some v ↔
      ∃ vs, v = .list vs ∧ List.Forall₂ (fun d w => Value.de m d = some w) ds vs := by
  rw [de_eq (i := 20) (c := .seq ds) (by cases m <;> rfl), deVariant_list rfl,
    Option.map_eq_some_iff]
  constructor
  · rintro ⟨vs, h, rfl⟩; exact ⟨vs, rfl, deValues_iff.1 h⟩
  · rintro ⟨vs, rfl, h⟩; exact ⟨vs, deValues_iff.2 h, rfl⟩

theorem bmGet_ofList {κ α : Type} {cmp : κ → κ → Ordering} (hc : CmpOn (fun _ : κ => True) cmp) (k : κ)
    (l : List (κ × α)) :
    bmGet cmp k (bmOfList cmp l) = (l.reverse.find? fun p => cmp k p.1 == .eq).map (·.2) := by
  induction l using List.reverseRecOn with
  | nil => rfl
  | append_singleton l p ih =>
    have : bmOfList cmp (l ++ [p]) = bmInsert cmp p.1 p.2 (bmOfList cmp l) := by
      simp [bmOfList, List.foldl_append]
    rw [this, bmGet_insert hc (fun _ _ => trivial) trivial trivial, ih]
    by_cases h : cmp k p.1 = .eq <;> simp [h, List.find?_cons]

/-- C66: a map is read only if each key and value can be. Looking up a key in it gives the value of
the last entry with that key in the data. -/
theorem C66_map_strict (m : VariantId) (ds : List (Data × Data)) (v : Value)
    (h : Value.de m (.newtype 21 "Map" (.map ds)) = some v) :
    ∃ (l kvs : List (Value × Value)), v = .map kvs ∧
      List.Forall₂ (fun d w => Value.de m d.1 = some w.1 ∧ Value.de m d.2 = some w.2) ds l ∧
      ∀ k, bmGet Value.cmp k kvs = (l.reverse.find? fun p => Value.cmp k p.1 == .eq).map (·.2) := by
  rw [de_eq (i := 21) (c := .map ds) (by cases m <;> rfl), deVariant_map rfl,
    Option.map_eq_some_iff] at h
  obtain ⟨l, hl, rfl⟩ := h
  exact ⟨l, _, rfl, dePairs_iff.1 hl, fun k => bmGet_ofList valueCmpOn k l⟩

/-- Non-vacuity: a list with an unreadable element is not read; of two entries with the same key the
last counts. -/
example : Value.de .byName (.newtype 20 "List" (.seq [(Value.enumU "A").ser, .none])) = none ∧
    ∃ kvs, Value.de .byName (.newtype 21 "Map" (.map [((Value.enumU "A").ser, (Value.enumU "B").ser),
      ((Value.enumU "A").ser, (Value.enumU "C").ser)])) = some (.map kvs) ∧
      bmGet Value.cmp (.enumU "A") kvs = some (.enumU "C") := by
  have hr : ∀ n, Value.de .byName (Value.enumU n).ser = some (.enumU n) := fun n => de_ser (.enumU n)
  refine ⟨?_, ?_⟩
  · cases h : Value.de .byName (.newtype 20 "List" (.seq [(Value.enumU "A").ser, .none])) with
    | none => rfl
    | some v =>
      obtain ⟨vs, _, h2⟩ := (C66_list_strict _ _ _).1 h
      cases h2 with
      | cons _ h2 => cases h2 with | cons h3 _ => rw [Value.de] at h3; simp [deEnum] at h3
  · refine ⟨bmOfList Value.cmp [(.enumU "A", .enumU "B"), (.enumU "A", .enumU "C")], ?_, ?_⟩
    · rw [de_eq (i := 21) (c := .map _) rfl, deVariant_map rfl]
      rw [dePairs_iff (vs := [(.enumU "A", .enumU "B"), (.enumU "A", .enumU "C")]) |>.2
        (.cons ⟨hr "A", hr "B"⟩ (.cons ⟨hr "A", hr "C"⟩ .nil))]; rfl
    · rw [bmGet_ofList valueCmpOn]; simp [Value.cmp_self]

/-- C66: converting a value read from any data to a type without dynamic parts gives a proper value
of that type, or nothing. -/
theorem C66_converts_soundly (m : VariantId) {E : Env} (hO : OrdLaws E) {T : Ty}
    (hT : ¬ T.HasDynamic E) {d : Data} {v : Value} {y : Obj} (_h : Value.de m d = some v)
    (hy : fromReflect E T v.toObj = some y) : HasTy E T y :=
  fromReflect_static hO T hT _ ⟨v, rfl⟩ hy

/-- C66: no operation panics because a value was read from untrusted data: `to_value`, conversion to
any type, use as a patch or as the left side of a comparison. -/
theorem C66_no_panic (m : VariantId) {E : Env} {d : Data} {v : Value} (_h : Value.de m d = some v)
    (T : Ty) (x : Obj) :
    toValuePanics E v.toObj = false ∧ fromReflectPanics E T v.toObj = false ∧
      patchPanics E x v.toObj = false ∧ reflectEqPanics E v.toObj x = false := by
  have hv : v.toObj.OKV E := .inr ⟨v, rfl⟩
  refine ⟨toValuePanics_value v, ?_, ?_, ?_⟩
  · by_contra h'
    exact v.toObj_holds (fromReflectPanics_only T _ hv (by simpa using h')).1
  · by_contra h'
    exact v.toObj_holds (patchPanics_only x _ hv (by simpa using h'))
  · by_contra h'
    exact v.toObj_holds (reflectEqPanics_only _ x hv (by simpa using h'))

theorem Value.struct_field (ns : List String) (fs : List (String × Value)) (n : String) :
    (Value.struct ns fs).toObj.field n = (lookup n fs).map Value.toObj := by
  simp only [Value.toObj, Obj.field, toObj_visFields, lookup_map]

theorem Value.struct_iter (ns : List String) (fs : List (String × Value)) :
    (Value.struct ns fs).toObj.namedIter = dynIter (fs.map fun p => (p.1, p.2.toObj)) ns := by
  simp only [Value.toObj, Obj.namedIter]

/-- C66: the part of the property that holds of the records read. If the names agree with the
fields, iteration shows exactly the fields that can be looked up, as many as `fields_len` says. -/
theorem C66_record_partial (m : VariantId) {d : Data} {ns : List String}
    {fs : List (String × Value)} (_h : Value.de m d = some (.struct ns fs))
    (ha : ∀ n, n ∈ ns ↔ n ∈ fs.map (·.1)) :
    (Value.struct ns fs).toObj.namedIter.length = (Value.struct ns fs).toObj.fieldsLen ∧
    ∀ n x, (n, x) ∈ (Value.struct ns fs).toObj.namedIter ↔
      (Value.struct ns fs).toObj.field n = some x := by
  have ha' : ∀ n, n ∈ ns ↔ n ∈ (fs.map fun p => (p.1, p.2.toObj)).map (·.1) := by
    intro n; rw [ha]; simp
  refine ⟨?_, fun n x => ?_⟩
  · rw [Value.struct_iter, dynIter_length ha']
    simp [Value.toObj, Obj.fieldsLen]
  · rw [Value.struct_iter, mem_dynIter fun n hn => (ha' n).mp hn, Value.struct_field, lookup_map]
    refine ⟨fun h => h.2, fun h => ⟨(ha' n).mpr ?_, h⟩⟩
    cases hl : lookup n fs with
    | none => simp [hl] at h
    | some y => exact List.mem_map.mpr ⟨(n, y.toObj), List.mem_map.mpr ⟨_, lookup_mem hl, rfl⟩, rfl⟩

/-- C66: the rest fails. For every list of names and every list of fields there are data that read
as the record with exactly these, however little they have to do with each other: `fields_len`
counts the names, looking up by name goes to the fields. -/
theorem C66_record_names_arbitrary (m : VariantId) (ns : List String) {fs : List (String × Value)}
    (hs : BMSorted strCmp fs) (hf : ∀ p ∈ fs, p.2.Storable) :
    ∃ d, Value.de m d = some (.struct ns fs) ∧
      (Value.struct ns fs).toObj.fieldsLen = ns.length ∧
      ∀ n, (Value.struct ns fs).toObj.field n = (lookup n fs).map Value.toObj :=
  ⟨_, de_ser (.struct ns fs hs hf), by simp [Value.toObj, Obj.fieldsLen],
    Value.struct_field ns fs⟩

/-- C66: a record read can say it has one field and show none. -/
theorem C66_counted_but_not_shown : ∃ (d : Data) (v : Value), Value.de .byName d = some v ∧
    v.toObj.fieldsLen = 1 ∧ v.toObj.namedIter = [] :=
  ⟨_, _, de_ser (v := .struct ["ghost"] []) (.struct _ _ (by simp [BMSorted]) (by simp)), by
    simp [Value.toObj, Obj.fieldsLen], by rw [Value.struct_iter]; rfl⟩

/-- C66: a record read can have a field that is found by name but not shown by iteration; a copy
made field by field (`StructValue::from_reflect`) and the comparison built on iteration miss it. -/
theorem C66_found_but_not_shown {E : Env} : ∃ (d : Data) (v : Value), Value.de .byName d = some v ∧
    v.toObj.field "a" = some (.scalar (.bool true)) ∧ v.toObj.namedIter = [] ∧
    fromReflect E .structValue v.toObj = some (Value.struct [] []).toObj :=
  ⟨_, _, de_ser (v := .struct [] [("a", .scalar (.bool true))])
    (.struct _ _ (by simp [BMSorted]) (by simp; exact .scalar _ trivial)), by
    rw [Value.struct_field]; simp [lookup, Value.toObj], by rw [Value.struct_iter]; rfl, by
    rw [fromReflect]
    simp [Value.toObj, Obj.kind, Obj.namedIter, dynIter, dynStruct, svOfList]⟩

theorem demoPoint_static : ¬ (Ty.named "Point").HasDynamic demoEnv := by
  rintro ⟨u, hr, hd⟩
  have : u = .named "Point" ∨ u = .scalar (.int .i32) ∨ u = .scalar .f32 := by
    clear hd
    induction hr with
    | refl => exact .inl rfl
    | step a b _ hb ih =>
      rcases ih with rfl | rfl | rfl
      · simp [Ty.comps, demoEnv, valueOrdEnv, demoDecl] at hb
        rcases hb with rfl | rfl <;> simp
      · simp [Ty.comps] at hb
      · simp [Ty.comps] at hb
  rcases this with rfl | rfl | rfl <;> exact hd

/-- Non-vacuity of C66: a record with the wrong names and one field too many is read, is not one
that safe code could build, and converts to the type `Point` of `demoEnv`. -/
example : ∃ (d : Data) (v : Value) (y : Obj), Value.de .byIndex d = some v ∧ ¬ v.WF ∧
    ¬ (Ty.named "Point").HasDynamic demoEnv ∧
    fromReflect demoEnv (.named "Point") v.toObj = some y ∧ HasTy demoEnv (.named "Point") y := by
  let v : Value := .struct ["ghost"] [("x", .scalar (.int .i32 3)), ("y", .scalar (.f32 0#32)),
    ("z", .list [])]
  have hs : v.Storable := by
    refine .struct _ _ (by simp [BMSorted]; decide) ?_
    intro p hp
    simp at hp
    rcases hp with rfl | rfl | rfl
    · exact .scalar _ (by simp [Scalar.Fits, IntKind.InRange, IntKind.signed, IntKind.bits])
    · exact .scalar _ trivial
    · exact .list _ (by simp)
  have hT : ¬ (Ty.named "Point").HasDynamic demoEnv := demoPoint_static
  have hy : fromReflect demoEnv (.named "Point") v.toObj = some (.struct (.derived "Point")
      [("x", .scalar (.int .i32 3)), ("y", .scalar (.f32 0#32))]) := by
    rw [fromReflect_struct (fds := [⟨"x", .scalar (.int .i32), false⟩, ⟨"y", .scalar .f32, false⟩])
      (c := false) rfl]
    simp [v, Value.toObj, Obj.kind, convNamed, Obj.field, visFields, lookup, Obj.isHidden,
      fromReflect_scalar, Obj.isTy, Obj.typeOf, convField, Scalar.kind, optAll]
  refine ⟨_, v, _, de_ser hs, fun h => ?_, hT, hy, C66_converts_soundly .byIndex demo_ordLaws hT
    (de_ser hs) hy⟩
  change (Value.struct ..).WF at h
  cases h with | struct _ _ h1 _ _ => simpa using h1 "ghost"

end Mirror
