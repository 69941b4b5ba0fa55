import Verif.Lemmas.Containers
import Verif.Lemmas.Demo
import Mathlib.Data.List.Dedup

set_option linter.unusedSimpArgs false

/-!
# C22–C25: maps, dynamic records and builders, lists
-/

namespace Mirror

/-! ## C22 -/

/-- C22: run any history of `insert`/`remove` on a `BTreeMap<kt, vt>` that holds the bindings `f`.
Every call returns what the abstract map says (the previous value for that key; `None` if an argument
does not convert), and the map ends up with exactly the bindings of the abstract map. -/
theorem C22_map_history (E : Env) (hO : OrdLaws E) (kt vt : Ty) (m : Obj) (f : AbsMap)
    (ops : List MapOp) (hm : HasTy E (.map kt vt) m) (hf : Represents E kt m f)
    (hops : ∀ op ∈ ops, op.Proper E) :
    (MapOp.runAll E m ops).1 = (MapOp.absAll E kt vt f ops).1 ∧
    HasTy E (.map kt vt) (MapOp.runAll E m ops).2 ∧
    Represents E kt (MapOp.runAll E m ops).2 (MapOp.absAll E kt vt f ops).2 :=
  mapOps_history hO ops hm hops hf

/-- C22: `get(key)` is the binding of the key `key` converts to, if it converts. -/
theorem C22_get (E : Env) (hO : OrdLaws E) (kt vt tk : Ty) (m key : Obj) (f : AbsMap)
    (hm : HasTy E (.map kt vt) m) (hk : HasTy E tk key) (hf : Represents E kt m f) :
    m.mapGet E key = (fromReflect E kt key).bind f := by
  obtain ⟨kvs, rfl⟩ := map_form hm
  simp only [Obj.mapGet]
  cases h : fromReflect E kt key with
  | none => rfl
  | some k =>
    simp only [Option.bind_some]
    exact ((represents_iff hO hm).mp hf k (fromReflect_sound hO kt key ⟨_, hk⟩ h)).symm

/-- C22: every map represents one abstract map, given by its entries. -/
theorem C22_represents (E : Env) (hO : OrdLaws E) (kt vt : Ty) (m : Obj)
    (hm : HasTy E (.map kt vt) m) : ∃ f, Represents E kt m f := by
  obtain ⟨kvs, rfl⟩ := map_form hm
  exact ⟨fun a => bmGet (E.kcmp kt) a kvs, (represents_iff hO hm).mpr fun _ _ => rfl⟩

/-- C22: iteration is in strictly increasing key order, so no two entries have equal keys, and `len`
counts the entries. -/
theorem C22_iteration_sorted (E : Env) (kt vt : Ty) (m : Obj) (hm : HasTy E (.map kt vt) m) :
    (m.mapIter.Pairwise fun p q => E.kcmp kt p.1 q.1 = .lt) ∧ m.fieldsLen = m.mapIter.length := by
  obtain ⟨kvs, rfl⟩ := map_form hm
  cases hm with
  | map _ _ _ h1 _ _ => exact ⟨h1, rfl⟩

/-- C22: after `insert(key, val)` with convertible arguments, `get` of an equal key (of any type that
converts to it) is the inserted value, and `get` of any other key is as before. -/
theorem C22_get_after_insert (E : Env) (hO : OrdLaws E) (kt vt : Ty) (m key val k v q a : Obj)
    (hm : HasTy E (.map kt vt) m) (hkey : ∃ t, HasTy E t key) (hval : ∃ t, HasTy E t val)
    (hq : ∃ t, HasTy E t q) (ek : fromReflect E kt key = some k) (ev : fromReflect E vt val = some v)
    (eq : fromReflect E kt q = some a) :
    (m.mapInsert E key val).2.mapGet E q =
      if E.kcmp kt a k = .eq then some v else m.mapGet E q := by
  obtain ⟨f, hf⟩ := C22_represents E hO kt vt m hm
  obtain ⟨_, h2, h3⟩ := mapOp_step (op := .insert key val) hO hm ⟨hkey, hval⟩ hf
  obtain ⟨tq, hq⟩ := hq
  have := C22_get E hO kt vt tq _ q _ h2 hq h3
  simp only [MapOp.run] at this
  rw [this, C22_get E hO kt vt tq m q f hm hq hf, eq]
  simp [MapOp.abs, ek, ev, AbsMap.set]

/-- C22: after `remove(key)`, `get` of an equal key is `None`, and of any other key is as before. -/
theorem C22_get_after_remove (E : Env) (hO : OrdLaws E) (kt vt : Ty) (m key k q a : Obj)
    (hm : HasTy E (.map kt vt) m) (hkey : ∃ t, HasTy E t key)
    (hq : ∃ t, HasTy E t q) (ek : fromReflect E kt key = some k)
    (eq : fromReflect E kt q = some a) :
    (m.mapRemove E key).2.mapGet E q =
      if E.kcmp kt a k = .eq then none else m.mapGet E q := by
  obtain ⟨f, hf⟩ := C22_represents E hO kt vt m hm
  obtain ⟨_, h2, h3⟩ := mapOp_step (op := .remove key) hO hm hkey hf
  obtain ⟨tq, hq⟩ := hq
  have := C22_get E hO kt vt tq _ q _ h2 hq h3
  simp only [MapOp.run] at this
  rw [this, C22_get E hO kt vt tq m q f hm hq hf, eq]
  simp [MapOp.abs, ek, AbsMap.set]

/-- C22: an `insert` whose key or value does not convert, or a `remove` whose key does not, returns
`None` and changes nothing. -/
theorem C22_not_convertible (E : Env) (kt vt : Ty) (kvs : List (Obj × Obj)) (key val : Obj) :
    (fromReflect E kt key = none ∨ fromReflect E vt val = none →
      (Obj.map kt vt kvs).mapInsert E key val = (none, .map kt vt kvs)) ∧
    (fromReflect E kt key = none → (Obj.map kt vt kvs).mapRemove E key = (none, .map kt vt kvs)) := by
  constructor
  · rintro (h | h)
    · simp [Obj.mapInsert, h]
    · simp only [Obj.mapInsert, h]; cases fromReflect E kt key <;> rfl
  · intro h; simp [Obj.mapRemove, h]

/-- C22: `len` changes by one exactly when the key was absent (insert) or present (remove). -/
theorem C22_len (E : Env) (kt vt : Ty) (m key val k v : Obj) (hm : HasTy E (.map kt vt) m)
    (ek : fromReflect E kt key = some k) (ev : fromReflect E vt val = some v)
    (hO : OrdLaws E) (hkey : ∃ t, HasTy E t key) :
    (m.mapInsert E key val).2.fieldsLen =
      (if m.mapGet E key = none then m.fieldsLen + 1 else m.fieldsLen) ∧
    (m.mapRemove E key).2.fieldsLen =
      (if m.mapGet E key = none then m.fieldsLen else m.fieldsLen - 1) := by
  obtain ⟨kvs, rfl⟩ := map_form hm
  obtain ⟨tk, hkey⟩ := hkey
  have tk := fromReflect_sound hO kt key ⟨_, hkey⟩ ek
  cases hm with
  | map _ _ _ h1 h2 h3 =>
  have hc := hO.cmpOn kt
  simp only [Obj.mapInsert, Obj.mapRemove, Obj.mapGet, ek, ev, Obj.fieldsLen, Option.bind_some]
  clear h3 ev ek
  induction kvs with
  | nil => simp [bmInsert, bmRemove, bmGet]
  | cons p r ih =>
    obtain ⟨k', v'⟩ := p
    obtain ⟨s1, s2⟩ := List.pairwise_cons.mp h1
    have hk' := h2 _ List.mem_cons_self
    have ih := ih s2 fun p hp => h2 p (by simp [hp])
    by_cases he : E.kcmp kt k k' = .eq
    · simp [bmInsert, bmRemove, bmGet, he]
    by_cases hl : E.kcmp kt k k' = .lt
    · have : bmGet (E.kcmp kt) k r = none := by
        cases hg : bmGet (E.kcmp kt) k r with
        | none => rfl
        | some b =>
          obtain ⟨k'', hm, he⟩ := bmGet_mem hg
          have := hc.lt_trans _ _ k'' tk hk' (h2 (k'', b) (by simp [hm])) hl (s1 _ hm)
          rw [he] at this; cases this
      have i2 := ih.2
      simp only [this, if_true] at i2
      simp [bmInsert, bmRemove, bmGet, hl, this, i2]
    · have hg : E.kcmp kt k k' = .gt := by
        cases h : E.kcmp kt k k' <;> simp_all
      obtain ⟨i1, i2⟩ := ih
      by_cases hn : bmGet (E.kcmp kt) k r = none
      · rw [if_pos hn] at i1 i2
        simp [bmInsert, bmRemove, bmGet, hg, hn, i1, i2]
      · rw [if_neg hn] at i1 i2
        have : r ≠ [] := by rintro rfl; exact hn rfl
        have : 0 < r.length := List.length_pos_iff.mpr this
        simp [bmInsert, bmRemove, bmGet, hg, hn, i1, i2]; omega

/-- The map of the demo tree, with a history that inserts, overwrites, removes and passes a key of
the wrong type. -/
def demoNames : Obj := .map (.scalar .string) (.scalar (.int .u8))
  [(.scalar (.string "a"), .scalar (.int .u8 1)), (.scalar (.string "b"), .scalar (.int .u8 2))]

theorem demoNames_hasTy : HasTy demoEnv (.map (.scalar .string) (.scalar (.int .u8))) demoNames := by
  refine .map _ _ _ ?_ ?_ ?_
  · simp [BMSorted, demoEnv, valueOrdEnv, Obj.toValue, Value.cmp]; decide
  · intro p hp; simp at hp; rcases hp with rfl | rfl <;> exact .scalar' rfl
  · intro p hp; simp at hp; rcases hp with rfl | rfl <;> exact .scalar' rfl

example : ∃ f, Represents demoEnv (.scalar .string) demoNames f ∧
    ∀ op ∈ [MapOp.insert (.scalar (.string "a")) (.scalar (.int .u8 9)), .remove (.scalar (.string "b")),
      .insert (.scalar (.bool true)) (.scalar (.int .u8 9))], op.Proper demoEnv := by
  obtain ⟨f, hf⟩ := C22_represents demoEnv demo_ordLaws _ _ _ demoNames_hasTy
  refine ⟨f, hf, ?_⟩
  intro op hop
  simp at hop
  rcases hop with rfl | rfl | rfl
  · exact ⟨⟨_, .scalar _⟩, ⟨_, .scalar _⟩⟩
  · exact ⟨_, .scalar _⟩
  · exact ⟨⟨_, .scalar _⟩, ⟨_, .scalar _⟩⟩

example : fromReflect demoEnv (.scalar .string) (.scalar (.string "a")) = some (.scalar (.string "a")) ∧
    fromReflect demoEnv (.scalar .string) (.scalar (.bool true)) = none := by
  constructor <;> simp [fromReflect_scalar, Obj.isTy, Obj.typeOf, Scalar.kind]

/-! ## C23 -/

/-- The record built by a sequence of `set_field`/`with_field` calls on `StructValue::new()`. -/
def buildStruct (calls : List (String × Value)) : Value :=
  calls.foldl (fun v p => svSetField v p.1 p.2) svNew

theorem buildStruct_eq (calls : List (String × Value)) :
    buildStruct calls = .struct (calls.map (·.1)) (bmOfList strCmp calls) := by
  have : ∀ s : List String × List (String × Value),
      calls.foldl (fun v p => svSetField v p.1 p.2) (svFinish s) =
        svFinish (calls.foldl (fun s p => svSet s p.1 p.2) s) := by
    induction calls with
    | nil => intro s; rfl
    | cons p r ih => intro s; rw [List.foldl_cons, List.foldl_cons, ← ih]; rfl
  have h := this ([], [])
  rw [buildStruct, svNew, show Value.struct [] [] = svFinish ([], []) from rfl, h]
  show svFinish (svOfList calls) = _
  rw [svOfList_eq]; rfl

theorem lookup_eq_bmGet {α} (n : String) (l : List (String × α)) : lookup n l = bmGet strCmp n l := by
  induction l with
  | nil => rfl
  | cons p r ih =>
    obtain ⟨k, v⟩ := p
    simp only [lookup, bmGet, ih, strCmp_eq_iff]
    by_cases h : k = n
    · simp [h]
    · simp [h, Ne.symm h]

theorem lookup_bmOfList {α} (n : String) (l : List (String × α)) :
    lookup n (bmOfList strCmp l) = (l.reverse.find? fun p => p.1 = n).map (·.2) := by
  rw [bmOfList, ← List.foldr_reverse]
  generalize l.reverse = r
  rw [lookup_eq_bmGet]
  induction r with
  | nil => rfl
  | cons p r ih =>
    rw [List.foldr_cons, bmGet_insert strCmpOn (P := fun _ => True) (by simp) trivial trivial, ih]
    simp only [strCmp_eq_iff]
    by_cases h : p.1 = n
    · simp [h]
    · simp [h, Ne.symm h]

/-- C23: after any sequence of `set_field` calls, `field(n)` is the last value set for `n`, `name_at(i)`
is the name given in call `i`, and `field_at(i)` is the last value set for that name. -/
theorem C23_record (calls : List (String × Value)) (n : String) (i : Nat) :
    (buildStruct calls).toObj.field n = (lastSet n calls).map Value.toObj ∧
    (buildStruct calls).toObj.nameAt i = (calls[i]?).map (·.1) ∧
    (buildStruct calls).toObj.fieldAt i =
      (calls[i]?).bind fun p => (lastSet p.1 calls).map Value.toObj := by
  rw [buildStruct_eq]
  have hv : ∀ l : List (String × Value), visFields (l.map fun p => (p.1, p.2.toObj)) =
      l.map fun p => (p.1, p.2.toObj) := fun l =>
    visFields_all (by
      intro p hp
      obtain ⟨q, _, rfl⟩ := List.mem_map.mp hp
      exact q.2.toObj_not_hidden)
  have hl : ∀ n, lookup n ((bmOfList strCmp calls).map fun p => (p.1, p.2.toObj)) =
      (lastSet n calls).map Value.toObj := by
    intro n; rw [lookup_map, lookup_bmOfList]; rfl
  refine ⟨?_, ?_, ?_⟩
  · simp only [Value.toObj, Obj.field, hv, hl]
  · simp [Value.toObj, Obj.nameAt]
  · simp only [Value.toObj, Obj.fieldAt, List.getElem?_map, hl]
    cases calls[i]? <;> rfl

/-- C23, `fields_len`: it is the number of `set_field` calls. It is the number of distinct fields if
no name was set twice. The full property would give the number of distinct names in every case; that is
false, see `C23_fields_len_wrong`. -/
theorem C23_fields_len_partial (calls : List (String × Value)) :
    (buildStruct calls).toObj.fieldsLen = calls.length ∧
    ((calls.map (·.1)).Nodup →
      (buildStruct calls).toObj.fieldsLen = (calls.map (·.1)).dedup.length) := by
  have h : (buildStruct calls).toObj.fieldsLen = calls.length := by
    rw [buildStruct_eq]; simp [Value.toObj, Obj.fieldsLen]
  refine ⟨h, fun hn => ?_⟩
  rw [h, List.Nodup.dedup hn]; simp

/-- C23: whenever some name was set twice, `fields_len` is larger than the number of distinct fields. -/
theorem C23_fields_len_wrong (calls : List (String × Value)) (h : ¬ (calls.map (·.1)).Nodup) :
    (calls.map (·.1)).dedup.length < (buildStruct calls).toObj.fieldsLen := by
  rw [(C23_fields_len_partial calls).1]
  have h1 := (List.dedup_sublist (calls.map (·.1))).length_le
  have h2 : (calls.map (·.1)).dedup.length ≠ (calls.map (·.1)).length := fun e =>
    h (List.dedup_eq_self.mp ((List.dedup_sublist _).eq_of_length e))
  simp only [List.length_map] at h1 h2
  omega

/-- A name set twice, and another one. -/
example : ¬ (([("x", .scalar (.bool true)), ("y", .scalar (.bool true)), ("x", .scalar (.bool false))] :
    List (String × Value)).map (·.1)).Nodup := by decide

example : lastSet "x" [("x", .scalar (.bool true)), ("y", .scalar (.bool true)),
    ("x", .scalar (.bool false))] = some (.scalar (.bool false)) := rfl

/-! ## C24 -/

/-- C24: pushing fields onto a `TupleValue` or `TupleStructValue` stores exactly those fields in
order. -/
theorem C24_tuple_builders (xs : List Value) :
    xs.foldl tvPush tvNew = .tuple xs ∧ xs.foldl tsvPush tsvNew = .tupleStruct xs := by
  have h1 : ∀ l, xs.foldl tvPush (.tuple l) = .tuple (l ++ xs) := by
    induction xs with
    | nil => simp
    | cons x r ih => intro l; simp [tvPush, ih]
  have h2 : ∀ l, xs.foldl tsvPush (.tupleStruct l) = .tupleStruct (l ++ xs) := by
    clear h1
    induction xs with
    | nil => simp
    | cons x r ih => intro l; simp [tsvPush, ih]
  exact ⟨h1 [], h2 []⟩

/-- A call on an `EnumValue` or on one of its builders. -/
inductive EnumCall
  | setStructField (n : String) (x : Value)
  | pushTupleField (x : Value)

/-- Perform it with the functions of the crate; `none` is a panic. -/
def EnumCall.run (v : Value) : EnumCall → Option Value
  | .setStructField n x => evSetStructField v n x
  | .pushTupleField x => evPushTupleField v x

/-- Perform a sequence of calls; `none` as soon as one panics. -/
def EnumCall.runAll (v : Value) : List EnumCall → Option Value
  | [] => some v
  | c :: cs => (c.run v).bind fun v' => EnumCall.runAll v' cs

/-- C24: a tuple variant given fields `xs` one by one holds exactly `xs` in order, under its name. -/
theorem C24_tuple_variant (vn : String) (xs : List Value) :
    EnumCall.runAll (evNewTuple vn) (xs.map .pushTupleField) = some (.enumT vn xs) := by
  have : ∀ l, EnumCall.runAll (.enumT vn l) (xs.map .pushTupleField) = some (.enumT vn (l ++ xs)) := by
    induction xs with
    | nil => simp [EnumCall.runAll]
    | cons x r ih => intro l; simp [EnumCall.runAll, EnumCall.run, evPushTupleField, ih]
  exact this []

/-- C24: a struct variant given fields one by one holds the same record a `StructValue` would, under
its name. -/
theorem C24_struct_variant (vn : String) (calls : List (String × Value)) (n : String) (i : Nat) :
    ∃ v, EnumCall.runAll (evNewStruct vn) (calls.map fun p => .setStructField p.1 p.2) = some v ∧
      v.toObj.variantName = some vn ∧ v.toObj.variantKind = some .struct ∧
      v.toObj.field n = (lastSet n calls).map Value.toObj ∧
      v.toObj.nameAt i = (calls[i]?).map (·.1) ∧ v.toObj.fieldsLen = calls.length := by
  have : ∀ s : List String × List (String × Value),
      EnumCall.runAll (.enumS vn s.1 s.2) (calls.map fun p => .setStructField p.1 p.2) =
        some (.enumS vn (calls.foldl (fun s p => svSet s p.1 p.2) s).1
          (calls.foldl (fun s p => svSet s p.1 p.2) s).2) := by
    induction calls with
    | nil => simp [EnumCall.runAll]
    | cons p r ih =>
      intro s
      simp only [List.map_cons, EnumCall.runAll, EnumCall.run, evSetStructField, Option.bind_some,
        List.foldl_cons]
      exact ih _
  have h := this ([], [])
  rw [show calls.foldl (fun s p => svSet s p.1 p.2) ([], []) = svOfList calls from rfl,
    svOfList_eq] at h
  refine ⟨_, h, by simp [Value.toObj, Obj.variantName], by simp [Value.toObj, Obj.variantKind], ?_, ?_, ?_⟩
  · have := (C23_record calls n i).1
    rw [buildStruct_eq] at this
    simpa [Value.toObj, Obj.field] using this
  · simp [Value.toObj, Obj.nameAt]
  · simp [Value.toObj, Obj.fieldsLen]

/-- C24: a setter panics exactly when the variant is of another kind. -/
theorem C24_setters_panic (v x : Value) (n : String) (hv : v.toObj.kind = .enum) :
    (evSetStructField v n x = none ↔ v.toObj.variantKind ≠ some .struct) ∧
    (evPushTupleField v x = none ↔ v.toObj.variantKind ≠ some .tuple) := by
  cases v <;> simp [Value.toObj, Obj.kind] at hv <;>
    simp [Value.toObj, Obj.variantKind, evSetStructField, evPushTupleField]

/-- C24: setters keep the variant's name and kind. -/
theorem C24_setters_keep_variant (v v' : Value) (c : EnumCall) (h : c.run v = some v') :
    v'.toObj.variantName = v.toObj.variantName ∧ v'.toObj.variantKind = v.toObj.variantKind := by
  cases c <;> cases v <;> simp [EnumCall.run, evSetStructField, evPushTupleField] at h <;>
    (subst h; simp [Value.toObj, Obj.variantName, Obj.variantKind])

/-- A unit variant refuses both kinds of fields. -/
example : evSetStructField (evNewUnit "A") "x" (.scalar (.bool true)) = none ∧
    evPushTupleField (evNewUnit "A") (.scalar (.bool true)) = none ∧
    (evNewUnit "A").toObj.kind = .enum := by simp [evSetStructField, evPushTupleField, evNewUnit,
      Value.toObj, Obj.kind]

/-! ## C25 -/

/-- C25: any history of `push`/`pop`/`try_remove` through the `List` trait returns and leaves what the
same history on a plain list does, where pushing something that does not convert does nothing. -/
theorem C25_list_history (E : Env) (t : Ty) (l : List Obj) (ops : List ListOp) :
    ListOp.runAll E (.vec t l) ops =
      ((ListOp.absAll E t l ops).1, .vec t (ListOp.absAll E t l ops).2) := by
  induction ops generalizing l with
  | nil => rfl
  | cons op ops ih => simp only [ListOp.runAll, ListOp.absAll, listOp_step, ih]

/-- C25: `get(i)` and `len` are those of the plain list. -/
theorem C25_get_len (t : Ty) (l : List Obj) (i : Nat) :
    (Obj.vec t l).fieldAt i = l[i]? ∧ (Obj.vec t l).fieldsLen = l.length := ⟨rfl, rfl⟩

/-- C25: a list stays a list of proper elements. -/
theorem C25_list_typed (E : Env) (hO : OrdLaws E) (t : Ty) (m : Obj) (ops : List ListOp)
    (hm : HasTy E (.vec t) m) (hops : ∀ v, ListOp.push v ∈ ops → ∃ u, HasTy E u v) :
    HasTy E (.vec t) (ListOp.runAll E m ops).2 := by
  induction ops generalizing m with
  | nil => exact hm
  | cons op ops ih =>
    refine ih _ ?_ fun v hv => hops v (by simp [hv])
    cases hm with
    | vec _ xs h =>
      rw [listOp_step]
      refine .vec _ _ fun x hx => ?_
      cases op with
      | push v =>
        simp only [ListOp.abs, List.mem_append, Option.mem_toList] at hx
        rcases hx with hx | hx
        · exact h x hx
        · obtain ⟨u, hu⟩ := hops v (by simp)
          exact fromReflect_sound hO t v ⟨_, hu⟩ hx
      | pop => exact h x (List.dropLast_subset _ hx)
      | tryRemove i => exact h x (List.eraseIdx_subset hx)

/-- C25: a pushed value that does not convert leaves the list unchanged; one that does appears at the
end. -/
theorem C25_push (E : Env) (t : Ty) (l : List Obj) (v : Obj) :
    (fromReflect E t v = none → (Obj.vec t l).listPush E v = .vec t l) ∧
    (∀ y, fromReflect E t v = some y → (Obj.vec t l).listPush E v = .vec t (l ++ [y])) := by
  constructor
  · intro h; simp [Obj.listPush, h]
  · intro y h; simp [Obj.listPush, h]

/-- Push, drop an unconvertible value, remove from the middle and out of range, pop. -/
example : ListOp.absAll demoEnv (.scalar .bool)
      [.scalar (.bool true), .scalar (.bool false), .scalar (.bool false)]
      [.tryRemove 1, .tryRemove 5, .pop] =
    ([some (.scalar (.bool false)), none, some (.scalar (.bool false))], [.scalar (.bool true)]) := rfl

example : HasTy demoEnv (.vec (.scalar .bool)) (.vec (.scalar .bool) [.scalar (.bool true)]) :=
  .vec _ _ (by intro x hx; simp at hx; subst hx; exact .scalar' rfl)

end Mirror
