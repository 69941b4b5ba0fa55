import Verif.Spec.Access
import Verif.Lemmas.Path
import Verif.Lemmas.ReflectEq
import Verif.Lemmas.RoundTrip

set_option linter.unusedSimpArgs false

/-!
# Lemmas about views and typed field access
-/

namespace Mirror

variable {E : Env}

theorem Obj.reflectRef_only (o : Obj) : o.reflectRef.Only o.kind := by
  cases o <;> simp [View.Only, Obj.reflectRef, Obj.kind, View.asStruct, View.asTupleStruct, View.asTuple,
    View.asEnum, View.asArray, View.asList, View.asMap, View.asScalar, View.asOpaque]

theorem Obj.reflectOwned_eq (o : Obj) : o.reflectOwned = o.reflectRef := by cases o <;> rfl

theorem Obj.reflectMut_eq (o : Obj) (h : ∀ k n, o ≠ .nonzero k n) : o.reflectMut = o.reflectRef := by
  cases o <;> first | rfl | exact absurd rfl (h _ _)

theorem Value.kind_toObj (v : Value) : v.toObj.kind ≠ .array ∧ v.toObj.kind ≠ .opaque := by
  cases v <;> simp [Value.toObj, Obj.kind]

theorem HasTy.kind {t : Ty} {o : Obj} (h : HasTy E t o) : t.HasKind E o.kind := by
  induction h with
  | scalar s => exact .scalar _
  | nonzero k n _ => exact .nonzero k
  | struct n fds c fs h => exact .struct n fds c h
  | tupleStruct n fds c fs h => exact .tupleStruct n fds c h
  | enumS n vds c vn fds fs h => exact .enum n vds c h
  | enumT n vds c vn fds fs h => exact .enum n vds c h
  | enumU n vds c vn h => exact .enum n vds c h
  | tuple => exact .tuple _
  | vec => exact .vec _
  | array => exact .array _ _
  | map => exact .map _ _
  | box t o _ ih => exact .box _ _ ih
  | value v o _ ho => subst ho; exact .value _ v.kind_toObj.1 v.kind_toObj.2
  | structValue _ _ _ _ ho => subst ho; rw [Value.toObj]; exact .structValue
  | tupleStructValue _ _ _ ho => subst ho; rw [Value.toObj]; exact .tupleStructValue
  | tupleValue _ _ _ ho => subst ho; rw [Value.toObj]; exact .tupleValue
  | enumValueS _ _ _ _ _ ho => subst ho; rw [Value.toObj]; exact .enumValue
  | enumValueT _ _ _ _ ho => subst ho; rw [Value.toObj]; exact .enumValue
  | enumValueU _ _ ho => subst ho; rw [Value.toObj]; exact .enumValue

theorem HasTy.typeOf_concrete {t : Ty} {o : Obj} (h : HasTy E t o) (hc : t.Concrete) :
    o.typeOf = some t := by
  cases h with
  | box => exact hc.elim
  | value => exact hc.elim
  | structValue _ _ _ _ ho => subst ho; simp [Value.toObj, Obj.typeOf]
  | tupleStructValue _ _ _ ho => subst ho; simp [Value.toObj, Obj.typeOf]
  | tupleValue _ _ _ ho => subst ho; simp [Value.toObj, Obj.typeOf]
  | enumValueS _ _ _ _ _ ho => subst ho; simp [Value.toObj, Obj.typeOf]
  | enumValueT _ _ _ _ ho => subst ho; simp [Value.toObj, Obj.typeOf]
  | enumValueU _ _ ho => subst ho; simp [Value.toObj, Obj.typeOf]
  | _ => rfl

theorem Obj.typeOf_concrete {t : Ty} {o : Obj} (h : o.typeOf = some t) : t.Concrete := by
  cases o with
  | struct tag | tupleStruct tag | tuple tag | enumS tag | enumT tag | enumU tag =>
    cases tag <;> cases h <;> trivial
  | _ => cases h; all_goals trivial

/-- What `as_reflect` gives shows the type of the content. -/
theorem anyTy_reflTy (o : Obj) : ∀ (s : Ty) {r : Ty}, o.reflTy s = some r → o.anyTy r = o.typeOf
  | .box t, _, h => anyTy_reflTy o t h
  | .value, r, h => by
    rw [Obj.reflTy] at h
    split at h
    · cases h; rfl
    · cases h; rfl
    · have := Obj.typeOf_concrete h
      cases r <;> first | exact this.elim | rfl
  | .scalar _, _, h | .nonzero _, _, h | .named _, _, h | .tuple _, _, h | .vec _, _, h | .array _ _, _, h
  | .map _ _, _, h | .structValue, _, h | .tupleStructValue, _, h | .tupleValue, _, h | .enumValue, _, h => by
    cases h; rfl

theorem anyTy_bare {o : Obj} : ∀ {s : Ty}, s.Bare → o.anyTy s = o.anyTy .value
  | .box t, h => anyTy_bare (s := t) h
  | .value, _ => rfl
  | .scalar _, h | .nonzero _, h | .named _, h | .tuple _, h | .vec _, h | .array _ _, h
  | .map _ _, h | .structValue, h | .tupleStructValue, h | .tupleValue, h | .enumValue, h => h.elim

theorem anyTy_not_bare {o : Obj} : ∀ {s : Ty}, ¬s.Bare → o.anyTy s = o.typeOf
  | .box t, h => anyTy_not_bare (s := t) h
  | .value, h => absurd trivial h
  | .scalar _, _ | .nonzero _, _ | .named _, _ | .tuple _, _ | .vec _, _ | .array _ _, _
  | .map _ _, _ | .structValue, _ | .tupleStructValue, _ | .tupleValue, _ | .enumValue, _ => rfl

theorem anyTy_typeOf {o : Obj} {s : Ty} (h : o.typeOf = some s) : o.anyTy s = o.typeOf := by
  apply anyTy_not_bare
  have := Obj.typeOf_concrete h
  cases s <;> first | exact this.elim | exact id

theorem downcast_iff {o y : Obj} {s t : Ty} : o.downcast s t = some y ↔ y = o ∧ o.anyTy s = some t := by
  unfold Obj.downcast
  by_cases h : o.anyTy s = some t
  · simp [h, eq_comm]
  · simp [h]

theorem typeOf_iff (hO : OrdLaws E) {o : Obj} (h : o.OK E) {t : Ty} :
    o.typeOf = some t ↔ HasTy E t o ∧ t.Concrete :=
  ⟨fun ht => ⟨OK.typed hO h ht, Obj.typeOf_concrete ht⟩, fun ht => ht.1.typeOf_concrete ht.2⟩

/-- What a reference of type `s` shows. -/
theorem anyTy_iff (hO : OrdLaws E) {o : Obj} (h : o.OK E) {s t : Ty} :
    o.anyTy s = some t ↔ Reveals E s.Bare t o := by
  by_cases hb : s.Bare
  · rw [anyTy_bare hb, Obj.anyTy]
    split
    · rename_i ho
      constructor
      · intro e; cases e; exact .struct _ hb ((typeOf_iff hO h).mp ho).1
      · intro hs
        cases hs with
        | content _ _ ht hc hn =>
          have := ht.typeOf_concrete hc; rw [ho] at this; cases this; exact absurd rfl (hn hb).1
        | struct => rfl
        | enum _ _ ht => have := ht.typeOf_concrete trivial; rw [ho] at this; cases this
    · rename_i ho
      constructor
      · intro e; cases e; exact .enum _ hb ((typeOf_iff hO h).mp ho).1
      · intro hs
        cases hs with
        | content _ _ ht hc hn =>
          have := ht.typeOf_concrete hc; rw [ho] at this; cases this; exact absurd rfl (hn hb).2
        | enum => rfl
        | struct _ _ ht => have := ht.typeOf_concrete trivial; rw [ho] at this; cases this
    · rename_i h1 h2
      constructor
      · intro e
        obtain ⟨ht, hc⟩ := (typeOf_iff hO h).mp e
        exact .content _ _ ht hc fun _ => ⟨fun e' => h1 (e' ▸ e), fun e' => h2 (e' ▸ e)⟩
      · intro hs
        cases hs with
        | content _ _ ht hc hn => exact ht.typeOf_concrete hc
        | struct _ _ ht => exact absurd (ht.typeOf_concrete trivial) h1
        | enum _ _ ht => exact absurd (ht.typeOf_concrete trivial) h2
  · rw [anyTy_not_bare hb, typeOf_iff hO h]
    constructor
    · rintro ⟨ht, hc⟩; exact .content _ _ ht hc fun h => absurd h hb
    · intro hs
      cases hs with
      | content _ _ ht hc hn => exact ⟨ht, hc⟩
      | struct _ hb' => exact absurd hb' hb
      | enum _ hb' => exact absurd hb' hb

theorem Reveals.congr {p q : Prop} (h : p ↔ q) {t : Ty} {y : Obj} : Reveals E p t y ↔ Reveals E q t y := by
  rw [propext h]

theorem shows_not {p : Prop} (h : ¬p) {t : Ty} {y : Obj} : Reveals E p t y ↔ HasTy E t y ∧ t.Concrete := by
  constructor
  · intro hs
    cases hs with
    | content _ _ ht hc _ => exact ⟨ht, hc⟩
    | struct _ hb => exact absurd hb h
    | enum _ hb => exact absurd hb h
  · rintro ⟨ht, hc⟩; exact .content _ _ ht hc fun hp => absurd hp h

/-- A well-formed `StructValue` converts to itself, and so does an `EnumValue`. -/
theorem fromReflect_dyn_self {o : Obj} {t : Ty} (h : HasTy E t o) (ht : t = .structValue ∨ t = .enumValue) :
    fromReflect E t o = some o := by
  rcases ht with rfl | rfl
  · cases h with
    | structValue _ _ _ hw ho => subst ho; exact fromReflect_structValue hw
  · cases h with
    | enumValueS _ _ _ _ hw ho => subst ho; exact fromReflect_enumValueS hw
    | enumValueT _ _ _ hw ho => subst ho; exact fromReflect_enumValueT hw
    | enumValueU _ _ ho => subst ho; exact fromReflect_enumValueU

/-- The derived code clones a field that downcasts to its type and converts any other (macros
struct_named.rs:216-231, tuple_struct.rs:217-230, enum_.rs:380-395,424-437). Which of the two happens can
depend on the reference through which the field is reached; the result does not. -/
theorem from_reflect_shortcut (hO : OrdLaws E) {v : Obj} (h : v.OK E) (s t : Ty) :
    (if v.anyTy s == some t then some v else fromReflect E t v) =
      if v.isTy t then some v else fromReflect E t v := by
  unfold Obj.isTy
  by_cases hb : s.Bare
  · rw [anyTy_bare hb, Obj.anyTy]
    split
    · rename_i ho
      have hf := fromReflect_dyn_self ((typeOf_iff hO h).mp ho).1 (.inl rfl)
      have hf' : fromReflect E (.box .structValue) v = some v := by rw [fromReflect_box, hf]
      rw [ho]
      by_cases h1 : t = .structValue
      · subst h1; simp [hf]
      · by_cases h2 : t = .box .structValue
        · subst h2; simp [hf']
        · rw [if_neg (by simpa using fun e => h2 e.symm), if_neg (by simpa using fun e => h1 e.symm)]
    · rename_i ho
      have hf := fromReflect_dyn_self ((typeOf_iff hO h).mp ho).1 (.inr rfl)
      have hf' : fromReflect E (.box .enumValue) v = some v := by rw [fromReflect_box, hf]
      rw [ho]
      by_cases h1 : t = .enumValue
      · subst h1; simp [hf]
      · by_cases h2 : t = .box .enumValue
        · subst h2; simp [hf']
        · rw [if_neg (by simpa using fun e => h2 e.symm), if_neg (by simpa using fun e => h1 e.symm)]
    · rfl
  · rw [anyTy_not_bare hb]

/-- The names of a proper record are distinct. -/
theorem HasTy.names (hD : DeclsOK E) {S : Ty} {o : Obj} (h : HasTy E S o) :
    (∀ tag fs, o = .struct tag fs → (fs.map (·.1)).Nodup) ∧
    (∀ tag v fs, o = .enumS tag v fs → (fs.map (·.1)).Nodup) := by
  have aux : ∀ {l : List (String × Value)}, BMSorted strCmp l →
      ((l.map fun p => (p.1, p.2.toObj)).map (·.1)).Nodup := by
    intro l h; rw [List.map_map]; exact strSorted_nodup h
  have val : ∀ v : Value, v.WF → (∀ tag fs, v.toObj = .struct tag fs → (fs.map (·.1)).Nodup) ∧
    (∀ tag w fs, v.toObj = .enumS tag w fs → (fs.map (·.1)).Nodup) := by
    intro v hv
    cases hv with
    | struct ns fs _ hs _ =>
      rw [Value.toObj]
      exact ⟨fun _ _ h => (by cases h; exact aux hs), fun _ _ _ h => by cases h⟩
    | enumS v ns fs _ hs _ =>
      rw [Value.toObj]
      exact ⟨fun _ _ h => (by cases h), fun _ _ _ h => by cases h; exact aux hs⟩
    | _ => rw [Value.toObj]; exact ⟨fun _ _ h => (by cases h), fun _ _ _ h => by cases h⟩
  induction h with
  | struct n fds c fs hd hn =>
    exact ⟨fun _ _ h => (by cases h; rw [hn]; exact hD.struct_names n fds c hd), fun _ _ _ h => by cases h⟩
  | enumS n vds c vn fds fs hd hv hn =>
    exact ⟨fun _ _ h => (by cases h), fun _ _ _ h => by
      cases h; rw [hn]; exact hD.variant_fields n vds c vn fds hd hv⟩
  | box _ _ _ ih => exact ih
  | value v o hv ho => subst ho; exact val v hv
  | structValue _ _ _ hv ho => subst ho; exact val _ hv
  | tupleStructValue _ _ hv ho => subst ho; exact val _ hv
  | tupleValue _ _ hv ho => subst ho; exact val _ hv
  | enumValueS _ _ _ _ hv ho => subst ho; exact val _ hv
  | enumValueT _ _ _ hv ho => subst ho; exact val _ hv
  | enumValueU _ _ ho => subst ho; exact val _ (.enumU _)
  | _ => exact ⟨fun _ _ h => (by cases h), fun _ _ _ h => by cases h⟩

theorem HasTy.field_iff (hD : DeclsOK E) {S : Ty} {o y : Obj} (h : HasTy E S o) {n : String} :
    o.field n = some y ↔ FieldNamed o n y := by
  obtain ⟨h1, h2⟩ := h.names hD
  have mem : ∀ {fs : List (String × Obj)}, (n, y) ∈ visFields fs ↔ (n, y) ∈ fs ∧ y.isHidden = false := by
    intro fs; simp [visFields]
  cases o with
  | struct tag fs =>
    rw [Obj.field, lookup_iff (visFields_nodup (h1 _ _ rfl)), mem]
    exact ⟨fun h => .struct _ _ _ _ h.1 h.2, fun h => by cases h; exact ⟨by assumption, by assumption⟩⟩
  | enumS tag v fs =>
    rw [Obj.field, lookup_iff (visFields_nodup (h2 _ _ _ rfl)), mem]
    exact ⟨fun h => .enum _ _ _ _ _ h.1 h.2, fun h => by cases h; exact ⟨by assumption, by assumption⟩⟩
  | _ => exact ⟨fun h => by simp [Obj.field] at h, fun h => by cases h⟩

theorem visAt_iff {fs : List Obj} {i : Nat} {y : Obj} :
    visAt fs i = some y ↔ fs[i]? = some y ∧ y.isHidden = false := by
  unfold visAt
  split
  · rename_i x hx
    cases hh : x.isHidden with
    | true => simp [hx]; rintro rfl; simp [hh]
    | false => simp [hx]; rintro rfl; exact hh
  · simp_all

theorem HasTy.tuple_vis {S : Ty} {tag : TTag} {fs : List Obj} (h : HasTy E S (.tuple tag fs)) :
    ∀ x ∈ fs, x.isHidden = false := by
  have val : ∀ v : Value, v.toObj = .tuple tag fs → ∀ x ∈ fs, x.isHidden = false := by
    intro v hv x hx
    cases v <;> simp [Value.toObj] at hv
    obtain ⟨_, rfl⟩ := hv
    obtain ⟨w, _, rfl⟩ := List.mem_map.mp hx
    exact w.toObj_not_hidden
  generalize ho : Obj.tuple tag fs = o at h
  induction h with
  | tuple ts gs hl h _ =>
    cases ho
    intro x hx
    obtain ⟨i, hi⟩ := List.getElem?_of_mem hx
    obtain ⟨t, ht⟩ := align_pos hl hi
    exact (h i t x ht hi).not_hidden
  | box _ _ _ ih => exact ih ho
  | value v o hv h => exact val v (by rw [ho, h])
  | structValue _ _ _ _ h => exact val _ (by rw [ho, h])
  | tupleStructValue _ _ _ h => exact val _ (by rw [ho, h])
  | tupleValue _ _ _ h => exact val _ (by rw [ho, h])
  | enumValueS _ _ _ _ _ h => exact val _ (by rw [ho, h])
  | enumValueT _ _ _ _ h => exact val _ (by rw [ho, h])
  | enumValueU _ _ h => exact val _ (by rw [ho, h])
  | _ => cases ho

theorem HasTy.fieldAt_iff (hD : DeclsOK E) {S : Ty} {o y : Obj} (h : HasTy E S o) {i : Nat}
    (hk : o.kind ≠ .struct) : o.fieldAt i = some y ↔ FieldAt o i y := by
  obtain ⟨-, h2⟩ := h.names hD
  cases o with
  | struct => exact absurd rfl hk
  | tupleStruct tag fs =>
    rw [Obj.fieldAt, visAt_iff]
    exact ⟨fun h => .tupleStruct _ _ _ _ h.1 h.2, fun h => by cases h; exact ⟨by assumption, by assumption⟩⟩
  | tuple tag fs =>
    rw [Obj.fieldAt, visAt_iff]
    exact ⟨fun h => .tuple _ _ _ _ h.1, fun hh => by
      cases hh with | tuple _ _ _ _ hh => exact ⟨hh, h.tuple_vis _ (List.mem_of_getElem? hh)⟩⟩
  | enumT tag v fs =>
    rw [Obj.fieldAt, visAt_iff]
    exact ⟨fun h => .enumT _ _ _ _ _ h.1 h.2, fun h => by cases h; exact ⟨by assumption, by assumption⟩⟩
  | enumS tag v fs =>
    have hn := h2 _ _ _ rfl
    cases tag with
    | derived n =>
      rw [Obj.fieldAt, visAt_iff, List.getElem?_map]
      constructor
      · rintro ⟨he, hv⟩
        obtain ⟨p, hp, rfl⟩ := Option.map_eq_some_iff.mp he
        exact .enumS _ _ _ _ p.1 _ hp hv
      · intro h
        cases h with | enumS _ _ _ _ m _ he hv => simp [he, hv]
    | dyn ns =>
      rw [Obj.fieldAt, Option.bind_eq_some_iff]
      constructor
      · rintro ⟨m, hm, hl⟩; exact .enumDyn _ _ _ _ m _ hm (lookup_mem hl)
      · intro h
        cases h with | enumDyn _ _ _ _ m _ hm hl => exact ⟨m, hm, (lookup_iff hn).mpr hl⟩
  | vec t xs => exact ⟨fun h => .vec _ _ _ _ h, fun h => by cases h; assumption⟩
  | array t xs => exact ⟨fun h => .array _ _ _ _ h, fun h => by cases h; assumption⟩
  | _ => exact ⟨fun h => by simp [Obj.fieldAt] at h, fun h => by cases h⟩

theorem HasTy.mapGet_entry (hO : OrdLaws E) {S : Ty} {o y : Obj} (h : HasTy E S o) {K : Ty} {k : Obj}
    (hk : HasTy E K k) : o.mapGet E k = some y ↔ EntryAt E o k y := by
  cases o with
  | map kt vt kvs =>
    rw [mapGet_iff hO ⟨S, h⟩ ⟨K, hk⟩]
    constructor
    · rintro ⟨k₀, hm, k', hf, he⟩; exact .map kt vt kvs k k' (k₀, y) hf hm he
    · intro h
      cases h with | map _ _ _ _ k' p hf hm he => exact ⟨p.1, hm, k', hf, he⟩
  | _ => exact ⟨fun h => by simp [Obj.mapGet] at h, fun h => by cases h⟩

theorem OK.typeOf_some {x : Obj} (h : x.OK E) : ∃ s, x.typeOf = some s := by
  obtain ⟨s, hs⟩ := h
  cases hx' : x.typeOf with
  | some s => exact ⟨s, rfl⟩
  | none =>
    cases x with
    | hidden => exact absurd hs.not_hidden (by simp [Obj.isHidden])
    | struct tag | tupleStruct tag | tuple tag | enumS tag | enumT tag | enumU tag =>
      cases tag <;> simp [Obj.typeOf] at hx'
    | _ => simp [Obj.typeOf] at hx'

/-- A reference that `as_reflect` gave. -/
theorem plain_shows (hO : OrdLaws E) {x : Obj} (hok : x.OK E) {p : Prop} (hn : ¬p) (t : Ty) :
    ∃ s, x.typeOf = some s ∧ (x.anyTy s = some t ↔ Reveals E p t x) := by
  obtain ⟨s, hs⟩ := OK.typeOf_some hok
  exact ⟨s, hs, by rw [anyTy_typeOf hs, shows_not hn, typeOf_iff hO hok]⟩

/-- A reference to a `Value`. -/
theorem bare_shows (hO : OrdLaws E) {x : Obj} (hok : x.OK E) {p : Prop} (hb : p) (t : Ty) :
    ∃ s, some Ty.value = some s ∧ (x.anyTy s = some t ↔ Reveals E p t x) :=
  ⟨.value, rfl, by rw [anyTy_iff hO hok]; exact Reveals.congr ⟨fun _ => hb, fun _ => trivial⟩⟩

theorem fieldDef_unique {fds : List FieldDef} (h : (fds.map (·.name)).Nodup) {a b : FieldDef}
    (ha : a ∈ fds) (hb : b ∈ fds) (e : a.name = b.name) : a = b := by
  induction fds with
  | nil => cases ha
  | cons d r ih =>
    rw [List.map_cons, List.nodup_cons] at h
    rcases List.mem_cons.mp ha with ea | ha' <;> rcases List.mem_cons.mp hb with eb | hb'
    · rw [ea, eb]
    · exact (h.1 (List.mem_map.mpr ⟨b, hb', by rw [← e, ea]⟩)).elim
    · exact (h.1 (List.mem_map.mpr ⟨a, ha', by rw [e, eb]⟩)).elim
    · exact ih h.2 ha' hb'

/-- The reference that `field` gives, and what it shows. -/
theorem fieldRefTy_shows (hD : DeclsOK E) (hO : OrdLaws E) {S : Ty} {o x : Obj} (h : HasTy E S o) {n : String}
    (hx : o.field n = some x) (t : Ty) :
    ∃ s, o.fieldRefTy E n x = some s ∧ (x.anyTy s = some t ↔ Reveals E (BareKey E o (.named n)) t x) := by
  have hok : x.OK E := OK_field ⟨S, h⟩ hx
  cases o with
  | struct tag fs =>
    cases tag with
    | dyn ns => exact bare_shows hO hok (.structValue _ _ _) t
    | derived m =>
      have hf := (h.field_iff hD).mp hx
      have : ∃ fds c, E.decl m = some ⟨.struct fds, c⟩ ∧ fs.map (·.1) = fds.map (·.name) := by
        have val : ∀ v : Value, v.toObj ≠ .struct (.derived m) fs := by
          intro v hv; cases v <;> simp [Value.toObj] at hv
        generalize ho : Obj.struct (.derived m) fs = o at h
        clear hx hf
        induction h with
        | struct m fds c fs hd hn => cases ho; exact ⟨fds, c, hd, hn⟩
        | box _ _ _ ih => exact ih ho
        | value v o hv h => exact absurd (by rw [ho, h]) (val v)
        | structValue _ _ _ _ h => exact absurd (by rw [ho, h]) (val _)
        | tupleStructValue _ _ _ h => exact absurd (by rw [ho, h]) (val _)
        | tupleValue _ _ _ h => exact absurd (by rw [ho, h]) (val _)
        | enumValueS _ _ _ _ _ h => exact absurd (by rw [ho, h]) (val _)
        | enumValueT _ _ _ _ h => exact absurd (by rw [ho, h]) (val _)
        | enumValueU _ _ h => exact absurd (by rw [ho, h]) (val _)
        | _ => cases ho
      obtain ⟨fds, c, hd, hn⟩ := this
      have hmem : n ∈ fds.map (·.name) := by
        rw [← hn]
        cases hf with | struct _ _ _ _ hm _ => exact List.mem_map.mpr ⟨_, hm, rfl⟩
      have hfind : ∃ fd, fds.find? (fun fd => fd.name == n) = some fd := by
        cases hf' : fds.find? (fun fd => fd.name == n) with
        | some fd => exact ⟨fd, rfl⟩
        | none =>
          obtain ⟨fd, hfd, rfl⟩ := List.mem_map.mp hmem
          exact absurd (List.find?_eq_none.mp hf' fd hfd) (by simp)
      obtain ⟨fd, hfd⟩ := hfind
      have hname : fd.name = n := by simpa using List.find?_some hfd
      have hfm := List.mem_of_find?_eq_some hfd
      refine ⟨fd.ty, by simp [Obj.fieldRefTy, Env.structFieldTy, hd, hfd], ?_⟩
      rw [anyTy_iff hO hok]
      refine Reveals.congr ⟨fun hb => hname ▸ .struct _ fds c _ fd hd hfm hb, fun hb => ?_⟩
      generalize hk : Key.named n = k at hb
      cases hb with
      | struct _ fds' c' _ fd' hd' hm' hb' =>
        rw [hd] at hd'
        cases hd'
        have e : fd' = fd := by
          injection hk with hk
          exact fieldDef_unique (hD.struct_names m fds c hd) hm' hfm (by rw [hname, ← hk])
        exact e ▸ hb'
  | enumS tag v fs =>
    cases tag with
    | dyn ns => exact bare_shows hO hok (.enumValue _ _ _ _) t
    | derived m => exact plain_shows hO hok (fun h => by cases h) t
  | _ => exact plain_shows hO hok (fun h => by cases h) t

/-- The reference that `field_at` gives, and what it shows. -/
theorem fieldAtRefTy_shows (hO : OrdLaws E) {S : Ty} {o x : Obj} (h : HasTy E S o) {i : Nat}
    (hx : o.fieldAt i = some x) (hk : o.kind ≠ .struct) (t : Ty) :
    ∃ s, o.fieldAtRefTy i x = some s ∧ (x.anyTy s = some t ↔ Reveals E (BareKey E o (.numbered i)) t x) := by
  have hok : x.OK E := OK_fieldAt ⟨S, h⟩ hx
  cases o with
  | struct => exact absurd rfl hk
  | enumS tag v fs =>
    cases tag with
    | dyn ns => exact bare_shows hO hok (.enumValueAt _ _ _ _) t
    | derived m => exact plain_shows hO hok (fun h => by cases h) t
  | tuple tag fs =>
    cases tag with
    | dyn => exact plain_shows hO hok (fun h => by cases h) t
    | typed ts =>
      have hl : ts.length = fs.length := by
        have val : ∀ v : Value, v.toObj ≠ .tuple (.typed ts) fs := by
          intro v hv; cases v <;> simp [Value.toObj] at hv
        generalize ho : Obj.tuple (.typed ts) fs = o at h
        clear hx
        induction h with
        | tuple ts' fs' hl _ _ => cases ho; first | exact hl | exact hl.symm
        | box _ _ _ ih => exact ih ho
        | value v o hv h => exact absurd (by rw [ho, h]) (val v)
        | structValue _ _ _ _ h => exact absurd (by rw [ho, h]) (val _)
        | tupleStructValue _ _ _ h => exact absurd (by rw [ho, h]) (val _)
        | tupleValue _ _ _ h => exact absurd (by rw [ho, h]) (val _)
        | enumValueS _ _ _ _ _ h => exact absurd (by rw [ho, h]) (val _)
        | enumValueT _ _ _ _ h => exact absurd (by rw [ho, h]) (val _)
        | enumValueU _ _ h => exact absurd (by rw [ho, h]) (val _)
        | _ => cases ho
      rw [Obj.fieldAt, visAt_iff] at hx
      have hi : i < ts.length := by rw [hl]; exact (List.getElem?_eq_some_iff.mp hx.1).1
      refine ⟨ts[i], by simp [Obj.fieldAtRefTy, hi], ?_⟩
      rw [anyTy_iff hO hok]
      refine Reveals.congr ⟨fun hb => .tuple _ _ _ _ (by simp [hi]) hb, fun hb => ?_⟩
      cases hb with
      | tuple _ _ _ t' ht hb => simp [hi] at ht; exact ht ▸ hb
  | _ => exact plain_shows hO hok (fun h => by cases h) t

/-- Downcasting a part that is there. -/
theorem downcast_bind {r : Option Obj} {f : Obj → Option Ty} {t : Ty} {y : Obj} {P : Obj → Prop}
    (hr : ∀ x, r = some x → ∃ s, f x = some s ∧ (x.anyTy s = some t ↔ P x)) :
    (r.bind fun x => (f x).bind fun s => x.downcast s t) = some y ↔ r = some y ∧ P y := by
  constructor
  · intro h
    obtain ⟨x, hx, hd⟩ := Option.bind_eq_some_iff.mp h
    obtain ⟨s, hs, hp⟩ := hr x hx
    rw [hs, Option.bind_some] at hd
    obtain ⟨rfl, ht⟩ := downcast_iff.mp hd
    exact ⟨hx, hp.mp ht⟩
  · rintro ⟨hx, ht⟩
    obtain ⟨s, hs, hp⟩ := hr y hx
    rw [hx, Option.bind_some, hs, Option.bind_some]
    exact downcast_iff.mpr ⟨rfl, hp.mpr ht⟩

theorem OK.noZero {o : Obj} (h : o.OK E) : o.NoZero := by
  induction o using Obj.ind with
  | h o ih =>
    refine .mk _ ?_ fun x hx => ih x (Obj.parts_size hx) (h.parts hx)
    rintro k n rfl rfl
    obtain ⟨t, h⟩ := h
    generalize ho : Obj.nonzero k 0 = o at h
    have val : ∀ v : Value, Obj.nonzero k 0 ≠ v.toObj := by
      intro v hv; cases v <;> simp [Value.toObj] at hv
    induction h with
    | nonzero _ _ hn => cases ho; exact hn rfl
    | box _ _ _ ih => exact ih ho
    | value v o hv h => exact val v (by rw [ho, h])
    | structValue _ _ _ _ h => exact val _ (by rw [ho, h])
    | tupleStructValue _ _ _ h => exact val _ (by rw [ho, h])
    | tupleValue _ _ _ h => exact val _ (by rw [ho, h])
    | enumValueS _ _ _ _ _ h => exact val _ (by rw [ho, h])
    | enumValueT _ _ _ _ h => exact val _ (by rw [ho, h])
    | enumValueU _ _ h => exact val _ (by rw [ho, h])
    | _ => cases ho

end Mirror
