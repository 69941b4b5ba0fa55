import Verif.Lemmas.StandIn
import Verif.Lemmas.Access
import Verif.Lemmas.DefaultExact
import Verif.Spec.Versions

set_option linter.unusedSimpArgs false

/-!
# When the values of one type can be read as another
-/

namespace Mirror

/-- `v` can be read at type `t`. -/
def Reads (E : Env) (t : Ty) (v : Obj) : Prop := ∃ y, fromReflect E t v = some y

theorem optAll_isSome {α : Type} {l : List (Option α)} :
    (∃ r, optAll l = some r) ↔ ∀ x ∈ l, ∃ y, x = some y := by
  refine ⟨fun ⟨r, h⟩ => optAll_mem h, fun h => ?_⟩
  induction l with
  | nil => exact ⟨[], rfl⟩
  | cons a l ih =>
    obtain ⟨y, rfl⟩ := h a (by simp)
    obtain ⟨r, hr⟩ := ih fun x hx => h x (by simp [hx])
    exact ⟨y :: r, by simp [optAll_eq_some] at hr ⊢; exact hr⟩

theorem value_any {E E' : Env} {v : Obj} (h : HasTy E .value v) : HasTy E' .value v := by
  cases h with
  | value w _ hw ho => exact .value w _ hw ho

/-- A `Value` can be read at its own type. -/
theorem reads_own {E : Env} {v : Obj} {t : Ty} (h : HasTy E .value v) (ht : v.typeOf = some t) : Reads E t v := by
  cases h with
  | value w o hw ho =>
    subst ho
    cases w with
    | scalar s =>
      simp [Value.toObj, Obj.typeOf] at ht
      subst ht
      exact ⟨.scalar s, by rw [Value.toObj, fromReflect_scalar]; simp [Obj.isTy, Obj.typeOf]⟩
    | struct ns fs =>
      have : t = .structValue := by simpa [Value.toObj, Obj.typeOf, eq_comm] using ht
      subst this
      exact ⟨_, fromReflect_structValue hw⟩
    | tupleStruct fs =>
      have : t = .tupleStructValue := by simpa [Value.toObj, Obj.typeOf, eq_comm] using ht
      subst this
      exact ⟨_, fromReflect_tupleStructValue hw⟩
    | tuple fs =>
      have : t = .tupleValue := by simpa [Value.toObj, Obj.typeOf, eq_comm] using ht
      subst this
      exact ⟨_, fromReflect_tupleValue hw⟩
    | enumS vn ns fs =>
      have : t = .enumValue := by simpa [Value.toObj, Obj.typeOf, eq_comm] using ht
      subst this
      exact ⟨_, fromReflect_enumValueS hw⟩
    | enumT vn fs =>
      have : t = .enumValue := by simpa [Value.toObj, Obj.typeOf, eq_comm] using ht
      subst this
      exact ⟨_, fromReflect_enumValueT hw⟩
    | enumU vn =>
      have : t = .enumValue := by simpa [Value.toObj, Obj.typeOf, eq_comm] using ht
      subst this
      exact ⟨_, fromReflect_enumValueU⟩
    | list xs =>
      have : t = .vec .value := by simpa [Value.toObj, Obj.typeOf, eq_comm] using ht
      subst this
      rw [Value.toObj, Reads]
      simp only [fromReflect_vec, Option.map_eq_some_iff]
      obtain ⟨r, hr⟩ := (optAll_isSome (l := (xs.map fun x => x.toObj).map fun x => fromReflect E .value x)).mpr (by
        intro x hx
        obtain ⟨z, _, rfl⟩ := List.mem_map.mp hx
        exact ⟨_, fromReflect_value _ _⟩)
      exact ⟨_, r, hr, rfl⟩
    | map kvs =>
      have : t = .map .value .value := by simpa [Value.toObj, Obj.typeOf, eq_comm] using ht
      subst this
      rw [Value.toObj, Reads]
      simp only [fromReflect_map, Option.map_eq_some_iff]
      obtain ⟨r, hr⟩ := (optAll_isSome (l := (kvs.map fun p => (p.1.toObj, p.2.toObj)).map fun p =>
        (fromReflect E .value p.1).bind fun k => (fromReflect E .value p.2).map fun v => (k, v))).mpr (by
        intro x hx
        obtain ⟨z, _, rfl⟩ := List.mem_map.mp hx
        exact ⟨_, by rw [fromReflect_value, fromReflect_value]; rfl⟩)
      exact ⟨_, r, hr, rfl⟩

theorem convField_reads {E : Env} {c : Bool} {t : Ty} {v : Obj} (h : HasTy E .value v) :
    (∃ y, convField E c t v = some y) ↔ Reads E t v := by
  simp only [convField]
  split
  · rename_i hc
    simp only [Bool.and_eq_true, Bool.not_eq_true', Obj.isTy, beq_iff_eq] at hc
    exact ⟨fun _ => reads_own h hc.2, fun _ => ⟨v, rfl⟩⟩
  · exact Iff.rfl

theorem field_value {E : Env} {v x : Obj} {n : String} (h : HasTy E .value v)
    (hx : v.field n = some x) : HasTy E .value x := by
  cases h with
  | value w o hw ho =>
    subst ho
    have mem : ∀ {fs : List (String × Value)}, lookup n (visFields (fs.map fun p => (p.1, p.2.toObj))) = some x →
        (∀ p ∈ fs, p.2.WF) → HasTy E .value x := by
      intro fs hl hf
      have := lookup_mem hl
      obtain ⟨q, hq, he⟩ := List.mem_map.mp (List.mem_filter.mp this).1
      cases he
      exact .value _ _ (hf q hq) rfl
    cases hw with
    | struct ns fs h1 h2 h3 => rw [Value.toObj, Obj.field] at hx; exact mem hx h3
    | enumS vn ns fs h1 h2 h3 => rw [Value.toObj, Obj.field] at hx; exact mem hx h3
    | _ => simp [Value.toObj, Obj.field] at hx

theorem fieldAt_value {E : Env} {v x : Obj} {i : Nat} (h : HasTy E .value v)
    (hx : v.fieldAt i = some x) : HasTy E .value x := by
  cases h with
  | value w o hw ho =>
    subst ho
    have mem : ∀ {n : String} {fs : List (String × Value)}, lookup n (fs.map fun p => (p.1, p.2.toObj)) = some x →
        (∀ p ∈ fs, p.2.WF) → HasTy E .value x := by
      intro n fs hl hf
      have := lookup_mem hl
      obtain ⟨q, hq, he⟩ := List.mem_map.mp this
      cases he
      exact .value _ _ (hf q hq) rfl
    have pos : ∀ {fs : List Value}, (fs.map fun x => x.toObj)[i]? = some x → (∀ p ∈ fs, p.WF) →
        HasTy E .value x := by
      intro fs hl hf
      obtain ⟨q, hq, rfl⟩ := List.mem_map.mp (List.mem_of_getElem? hl)
      exact .value _ _ (hf q hq) rfl
    cases hw with
    | struct ns fs h1 h2 h3 =>
      rw [Value.toObj, Obj.fieldAt] at hx
      obtain ⟨m, _, hl⟩ := Option.bind_eq_some_iff.mp hx
      exact mem hl h3
    | enumS vn ns fs h1 h2 h3 =>
      rw [Value.toObj, Obj.fieldAt] at hx
      obtain ⟨m, _, hl⟩ := Option.bind_eq_some_iff.mp hx
      exact mem hl h3
    | tupleStruct fs h => rw [Value.toObj, Obj.fieldAt, visAt_iff] at hx; exact pos hx.1 h
    | tuple fs h => rw [Value.toObj, Obj.fieldAt, visAt_iff] at hx; exact pos hx.1 h
    | enumT vn fs h => rw [Value.toObj, Obj.fieldAt, visAt_iff] at hx; exact pos hx.1 h
    | list fs h => rw [Value.toObj, Obj.fieldAt] at hx; exact pos hx h
    | _ => simp [Value.toObj, Obj.fieldAt] at hx

theorem mem_shown {fds : List FieldDef} {fd : FieldDef} : fd ∈ declShown fds ↔ fd ∈ fds ∧ fd.skip = false := by
  simp [declShown]

theorem named_reads {E : Env} {c : Bool} {v : Obj} {fds : List FieldDef} (h : HasTy E .value v) :
    (∃ fs, optAll (fds.map (convNamed E c v)) = some fs) ↔
      ∀ fd ∈ declShown fds, ∃ x, v.field fd.name = some x ∧ Reads E fd.ty x := by
  rw [optAll_isSome]
  constructor
  · intro H fd hfd
    obtain ⟨hm, hs⟩ := mem_shown.mp hfd
    obtain ⟨y, hy⟩ := H _ (List.mem_map.mpr ⟨fd, hm, rfl⟩)
    simp only [convNamed, hs, Bool.false_eq_true, if_false] at hy
    obtain ⟨x, hx, hy⟩ := Option.bind_eq_some_iff.mp hy
    obtain ⟨z, hz, _⟩ := Option.map_eq_some_iff.mp hy
    exact ⟨x, hx, (convField_reads (field_value h hx)).mp ⟨z, hz⟩⟩
  · intro H o ho
    obtain ⟨fd, hm, rfl⟩ := List.mem_map.mp ho
    cases hs : fd.skip with
    | true => exact ⟨(fd.name, .hidden 0), by simp only [convNamed, hs, if_true]⟩
    | false =>
      obtain ⟨x, hx, hr⟩ := H fd (mem_shown.mpr ⟨hm, hs⟩)
      obtain ⟨y, hy⟩ := (convField_reads (c := c) (field_value h hx)).mpr hr
      exact ⟨(fd.name, y), by simp [convNamed, hs, hx, hy]⟩

theorem pos_reads {E : Env} {c : Bool} {v : Obj} {fds : List FieldDef} (h : HasTy E .value v) :
    (∃ fs, optAll (fds.mapIdx (convPos E c v)) = some fs) ↔
      ∀ (i : Nat) fd, fds[i]? = some fd → fd.skip = false → ∃ x, v.fieldAt i = some x ∧ Reads E fd.ty x := by
  rw [optAll_isSome]
  constructor
  · intro H i fd hfd hs
    obtain ⟨y, hy⟩ := H (convPos E c v i fd) (List.mem_of_getElem? (i := i) (by simp [hfd]))
    simp only [convPos, hs, Bool.false_eq_true, if_false] at hy
    obtain ⟨x, hx, hy⟩ := Option.bind_eq_some_iff.mp hy
    exact ⟨x, hx, (convField_reads (fieldAt_value h hx)).mp ⟨y, hy⟩⟩
  · intro H o ho
    obtain ⟨i, hi⟩ := List.getElem?_of_mem ho
    rw [List.getElem?_mapIdx, Option.map_eq_some_iff] at hi
    obtain ⟨fd, hfd, rfl⟩ := hi
    cases hs : fd.skip with
    | true => exact ⟨.hidden 0, by simp only [convPos, hs, if_true]⟩
    | false =>
      obtain ⟨x, hx, hr⟩ := H i fd hfd hs
      obtain ⟨y, hy⟩ := (convField_reads (c := c) (fieldAt_value h hx)).mpr hr
      exact ⟨y, by simp [convPos, hs, hx, hy]⟩

theorem reads_struct {E : Env} {n : String} {fds : List FieldDef} {c : Bool}
    (hd : E.decl n = some ⟨.struct fds, c⟩) {v : Obj} (h : HasTy E .value v) :
    Reads E (.named n) v ↔ v.kind = .struct ∧
      ∀ fd ∈ declShown fds, ∃ x, v.field fd.name = some x ∧ Reads E fd.ty x := by
  rw [← named_reads (c := c) h, Reads]
  simp only [fromReflect_struct hd]
  split
  · rename_i hk
    simp only [Option.map_eq_some_iff, hk, true_and]
    exact ⟨fun ⟨_, fs, hf, _⟩ => ⟨fs, hf⟩, fun ⟨fs, hf⟩ => ⟨_, fs, hf, rfl⟩⟩
  · rename_i hk; simp [hk]

theorem reads_tupleStruct {E : Env} {n : String} {fds : List FieldDef} {c : Bool}
    (hd : E.decl n = some ⟨.tupleStruct fds, c⟩) {v : Obj} (h : HasTy E .value v) :
    Reads E (.named n) v ↔ v.kind = .tupleStruct ∧
      ∀ (i : Nat) fd, fds[i]? = some fd → fd.skip = false → ∃ x, v.fieldAt i = some x ∧ Reads E fd.ty x := by
  rw [← pos_reads (c := c) h, Reads]
  simp only [fromReflect_tupleStruct hd]
  split
  · rename_i hk
    simp only [Option.map_eq_some_iff, hk, true_and]
    exact ⟨fun ⟨_, fs, hf, _⟩ => ⟨fs, hf⟩, fun ⟨fs, hf⟩ => ⟨_, fs, hf, rfl⟩⟩
  · rename_i hk; simp [hk]

/-- What a variant of the reader asks of a value. -/
def VariantAsks (E : Env) (v : Obj) : VariantDef → Prop
  | .struct _ fds => ∀ fd ∈ declShown fds, ∃ x, v.field fd.name = some x ∧ Reads E fd.ty x
  | .tuple _ fds =>
    ∀ (i : Nat) fd, fds[i]? = some fd → fd.skip = false → ∃ x, v.fieldAt i = some x ∧ Reads E fd.ty x
  | .unit _ => True

theorem reads_enum {E : Env} (hD : DeclsOK E) {n : String} {vds : List VariantDef} {c : Bool}
    (hd : E.decl n = some ⟨.enum vds, c⟩) {v : Obj} (h : HasTy E .value v) :
    Reads E (.named n) v ↔ ∃ vd ∈ vds, v.variantName = some vd.name ∧ VariantAsks E v vd := by
  rw [Reads]
  simp only [fromReflect_enum hd]
  constructor
  · rintro ⟨y, hy⟩
    obtain ⟨vn, hvn, hy⟩ := Option.bind_eq_some_iff.mp hy
    obtain ⟨vd, hvd, hy⟩ := Option.bind_eq_some_iff.mp hy
    have hm := List.mem_of_find?_eq_some hvd
    have hname : vd.name = vn := by simpa using List.find?_some hvd
    refine ⟨vd, hm, by rw [hname, hvn], ?_⟩
    cases vd with
    | struct m fds =>
      obtain ⟨fs, hfs, _⟩ := Option.map_eq_some_iff.mp hy
      exact (named_reads (c := c) h).mp ⟨fs, hfs⟩
    | tuple m fds =>
      obtain ⟨fs, hfs, _⟩ := Option.map_eq_some_iff.mp hy
      exact (pos_reads (c := c) h).mp ⟨fs, hfs⟩
    | unit m => trivial
  · rintro ⟨vd, hm, hn, ha⟩
    have hf : vds.find? (fun d => d.name = vd.name) = some vd := find_variant (hD.variant_names n vds c hd) hm
    rw [hn, Option.bind_some, hf, Option.bind_some]
    cases vd with
    | struct m fds =>
      obtain ⟨fs, hfs⟩ := (named_reads (c := c) h).mpr ha
      exact ⟨_, Option.map_eq_some_iff.mpr ⟨fs, hfs, rfl⟩⟩
    | tuple m fds =>
      obtain ⟨fs, hfs⟩ := (pos_reads (c := c) h).mpr ha
      exact ⟨_, Option.map_eq_some_iff.mpr ⟨fs, hfs, rfl⟩⟩
    | unit m => exact ⟨_, rfl⟩

theorem reads_tuple {E : Env} {ts : List Ty} {v : Obj} :
    Reads E (.tuple ts) v ↔ v.kind = .tuple ∧
      ∀ (i : Nat) t, ts[i]? = some t → ∃ x, v.fieldAt i = some x ∧ Reads E t x := by
  rw [Reads]
  simp only [fromReflect_tuple]
  split
  · rename_i hk
    simp only [Option.map_eq_some_iff, hk, true_and]
    constructor
    · rintro ⟨_, fs, hf, _⟩ i t ht
      obtain ⟨y, hy⟩ := optAll_mem hf ((v.fieldAt i).bind fun x => fromReflect E t x)
        (List.mem_of_getElem? (i := i) (by simp [ht]))
      obtain ⟨x, hx, hy⟩ := Option.bind_eq_some_iff.mp hy
      exact ⟨x, hx, y, hy⟩
    · intro H
      obtain ⟨r, hr⟩ := (optAll_isSome (l := ts.mapIdx fun i t => (v.fieldAt i).bind fun x => fromReflect E t x)).mpr (by
        intro o ho
        obtain ⟨i, hi⟩ := List.getElem?_of_mem ho
        rw [List.getElem?_mapIdx, Option.map_eq_some_iff] at hi
        obtain ⟨t, ht, rfl⟩ := hi
        obtain ⟨x, hx, y, hy⟩ := H i t ht
        exact ⟨y, by simp [hx, hy]⟩)
      exact ⟨_, r, hr, rfl⟩
  · rename_i hk; simp [hk]

theorem optAll_map_reads {E : Env} {t : Ty} {xs : List Obj} :
    (∃ r, optAll (xs.map fun x => fromReflect E t x) = some r) ↔ ∀ x ∈ xs, Reads E t x := by
  rw [optAll_isSome]
  exact ⟨fun H x hx => H _ (List.mem_map.mpr ⟨x, hx, rfl⟩), fun H o ho => by
    obtain ⟨x, hx, rfl⟩ := List.mem_map.mp ho; exact H x hx⟩

theorem reads_vec {E : Env} {t u : Ty} {xs : List Obj} : Reads E (.vec t) (.vec u xs) ↔ ∀ x ∈ xs, Reads E t x := by
  rw [← optAll_map_reads, Reads]
  simp only [fromReflect_vec, Option.map_eq_some_iff]
  exact ⟨fun ⟨_, r, h, _⟩ => ⟨r, h⟩, fun ⟨r, h⟩ => ⟨_, r, h, rfl⟩⟩

theorem reads_array {E : Env} {t u : Ty} {n : Nat} {xs : List Obj} :
    Reads E (.array t n) (.vec u xs) ↔ xs.length = n ∧ ∀ x ∈ xs, Reads E t x := by
  rw [← optAll_map_reads, Reads]
  simp only [fromReflect_array]
  constructor
  · rintro ⟨y, hy⟩
    obtain ⟨r, hr, hy⟩ := Option.bind_eq_some_iff.mp hy
    have hl := (optAll_map_inv hr).1
    split at hy
    · rename_i h; exact ⟨by omega, r, hr⟩
    · cases hy
  · rintro ⟨hn, r, hr⟩
    have hl := (optAll_map_inv hr).1
    exact ⟨_, by rw [hr, Option.bind_some, if_pos (by omega)]⟩

theorem reads_map {E : Env} {kt vt u w : Ty} {kvs : List (Obj × Obj)} :
    Reads E (.map kt vt) (.map u w kvs) ↔ ∀ p ∈ kvs, Reads E kt p.1 ∧ Reads E vt p.2 := by
  rw [Reads]
  simp only [fromReflect_map, Option.map_eq_some_iff]
  constructor
  · rintro ⟨_, r, hr, _⟩ p hp
    obtain ⟨y, hy⟩ := optAll_mem hr _ (List.mem_map.mpr ⟨p, hp, rfl⟩)
    obtain ⟨k, hk, hy⟩ := Option.bind_eq_some_iff.mp hy
    obtain ⟨z, hz, _⟩ := Option.map_eq_some_iff.mp hy
    exact ⟨⟨k, hk⟩, z, hz⟩
  · intro H
    obtain ⟨r, hr⟩ := (optAll_isSome (l := kvs.map fun p => (fromReflect E kt p.1).bind fun k =>
        (fromReflect E vt p.2).map fun v => (k, v))).mpr (by
      intro o ho
      obtain ⟨p, hp, rfl⟩ := List.mem_map.mp ho
      obtain ⟨⟨k, hk⟩, z, hz⟩ := H p hp
      exact ⟨(k, z), by simp [hk, hz]⟩)
    exact ⟨_, r, hr, rfl⟩

theorem reads_kind {E : Env} (hD : DeclsOK E) {t : Ty} {v : Obj} (h : Reads E t v) :
    (∀ s, t = .vec s → v.kind = .list) ∧ (∀ s n, t = .array s n → v.kind = .list) ∧
    (∀ k w, t = .map k w → v.kind = .map) := by
  obtain ⟨y, hy⟩ := h
  have := (fromReflect_step hD t v y).mp hy
  refine ⟨?_, ?_, ?_⟩
  · rintro s rfl; cases this; rfl
  · rintro s n rfl; cases this; rfl
  · rintro k w rfl; cases this; rfl

theorem reads_box {E : Env} {t : Ty} {v : Obj} : Reads E (.box t) v ↔ Reads E t v := by
  simp only [Reads, fromReflect_box]

theorem reads_value {E : Env} {v : Obj} : Reads E .value v := ⟨_, fromReflect_value _ _⟩

theorem reads_scalar {E : Env} {k : ScalarKind} {v : Obj} : Reads E (.scalar k) v ↔ ∃ s, s.kind = k ∧ v = .scalar s := by
  rw [Reads]
  simp only [fromReflect_scalar]
  constructor
  · rintro ⟨y, hy⟩
    split at hy
    · rename_i ht
      simp only [Obj.isTy, beq_iff_eq] at ht
      unfold Obj.typeOf at ht
      split at ht <;> simp at ht
      exact ⟨_, ht, rfl⟩
    · cases hy
  · rintro ⟨s, rfl, rfl⟩
    exact ⟨.scalar s, by simp [Obj.isTy, Obj.typeOf]⟩

theorem reads_nonzero {E : Env} (hD : DeclsOK E) {k : IntKind} {v : Obj} : Reads E (.nonzero k) v ↔
    (∃ n, v = .nonzero k n) ∨ ∃ n, n ≠ 0 ∧ v = .scalar (.int k n) := by
  constructor
  · rintro ⟨y, hy⟩
    have := (fromReflect_step hD _ v y).mp hy
    cases this with
    | nonzero _ n => exact .inl ⟨n, rfl⟩
    | nonzeroInt _ n h => exact .inr ⟨n, h, rfl⟩
  · rintro (⟨n, rfl⟩ | ⟨n, h, rfl⟩)
    · exact ⟨_, (fromReflect_step hD _ _ _).mpr (.nonzero k n)⟩
    · exact ⟨_, (fromReflect_step hD _ _ _).mpr (.nonzeroInt k n h)⟩

theorem reads_dyn {E : Env} {v : Obj} (h : HasTy E .value v) :
    (Reads E .structValue v ↔ v.kind = .struct) ∧ (Reads E .tupleStructValue v ↔ v.kind = .tupleStruct) ∧
    (Reads E .tupleValue v ↔ v.kind = .tuple) ∧ (Reads E .enumValue v ↔ v.kind = .enum) := by
  refine ⟨?_, ?_, ?_, ?_⟩
  · rw [Reads]; simp only [fromReflect]; split <;> simp_all
  · rw [Reads]; simp only [fromReflect]; split <;> simp_all
  · rw [Reads]; simp only [fromReflect]; split <;> simp_all
  · constructor
    · rintro ⟨y, hy⟩; exact fromReflect_enumValue_kind hy
    · intro hk; exact ⟨v, fromReflect_enumValue_self h hk⟩

/-! ## What the copy of a typed value shows -/

/-- Aligned with the declaration: names and types of the fields shown. -/
theorem shown_named {E : Env} {fds : List FieldDef} : ∀ {fs : List (String × Obj)},
    fs.map (·.1) = fds.map (·.name) →
    (∀ (i : Nat) fd p, fds[i]? = some fd → fs[i]? = some p → fd.skip = true → p.2.isHidden = true) →
    (∀ (i : Nat) fd p, fds[i]? = some fd → fs[i]? = some p → fd.skip = false → HasTy E fd.ty p.2) →
    List.Forall₂ (fun fd p => p.1 = fd.name ∧ HasTy E fd.ty p.2) (declShown fds) (visFields fs) := by
  induction fds with
  | nil => intro fs h _ _; cases fs with
    | nil => exact .nil
    | cons => simp at h
  | cons fd fds ih =>
    intro fs hn hs ht
    cases fs with
    | nil => simp at hn
    | cons p fs =>
      simp only [List.map_cons, List.cons.injEq] at hn
      have := ih hn.2 (fun i a b ha hb => hs (i + 1) a b (by simpa using ha) (by simpa using hb))
        (fun i a b ha hb => ht (i + 1) a b (by simpa using ha) (by simpa using hb))
      cases h : fd.skip with
      | true =>
        have := hs 0 fd p rfl rfl h
        simp_all [declShown, visFields]
      | false =>
        have h1 := ht 0 fd p rfl rfl h
        have h2 := h1.not_hidden
        simp_all [declShown, visFields]

theorem shown_pos {E : Env} {fds : List FieldDef} : ∀ {fs : List Obj}, fs.length = fds.length →
    (∀ (i : Nat) fd x, fds[i]? = some fd → fs[i]? = some x → fd.skip = true → x.isHidden = true) →
    (∀ (i : Nat) fd x, fds[i]? = some fd → fs[i]? = some x → fd.skip = false → HasTy E fd.ty x) →
    List.Forall₂ (fun fd x => HasTy E fd.ty x) (declShown fds) (visPos fs) := by
  induction fds with
  | nil => intro fs h _ _; cases fs with
    | nil => exact .nil
    | cons => simp at h
  | cons fd fds ih =>
    intro fs hn hs ht
    cases fs with
    | nil => simp at hn
    | cons p fs =>
      simp only [List.length_cons, Nat.add_right_cancel_iff] at hn
      have := ih hn (fun i a b ha hb => hs (i + 1) a b (by simpa using ha) (by simpa using hb))
        (fun i a b ha hb => ht (i + 1) a b (by simpa using ha) (by simpa using hb))
      cases h : fd.skip with
      | true =>
        have := hs 0 fd p rfl rfl h
        simp_all [declShown, visPos]
      | false =>
        have h1 := ht 0 fd p rfl rfl h
        have h2 := h1.not_hidden
        simp_all [declShown, visPos]

theorem copied_field {n : String} {fs : List (String × Obj)} (hn : (fs.map (·.1)).Nodup) (m : String) :
    (Obj.struct (.derived n) fs).copied.field m = (lookup m (visFields fs)).map Obj.copied ∧
    ∀ vn, (Obj.enumS (.derived n) vn fs).copied.field m = (lookup m (visFields fs)).map Obj.copied := by
  constructor
  · rw [copied_struct, Obj.field]; exact nameCopy_lookup hn (.inl ⟨n, rfl⟩) m
  · intro vn; rw [copied_enumS, Obj.field]; exact nameCopy_lookup hn (.inl ⟨n, rfl⟩) m

theorem visAt_copied {xs : List Obj} (i : Nat) : visAt (xs.map Obj.copied) i = (xs[i]?).map Obj.copied := by
  rw [visAt, List.getElem?_map]
  cases xs[i]? with
  | none => rfl
  | some x => simp [copied_not_hidden]

theorem copied_enumS_at {n vn : String} {fs : List (String × Obj)} (hn : (fs.map (·.1)).Nodup) (i : Nat) :
    (Obj.enumS (.derived n) vn fs).copied.fieldAt i = ((visFields fs)[i]?).map fun p => p.2.copied := by
  have hd : DynShown (.derived n) fs := .inl ⟨n, rfl⟩
  rw [copied_enumS, Obj.fieldAt, namesOf, List.getElem?_map]
  cases h : (visFields fs)[i]? with
  | none => rfl
  | some p =>
    simp only [Option.map_some, Option.bind_some]
    refine (lookup_iff (nameCopy_nodup hn hd)).mpr ((nameCopy_perm hn hd).mem_iff.mpr ?_)
    exact List.mem_map.mpr ⟨p, List.mem_of_getElem? h, rfl⟩

/-- A struct, by name. -/
theorem named_of_shown {E E' : Env} {R : Ty → Ty → Prop} {fds fds' : List FieldDef} {ps : List (String × Obj)} {v : Obj}
    (hs : List.Forall₂ (fun fd p => p.1 = fd.name ∧ HasTy E fd.ty p.2) (declShown fds) ps)
    (hn : (ps.map (·.1)).Nodup) (hv : ∀ m, v.field m = (lookup m ps).map Obj.copied)
    (hr : NamedReads R fds fds')
    (ih : ∀ p ∈ ps, ∀ a b, HasTy E a p.2 → R a b → Reads E' b p.2.copied) :
    ∀ fd ∈ declShown fds', ∃ x, v.field fd.name = some x ∧ Reads E' fd.ty x := by
  intro fd' hfd'
  obtain ⟨fd, hfd, he, hR⟩ := hr fd' hfd'
  obtain ⟨i, hi⟩ := List.getElem?_of_mem hfd
  obtain ⟨hl, hx⟩ := index_of_forall2 hs
  obtain ⟨p, hp⟩ : ∃ p, ps[i]? = some p := by
    have := (List.getElem?_eq_some_iff.mp hi).1
    exact ⟨_, List.getElem?_eq_getElem (by omega)⟩
  obtain ⟨h1, h2⟩ := hx i fd p hi hp
  have hm := List.mem_of_getElem? hp
  refine ⟨p.2.copied, ?_, ih p hm _ _ h2 hR⟩
  rw [hv, (lookup_iff hn (x := p.2)).mpr (by rw [← he, ← h1]; exact hm)]
  rfl

/-- By position. -/
theorem pos_of_shown {E E' : Env} {R : Ty → Ty → Prop} {fds fds' : List FieldDef} {xs : List Obj} {v : Obj}
    (hs : List.Forall₂ (fun fd x => HasTy E fd.ty x) (declShown fds) xs)
    (hv : ∀ i : Nat, v.fieldAt i = (xs[i]?).map Obj.copied) (hr : PosReads R fds fds')
    (ih : ∀ x ∈ xs, ∀ a b, HasTy E a x → R a b → Reads E' b x.copied) :
    ∀ (i : Nat) fd, fds'[i]? = some fd → fd.skip = false → ∃ x, v.fieldAt i = some x ∧ Reads E' fd.ty x := by
  intro i fd' hfd' hk
  obtain ⟨fd, hi, hR⟩ := hr i fd' hfd' hk
  obtain ⟨hl, hx⟩ := index_of_forall2 hs
  obtain ⟨x, hp⟩ : ∃ p, xs[i]? = some p := by
    have := (List.getElem?_eq_some_iff.mp hi).1
    exact ⟨_, List.getElem?_eq_getElem (by omega)⟩
  exact ⟨x.copied, by rw [hv, hp]; rfl, ih x (List.mem_of_getElem? hp) _ _ (hx i fd x hi hp) hR⟩

theorem named_reads_none {E' : Env} {R : Ty → Ty → Prop} {fds' : List FieldDef} {v : Obj} (hr : NamedReads R [] fds') :
    ∀ fd ∈ declShown fds', ∃ x, v.field fd.name = some x ∧ Reads E' fd.ty x := by
  intro fd' hfd'
  obtain ⟨fd, hfd, _⟩ := hr fd' hfd'
  simp [declShown] at hfd

theorem pos_reads_none {E' : Env} {R : Ty → Ty → Prop} {fds' : List FieldDef} {v : Obj} (hr : PosReads R [] fds') :
    ∀ (i : Nat) fd, fds'[i]? = some fd → fd.skip = false → ∃ x, v.fieldAt i = some x ∧ Reads E' fd.ty x := by
  intro i fd' hfd' hk
  obtain ⟨fd, hi, _⟩ := hr i fd' hfd' hk
  simp [declShown] at hi

theorem entryCopy_mem {kvs : List (Obj × Obj)} {p : Obj × Obj} (h : p ∈ entryCopy kvs) :
    ∃ q ∈ kvs, p = (q.1.copied, q.2.copied) := by
  obtain ⟨q, hq, rfl⟩ := List.mem_map.mp h
  obtain ⟨r, hr, rfl⟩ := List.mem_map.mp (bmCollect_mem hq)
  exact ⟨r, hr, rfl⟩

theorem sizeOf_vis {fs : List Obj} {x : Obj} (h : x ∈ visPos fs) : sizeOf x < sizeOf fs :=
  List.sizeOf_lt_of_mem (List.mem_filter.mp h).1

theorem sizeOf_visFields {fs : List (String × Obj)} {p : String × Obj} (h : p ∈ visFields fs) : sizeOf p.2 < sizeOf fs := by
  have := List.sizeOf_lt_of_mem (List.mem_filter.mp h).1
  obtain ⟨n, x⟩ := p
  simp at this ⊢
  omega

theorem map_snd_shown {E : Env} {fds : List FieldDef} {ps : List (String × Obj)}
    (hs : List.Forall₂ (fun fd p => p.1 = fd.name ∧ HasTy E fd.ty p.2) (declShown fds) ps) :
    List.Forall₂ (fun fd x => HasTy E fd.ty x) (declShown fds) (ps.map (·.2)) := by
  rw [List.forall₂_map_right_iff]
  exact hs.imp fun _ _ h => h.2

theorem structTy_dyn_kind {E : Env} {x : Obj} (h : HasTy E .structValue x) : x.copied = x ∧ x.kind = .struct := by
  cases h with
  | structValue ns fs o hw ho => exact ⟨copied_self (E := E) (.value _ _ hw ho), by rw [ho]; simp [Value.toObj, Obj.kind]⟩

theorem tupleStructTy_dyn_kind {E : Env} {x : Obj} (h : HasTy E .tupleStructValue x) :
    x.copied = x ∧ x.kind = .tupleStruct := by
  cases h with
  | tupleStructValue fs o hw ho => exact ⟨copied_self (E := E) (.value _ _ hw ho), by rw [ho]; simp [Value.toObj, Obj.kind]⟩

theorem tupleTy_dyn_kind {E : Env} {x : Obj} (h : HasTy E .tupleValue x) : x.copied = x ∧ x.kind = .tuple := by
  cases h with
  | tupleValue fs o hw ho => exact ⟨copied_self (E := E) (.value _ _ hw ho), by rw [ho]; simp [Value.toObj, Obj.kind]⟩

theorem enumTy_dyn_kind {E : Env} {x : Obj} (h : HasTy E .enumValue x) : x.copied = x ∧ x.kind = .enum := by
  cases h with
  | enumValueS vn ns fs o hw ho => exact ⟨copied_self (E := E) (.value _ _ hw ho), by rw [ho]; simp [Value.toObj, Obj.kind]⟩
  | enumValueT vn fs o hw ho => exact ⟨copied_self (E := E) (.value _ _ hw ho), by rw [ho]; simp [Value.toObj, Obj.kind]⟩
  | enumValueU vn o ho => exact ⟨copied_self (E := E) (.value _ _ (.enumU _) ho), by rw [ho]; simp [Value.toObj, Obj.kind]⟩

theorem structTy_kind {E : Env} {a : Ty} {fds : List FieldDef} {x : Obj} (h : StructTy E a fds) (hx : HasTy E a x) :
    x.copied.kind = .struct := by
  cases h with
  | derived n _ c hd =>
    cases hx with
    | struct => rw [copied_struct]; rfl
    | tupleStruct _ _ _ _ h => rw [hd] at h; cases h
    | enumS _ _ _ _ _ _ h => rw [hd] at h; cases h
    | enumT _ _ _ _ _ _ h => rw [hd] at h; cases h
    | enumU _ _ _ _ h => rw [hd] at h; cases h
  | dyn => rw [(structTy_dyn_kind hx).1, (structTy_dyn_kind hx).2]

theorem tupleStructTy_kind {E : Env} {a : Ty} {fds : List FieldDef} {x : Obj} (h : TupleStructTy E a fds)
    (hx : HasTy E a x) : x.copied.kind = .tupleStruct := by
  cases h with
  | derived n _ c hd =>
    cases hx with
    | tupleStruct => rw [copied_tupleStruct]; rfl
    | struct _ _ _ _ h => rw [hd] at h; cases h
    | enumS _ _ _ _ _ _ h => rw [hd] at h; cases h
    | enumT _ _ _ _ _ _ h => rw [hd] at h; cases h
    | enumU _ _ _ _ h => rw [hd] at h; cases h
  | dyn => rw [(tupleStructTy_dyn_kind hx).1, (tupleStructTy_dyn_kind hx).2]

theorem tupleTy_kind {E : Env} {a : Ty} {ts : List Ty} {x : Obj} (h : TupleTy a ts) (hx : HasTy E a x) :
    x.copied.kind = .tuple := by
  cases h with
  | typed => cases hx with | tuple => rw [copied_tuple]; rfl
  | dyn => rw [(tupleTy_dyn_kind hx).1, (tupleTy_dyn_kind hx).2]

theorem enumTy_kind {E : Env} {a : Ty} {x : Obj} (h : EnumTy E a) (hx : HasTy E a x) : x.copied.kind = .enum := by
  cases h with
  | derived n _ c hd =>
    cases hx with
    | tupleStruct _ _ _ _ h => rw [hd] at h; cases h
    | struct _ _ _ _ h => rw [hd] at h; cases h
    | enumS => rw [copied_enumS]; rfl
    | enumT => rw [copied_enumT]; rfl
    | enumU => rw [copied_enumU]; rfl
  | dyn => rw [(enumTy_dyn_kind hx).1, (enumTy_dyn_kind hx).2]

/-! ## Readable types can be read -/

theorem readable_step {E E' : Env} (hD : DeclsOK E) (hD' : DeclsOK E') {R : Ty → Ty → Prop}
    {x : Obj} {a b : Ty} (hx : HasTy E a x) (hab : ReadStep E E' R a b)
    (hlt : ∀ y c d, sizeOf y < sizeOf x → HasTy E c y → R c d → Reads E' d y.copied)
    (heq : ∀ c d, sizeOf c + sizeOf d < sizeOf a + sizeOf b → HasTy E c x → R c d → Reads E' d x.copied) :
    Reads E' b x.copied := by
  have hval : HasTy E' .value x.copied := value_any hx.copied
  cases hab with
  | scalar k =>
    cases hx with | scalar s => exact reads_scalar.mpr ⟨s, rfl, copied_scalar s⟩
  | nonzero k =>
    cases hx with
    | nonzero _ n h => exact (reads_nonzero hD').mpr (.inr ⟨n, h, copied_nonzero k n⟩)
  | nonzeroInt k =>
    cases hx with
    | nonzero _ n h => exact reads_scalar.mpr ⟨.int k n, rfl, copied_nonzero k n⟩
  | struct _ n fds fds' c ht hd' hr =>
    refine (reads_struct hd' hval).mpr ⟨structTy_kind ht hx, ?_⟩
    cases ht with
    | dyn => exact named_reads_none hr
    | derived m _ c hd =>
      cases hx with
      | struct _ gds c2 fs hd2 h1 h2 h3 =>
        rw [hd] at hd2; cases hd2
        have hn : (fs.map (·.1)).Nodup := by rw [h1]; exact hD.struct_names _ _ _ hd
        refine named_of_shown (shown_named h1 h2 h3) (nodup_vis hn) (fun m => (copied_field hn m).1) hr ?_
        intro p hp a b ha hb
        have := sizeOf_visFields hp
        exact hlt p.2 a b (by simp; omega) ha hb
      | tupleStruct _ _ _ _ h => rw [hd] at h; cases h
      | enumS _ _ _ _ _ _ h => rw [hd] at h; cases h
      | enumT _ _ _ _ _ _ h => rw [hd] at h; cases h
      | enumU _ _ _ _ h => rw [hd] at h; cases h
  | tupleStruct _ n fds fds' c ht hd' hr =>
    refine (reads_tupleStruct hd' hval).mpr ⟨tupleStructTy_kind ht hx, ?_⟩
    cases ht with
    | dyn => exact pos_reads_none hr
    | derived m _ c hd =>
      cases hx with
      | tupleStruct _ gds c2 fs hd2 h1 h2 h3 =>
        rw [hd] at hd2; cases hd2
        refine pos_of_shown (shown_pos h1 h2 h3)
          (fun i => by rw [copied_tupleStruct, Obj.fieldAt]; exact visAt_copied i) hr ?_
        intro p hp a b ha hb
        have := sizeOf_vis hp
        exact hlt p a b (by simp; omega) ha hb
      | struct _ _ _ _ h => rw [hd] at h; cases h
      | enumS _ _ _ _ _ _ h => rw [hd] at h; cases h
      | enumT _ _ _ _ _ _ h => rw [hd] at h; cases h
      | enumU _ _ _ _ h => rw [hd] at h; cases h
  | enum m n vds vds' c c' hd hd' hv =>
    rw [reads_enum hD' hd' hval]
    cases hx with
    | struct _ _ _ _ h => rw [hd] at h; cases h
    | tupleStruct _ _ _ _ h => rw [hd] at h; cases h
    | enumS _ _ _ vn fds fs hd2 hm h1 h2 h3 =>
      rw [hd] at hd2; cases hd2
      have hn : (fs.map (·.1)).Nodup := by rw [h1]; exact hD.variant_fields _ _ _ _ _ hd hm
      have ih : ∀ p ∈ visFields fs, ∀ a b, HasTy E a p.2 → R a b → Reads E' b p.2.copied := by
        intro p hp a b ha hb
        have := sizeOf_visFields hp
        exact hlt p.2 a b (by simp; omega) ha hb
      obtain ⟨vd', hm', he, hr⟩ := hv _ hm
      refine ⟨vd', hm', by rw [copied_variantName, ← he]; rfl, ?_⟩
      cases vd' with
      | struct _ fds' =>
        exact named_of_shown (shown_named h1 h2 h3) (nodup_vis hn) (fun m => (copied_field hn m).2 vn) hr ih
      | tuple _ fds' =>
        refine pos_of_shown (map_snd_shown (shown_named h1 h2 h3))
          (fun i => by rw [copied_enumS_at hn, List.getElem?_map, Option.map_map]; rfl) hr ?_
        intro x hx
        obtain ⟨p, hp, rfl⟩ := List.mem_map.mp hx
        exact ih p hp
      | unit _ => trivial
    | enumT _ _ _ vn fds fs hd2 hm h1 h2 h3 =>
      rw [hd] at hd2; cases hd2
      obtain ⟨vd', hm', he, hr⟩ := hv _ hm
      refine ⟨vd', hm', by rw [copied_variantName, ← he]; rfl, ?_⟩
      cases vd' with
      | struct _ fds' => exact named_reads_none hr
      | tuple _ fds' =>
        refine pos_of_shown (shown_pos h1 h2 h3)
          (fun i => by rw [copied_enumT, Obj.fieldAt]; exact visAt_copied i) hr ?_
        intro p hp a b ha hb
        have := sizeOf_vis hp
        exact hlt p a b (by simp; omega) ha hb
      | unit _ => trivial
    | enumU _ _ _ vn hd2 hm =>
      rw [hd] at hd2; cases hd2
      obtain ⟨vd', hm', he, hr⟩ := hv _ hm
      refine ⟨vd', hm', by rw [copied_variantName, ← he]; rfl, ?_⟩
      cases vd' with
      | struct _ fds' => exact named_reads_none hr
      | tuple _ fds' => exact pos_reads_none hr
      | unit _ => trivial
  | tuple _ ts ts' ht hr =>
    refine reads_tuple.mpr ⟨tupleTy_kind ht hx, ?_⟩
    cases ht with
    | dyn => intro i t' h; obtain ⟨t, h, _⟩ := hr i t' h; simp at h
    | typed =>
      cases hx with
      | tuple _ fs hl h =>
        intro i t' ht'
        obtain ⟨t, ht, hr⟩ := hr i t' ht'
        obtain ⟨x, hx⟩ : ∃ x, fs[i]? = some x := by
          have := (List.getElem?_eq_some_iff.mp ht).1
          exact ⟨_, List.getElem?_eq_getElem (by omega)⟩
        have := List.sizeOf_lt_of_mem (List.mem_of_getElem? hx)
        refine ⟨x.copied, ?_, hlt x t t' (by simp; omega) (h i t x ht hx) hr⟩
        rw [copied_tuple, Obj.fieldAt, visAt_copied, hx]; rfl
  | vec t t' hr =>
    cases hx with
    | vec _ xs h =>
      rw [copied_vec, reads_vec]
      intro y hy
      obtain ⟨x, hx, rfl⟩ := List.mem_map.mp hy
      have := List.sizeOf_lt_of_mem hx
      exact hlt x t t' (by simp; omega) (h x hx) hr
  | arrayVec t t' n hr =>
    cases hx with
    | array _ xs h =>
      rw [copied_array, reads_vec]
      intro y hy
      obtain ⟨x, hx, rfl⟩ := List.mem_map.mp hy
      have := List.sizeOf_lt_of_mem hx
      rcases hr with h0 | hr
      · rw [List.length_eq_zero_iff] at h0; subst h0; cases hx
      · exact hlt x t t' (by simp; omega) (h x hx) hr
  | array t t' n hr =>
    cases hx with
    | array _ xs h =>
      rw [copied_array, reads_array]
      refine ⟨by simp, ?_⟩
      intro y hy
      obtain ⟨x, hx, rfl⟩ := List.mem_map.mp hy
      have := List.sizeOf_lt_of_mem hx
      rcases hr with h0 | hr
      · rw [List.length_eq_zero_iff] at h0; subst h0; cases hx
      · exact hlt x t t' (by simp; omega) (h x hx) hr
  | map k v k' v' hk hv =>
    cases hx with
    | map _ _ kvs h1 h2 h3 =>
      rw [copied_map, reads_map]
      intro p hp
      obtain ⟨q, hq, rfl⟩ := entryCopy_mem hp
      have s1 := sizeOf_fst_lt_of_mem hq
      have s2 := sizeOf_snd_lt_of_mem hq
      exact ⟨hlt q.1 k k' (by simp; omega) (h2 q hq) hk, hlt q.2 v v' (by simp; omega) (h3 q hq) hv⟩
  | unbox t _ hr =>
    cases hx with
    | box _ _ h => exact heq t b (by simp) h hr
  | box _ t hr => exact reads_box.mpr (heq a t (by simp) hx hr)
  | value => exact reads_value
  | structValue _ fds ht => exact (reads_dyn hval).1.mpr (structTy_kind ht hx)
  | tupleStructValue _ fds ht => exact (reads_dyn hval).2.1.mpr (tupleStructTy_kind ht hx)
  | tupleValue _ ts ht => exact (reads_dyn hval).2.2.1.mpr (tupleTy_kind ht hx)
  | enumValue _ ht => exact (reads_dyn hval).2.2.2.mpr (enumTy_kind ht hx)

theorem readable_reads {E E' : Env} (hD : DeclsOK E) (hD' : DeclsOK E') {R : Ty → Ty → Prop}
    (hR : ∀ a b, R a b → ReadStep E E' R a b) (x : Obj) (a b : Ty) (hx : HasTy E a x) (hab : R a b) :
    Reads E' b x.copied :=
  readable_step hD hD' hx (hR a b hab) (fun y c d _ hy hc => readable_reads hD hD' hR y c d hy hc)
    (fun c d _ hc hr => readable_reads hD hD' hR x c d hc hr)
termination_by (sizeOf x, sizeOf a + sizeOf b)

/-! ## Types that can be read are readable -/

/-- Fields of this declaration, the shown ones holding these values. -/
def fillN : List FieldDef → List Obj → List (String × Obj)
  | [], _ => []
  | fd :: fds, vs =>
    if fd.skip then (fd.name, .hidden 0) :: fillN fds vs
    else match vs with
      | [] => (fd.name, .hidden 0) :: fillN fds []
      | v :: vs => (fd.name, v) :: fillN fds vs

theorem fillN_names (fds : List FieldDef) : ∀ vs, (fillN fds vs).map (·.1) = fds.map (·.name) := by
  induction fds with
  | nil => intro vs; rfl
  | cons fd fds ih =>
    intro vs
    rw [fillN.eq_def]
    dsimp only
    split
    · simp [ih]
    · split <;> simp [ih]

theorem fillN_spec {E : Env} {fds : List FieldDef} : ∀ {vs : List Obj},
    List.Forall₂ (fun fd x => HasTy E fd.ty x) (declShown fds) vs →
    (∀ (i : Nat) fd p, fds[i]? = some fd → (fillN fds vs)[i]? = some p → fd.skip = true → p.2.isHidden = true) ∧
    (∀ (i : Nat) fd p, fds[i]? = some fd → (fillN fds vs)[i]? = some p → fd.skip = false → HasTy E fd.ty p.2) ∧
    (visFields (fillN fds vs)).map (·.1) = (declShown fds).map (·.name) ∧
    (visFields (fillN fds vs)).map (·.2) = vs := by
  induction fds with
  | nil =>
    intro vs h
    cases h
    exact ⟨fun i fd p h => by simp at h, fun i fd p h => by simp at h, rfl, rfl⟩
  | cons fd fds ih =>
    intro vs h
    cases hs : fd.skip with
    | true =>
      have hsh : declShown (fd :: fds) = declShown fds := by simp [declShown, hs]
      rw [hsh] at h ⊢
      obtain ⟨h1, h2, h3, h4⟩ := ih h
      have hf : fillN (fd :: fds) vs = (fd.name, .hidden 0) :: fillN fds vs := by rw [fillN.eq_def]; simp [hs]
      rw [hf]
      have hv : visFields ((fd.name, Obj.hidden 0) :: fillN fds vs) = visFields (fillN fds vs) := by
        simp [visFields, Obj.isHidden]
      rw [hv]
      refine ⟨?_, ?_, h3, h4⟩
      · intro i gd p hg hp hk
        cases i with
        | zero => simp at hp; subst hp; rfl
        | succ i => exact h1 i gd p (by simpa using hg) (by simpa using hp) hk
      · intro i gd p hg hp hk
        cases i with
        | zero => simp at hg; subst hg; simp [hs] at hk
        | succ i => exact h2 i gd p (by simpa using hg) (by simpa using hp) hk
    | false =>
      have hsh : declShown (fd :: fds) = fd :: declShown fds := by simp [declShown, hs]
      rw [hsh] at h ⊢
      cases h with
      | cons hv hvs =>
        rename_i v vs
        obtain ⟨h1, h2, h3, h4⟩ := ih hvs
        have hf : fillN (fd :: fds) (v :: vs) = (fd.name, v) :: fillN fds vs := by rw [fillN.eq_def]; simp [hs]
        have hv' : visFields ((fd.name, v) :: fillN fds vs) = (fd.name, v) :: visFields (fillN fds vs) := by
          simp [visFields, hv.not_hidden]
        rw [hf, hv']
        refine ⟨?_, ?_, by simp [h3], by simp [h4]⟩
        · intro i gd p hg hp hk
          cases i with
          | zero => simp at hg; subst hg; simp [hs] at hk
          | succ i => exact h1 i gd p (by simpa using hg) (by simpa using hp) hk
        · intro i gd p hg hp hk
          cases i with
          | zero => simp at hg hp; subst hg hp; exact hv
          | succ i => exact h2 i gd p (by simpa using hg) (by simpa using hp) hk

theorem visPos_map_snd (fs : List (String × Obj)) : visPos (fs.map (·.2)) = (visFields fs).map (·.2) := by
  simp only [visPos, visFields, List.filter_map]
  rfl

theorem forall2_choose {α β : Type} {R : α → β → Prop} {l : List α} (h : ∀ x ∈ l, ∃ y, R x y) :
    ∃ r, List.Forall₂ R l r := by
  induction l with
  | nil => exact ⟨[], .nil⟩
  | cons a l ih =>
    obtain ⟨y, hy⟩ := h a (by simp)
    obtain ⟨r, hr⟩ := ih fun x hx => h x (by simp [hx])
    exact ⟨y :: r, .cons hy hr⟩

theorem forall2_set {α β : Type} {R : α → β → Prop} {l : List α} {r : List β} (h : List.Forall₂ R l r) {i : Nat}
    {a : α} {z : β} (ha : l[i]? = some a) (hz : R a z) : List.Forall₂ R l (r.set i z) := by
  obtain ⟨hl, hi⟩ := index_of_forall2 h
  refine forall2_of_index (by simp [hl]) fun j x y hx hy => ?_
  rw [List.getElem?_set] at hy
  split at hy
  · subst_vars
    split at hy
    · cases hy; rw [ha] at hx; cases hx; exact hz
    · cases hy
  · exact hi j x y hx hy

/-- `c` can be read as `d`. -/
def TyReads (E E' : Env) (c d : Ty) : Prop := ∀ x, HasTy E c x → Reads E' d x.copied

theorem named_inv {E E' : Env} {fds fds' : List FieldDef} (hn : (fds.map (·.name)).Nodup)
    (hi : ∀ fd ∈ declShown fds, ∃ x, HasTy E fd.ty x)
    (H : ∀ vs, List.Forall₂ (fun fd x => HasTy E fd.ty x) (declShown fds) vs → ∀ fd' ∈ declShown fds',
      ∃ x, (lookup fd'.name (visFields (fillN fds vs))).map Obj.copied = some x ∧ Reads E' fd'.ty x) :
    NamedReads (fun c d => c ∈ (declShown fds).map (·.ty) ∧ TyReads E E' c d) fds fds' := by
  intro fd' hfd'
  obtain ⟨vs, hvs⟩ := forall2_choose hi
  have nd : ∀ vs, ((visFields (fillN fds vs)).map (·.1)).Nodup := fun vs =>
    nodup_vis (by rw [fillN_names]; exact hn)
  obtain ⟨_, hx, _⟩ := H vs hvs fd' hfd'
  obtain ⟨z₀, hz₀, _⟩ := Option.map_eq_some_iff.mp hx
  obtain ⟨i, hi⟩ := List.getElem?_of_mem (lookup_mem hz₀)
  obtain ⟨-, -, h3, h4⟩ := fillN_spec hvs
  have hname : ((declShown fds)[i]?).map (·.name) = some fd'.name := by
    have := congrArg (·[i]?) h3
    simpa [hi] using this.symm
  obtain ⟨fd, hfd, he⟩ := Option.map_eq_some_iff.mp hname
  refine ⟨fd, List.mem_of_getElem? hfd, he, List.mem_map.mpr ⟨fd, List.mem_of_getElem? hfd, rfl⟩, ?_⟩
  intro z hz
  have hvs' := forall2_set hvs hfd hz
  obtain ⟨-, -, h3', h4'⟩ := fillN_spec hvs'
  obtain ⟨x, hx, hr⟩ := H _ hvs' fd' hfd'
  have hlen : i < vs.length := by
    have := (index_of_forall2 hvs).1
    have := (List.getElem?_eq_some_iff.mp hfd).1
    omega
  have : (fd'.name, z) ∈ visFields (fillN fds (vs.set i z)) := by
    have a1 := congrArg (·[i]?) h3'
    have a2 := congrArg (·[i]?) h4'
    simp only [List.getElem?_map] at a1 a2
    rw [hfd] at a1
    rw [List.getElem?_set_self hlen] at a2
    cases hp : (visFields (fillN fds (vs.set i z)))[i]? with
    | none => rw [hp] at a1; simp at a1
    | some p =>
      rw [hp] at a1 a2
      obtain ⟨p1, p2⟩ := p
      simp at a1 a2
      subst a2
      rw [← he, ← a1]
      exact List.mem_of_getElem? hp
  rw [(lookup_iff (nd _)).mpr this] at hx
  cases hx
  exact hr

theorem pos_inv {E E' : Env} {fds fds' : List FieldDef} (hi : ∀ fd ∈ declShown fds, ∃ x, HasTy E fd.ty x)
    (H : ∀ vs, List.Forall₂ (fun fd x => HasTy E fd.ty x) (declShown fds) vs → ∀ (i : Nat) fd',
      fds'[i]? = some fd' → fd'.skip = false → ∃ x, (vs[i]?).map Obj.copied = some x ∧ Reads E' fd'.ty x) :
    PosReads (fun c d => c ∈ (declShown fds).map (·.ty) ∧ TyReads E E' c d) fds fds' := by
  intro i fd' hfd' hk
  obtain ⟨vs, hvs⟩ := forall2_choose hi
  obtain ⟨_, hx, _⟩ := H vs hvs i fd' hfd' hk
  obtain ⟨z₀, hz₀, _⟩ := Option.map_eq_some_iff.mp hx
  have hlen := (List.getElem?_eq_some_iff.mp hz₀).1
  obtain ⟨fd, hfd⟩ : ∃ fd, (declShown fds)[i]? = some fd := by
    have := (index_of_forall2 hvs).1
    exact ⟨_, List.getElem?_eq_getElem (by omega)⟩
  refine ⟨fd, hfd, List.mem_map.mpr ⟨fd, List.mem_of_getElem? hfd, rfl⟩, ?_⟩
  intro z hz
  obtain ⟨x, hx, hr⟩ := H _ (forall2_set hvs hfd hz) i fd' hfd' hk
  rw [List.getElem?_set_self hlen] at hx
  cases hx
  exact hr

theorem tuple_inv {E E' : Env} {ts ts' : List Ty} (hi : ∀ t ∈ ts, ∃ x, HasTy E t x)
    (H : ∀ vs, List.Forall₂ (fun t x => HasTy E t x) ts vs → ∀ (i : Nat) t',
      ts'[i]? = some t' → ∃ x, (vs[i]?).map Obj.copied = some x ∧ Reads E' t' x) :
    ∀ (i : Nat) t', ts'[i]? = some t' → ∃ t, ts[i]? = some t ∧ (t ∈ ts ∧ TyReads E E' t t') := by
  intro i t' ht'
  obtain ⟨vs, hvs⟩ := forall2_choose hi
  obtain ⟨_, hx, _⟩ := H vs hvs i t' ht'
  obtain ⟨z₀, hz₀, _⟩ := Option.map_eq_some_iff.mp hx
  have hlen := (List.getElem?_eq_some_iff.mp hz₀).1
  obtain ⟨t, ht⟩ : ∃ fd, ts[i]? = some fd := by
    have := (index_of_forall2 hvs).1
    exact ⟨_, List.getElem?_eq_getElem (by omega)⟩
  refine ⟨t, ht, List.mem_of_getElem? ht, ?_⟩
  intro z hz
  obtain ⟨x, hx, hr⟩ := H _ (forall2_set hvs ht hz) i t' ht'
  rw [List.getElem?_set_self hlen] at hx
  cases hx
  exact hr

/-- What a type is, from the kind of its `to_value`. -/
theorem kind_inv {E : Env} {a : Ty} {x : Obj} (h : HasTy E a x) (hb : ∀ t, a ≠ .box t) (hv : a ≠ .value) :
    (x.copied.kind = .struct → ∃ fds, StructTy E a fds) ∧
    (x.copied.kind = .tupleStruct → ∃ fds, TupleStructTy E a fds) ∧
    (x.copied.kind = .tuple → ∃ ts, TupleTy a ts) ∧
    (x.copied.kind = .enum → EnumTy E a) ∧
    (x.copied.kind = .list → (∃ t, a = .vec t) ∨ ∃ t n, a = .array t n) ∧
    (x.copied.kind = .map → ∃ k v, a = .map k v) ∧
    (x.copied.kind = .scalar → (∃ k, a = .scalar k) ∨ ∃ k, a = .nonzero k) := by
  cases h with
  | scalar s => rw [copied_scalar]; simp [Obj.kind]
  | nonzero k n => rw [copied_nonzero]; simp [Obj.kind]
  | struct n fds c fs hd => rw [copied_struct]; simp [Obj.kind]; exact ⟨fds, .derived n fds c hd⟩
  | tupleStruct n fds c fs hd => rw [copied_tupleStruct]; simp [Obj.kind]; exact ⟨fds, .derived n fds c hd⟩
  | enumS n vds c vn fds fs hd => rw [copied_enumS]; simp [Obj.kind]; exact .derived n vds c hd
  | enumT n vds c vn fds fs hd => rw [copied_enumT]; simp [Obj.kind]; exact .derived n vds c hd
  | enumU n vds c vn hd => rw [copied_enumU]; simp [Obj.kind]; exact .derived n vds c hd
  | tuple ts fs => rw [copied_tuple]; simp [Obj.kind]; exact ⟨ts, .typed ts⟩
  | vec t xs => rw [copied_vec]; simp [Obj.kind]
  | array t xs => rw [copied_array]; simp [Obj.kind]
  | map k v kvs => rw [copied_map]; simp [Obj.kind]
  | box t => exact absurd rfl (hb t)
  | value => exact absurd rfl hv
  | structValue ns fs o hw ho =>
    have hx : HasTy E .structValue x := .structValue ns fs x hw ho
    rw [(structTy_dyn_kind hx).1, (structTy_dyn_kind hx).2]; simp; exact ⟨_, .dyn⟩
  | tupleStructValue fs o hw ho =>
    have hx : HasTy E .tupleStructValue x := .tupleStructValue fs x hw ho
    rw [(tupleStructTy_dyn_kind hx).1, (tupleStructTy_dyn_kind hx).2]; simp; exact ⟨_, .dyn⟩
  | tupleValue fs o hw ho =>
    have hx : HasTy E .tupleValue x := .tupleValue fs x hw ho
    rw [(tupleTy_dyn_kind hx).1, (tupleTy_dyn_kind hx).2]; simp; exact ⟨_, .dyn⟩
  | enumValueS vn ns fs o hw ho =>
    have hx : HasTy E .enumValue x := .enumValueS vn ns fs x hw ho
    rw [(enumTy_dyn_kind hx).1, (enumTy_dyn_kind hx).2]; simp; exact .dyn
  | enumValueT vn fs o hw ho =>
    have hx : HasTy E .enumValue x := .enumValueT vn fs x hw ho
    rw [(enumTy_dyn_kind hx).1, (enumTy_dyn_kind hx).2]; simp; exact .dyn
  | enumValueU vn o ho =>
    have hx : HasTy E .enumValue x := .enumValueU vn x ho
    rw [(enumTy_dyn_kind hx).1, (enumTy_dyn_kind hx).2]; simp; exact .dyn

theorem fresh_name (l : List String) : ∃ n, n ∉ l := by
  refine ⟨String.ofList (List.replicate ((l.map String.length).sum + 1) 'x'), fun h => ?_⟩
  have : ∀ (l : List String) (s : String), s ∈ l → s.length ≤ (l.map String.length).sum := by
    intro l s hs
    induction l with
    | nil => cases hs
    | cons a l ih =>
      simp only [List.map_cons, List.sum_cons]
      rcases List.mem_cons.mp hs with rfl | h
      · omega
      · have := ih h; omega
  have := this l _ h
  simp at this
  omega

theorem NamedReads.mono {R R' : Ty → Ty → Prop} {fds fds' : List FieldDef} (h : NamedReads R fds fds')
    (hr : ∀ a b, R a b → R' a b) : NamedReads R' fds fds' := by
  intro fd' hfd'
  obtain ⟨fd, h1, h2, h3⟩ := h fd' hfd'
  exact ⟨fd, h1, h2, hr _ _ h3⟩

theorem PosReads.mono {R R' : Ty → Ty → Prop} {fds fds' : List FieldDef} (h : PosReads R fds fds')
    (hr : ∀ a b, R a b → R' a b) : PosReads R' fds fds' := by
  intro i fd' hfd' hk
  obtain ⟨fd, h1, h2⟩ := h i fd' hfd' hk
  exact ⟨fd, h1, hr _ _ h2⟩

theorem variantReads_mono {R R' : Ty → Ty → Prop} {vd vd' : VariantDef} (h : VariantReads R vd vd')
    (hr : ∀ a b, R a b → R' a b) : VariantReads R' vd vd' := by
  refine ⟨h.1, ?_⟩
  have := h.2
  cases vd' with
  | struct _ fds' => exact NamedReads.mono this hr
  | tuple _ fds' => exact PosReads.mono this hr
  | unit _ => trivial

/-- Only `Value`s themselves take every `Value`. -/
theorem value_inv {E E' : Env} {b : Ty} (H : TyReads E E' .value b) (hb : ∀ t, b ≠ .box t) : b = .value := by
  have h1 : Reads E' b (Obj.scalar (.bool true)) := by
    have := H (Value.scalar (.bool true)).toObj (.value _ _ (.scalar _) rfl)
    rwa [copied_self (E := E) (.value _ _ (.scalar _) rfl), Value.toObj] at this
  have h2 : Reads E' b (Obj.tuple .dyn []) := by
    have hw : (Value.tuple []).WF := .tuple _ (by simp)
    have := H (Value.tuple []).toObj (.value _ _ hw rfl)
    rwa [copied_self (E := E) (.value _ _ hw rfl), Value.toObj] at this
  have w1 : HasTy E' .value (Obj.scalar (.bool true)) := .value _ _ (.scalar (.bool true)) (by rw [Value.toObj])
  have w2 : HasTy E' .value (Obj.tuple .dyn []) := .value _ _ (.tuple [] (by simp)) (by rw [Value.toObj]; rfl)
  cases b with
  | value => rfl
  | box t => exact absurd rfl (hb t)
  | scalar k => obtain ⟨s, _, h⟩ := reads_scalar.mp h2; cases h
  | nonzero k =>
    obtain ⟨y, hy⟩ := h2
    rw [fromReflect_nonzero] at hy
    simp [Obj.isTy, Obj.typeOf] at hy
  | tuple ts => have := (reads_tuple.mp h1).1; simp [Obj.kind] at this
  | vec t => obtain ⟨y, hy⟩ := h1; simp [fromReflect] at hy
  | array t n => obtain ⟨y, hy⟩ := h1; simp [fromReflect] at hy
  | map k v => obtain ⟨y, hy⟩ := h1; simp [fromReflect] at hy
  | structValue => have := (reads_dyn w1).1.mp h1; simp [Obj.kind] at this
  | tupleStructValue => have := (reads_dyn w1).2.1.mp h1; simp [Obj.kind] at this
  | tupleValue => have := (reads_dyn w1).2.2.1.mp h1; simp [Obj.kind] at this
  | enumValue => have := (reads_dyn w1).2.2.2.mp h1; simp [Obj.kind] at this
  | named m =>
    cases hd : E'.decl m with
    | none => obtain ⟨y, hy⟩ := h1; rw [fromReflect_nodecl hd] at hy; cases hy
    | some d =>
      obtain ⟨sh, c⟩ := d
      cases sh with
      | struct fds => have := ((reads_struct hd w1).mp h1).1; simp [Obj.kind] at this
      | tupleStruct fds => have := ((reads_tupleStruct hd w1).mp h1).1; simp [Obj.kind] at this
      | enum vds =>
        obtain ⟨y, hy⟩ := h1
        rw [fromReflect_enum hd] at hy
        simp [Obj.variantName] at hy

theorem shownComps_struct {E : Env} {n : String} {fds : List FieldDef} {c : Bool} (hd : E.decl n = some ⟨.struct fds, c⟩) :
    (Ty.named n).comps E = (declShown fds).map (·.ty) := by
  simp [Ty.comps, hd, declShown]

theorem shownComps_tupleStruct {E : Env} {n : String} {fds : List FieldDef} {c : Bool}
    (hd : E.decl n = some ⟨.tupleStruct fds, c⟩) : (Ty.named n).comps E = (declShown fds).map (·.ty) := by
  simp [Ty.comps, hd, declShown]

theorem shownComps_enum {E : Env} {n : String} {vds : List VariantDef} {c : Bool} (hd : E.decl n = some ⟨.enum vds, c⟩)
    {vd : VariantDef} (hv : vd ∈ vds) {t : Ty} (ht : t ∈ (declShown vd.fields).map (·.ty)) :
    t ∈ (Ty.named n).comps E := by
  simp only [Ty.comps, hd, List.mem_flatMap]
  refine ⟨vd, hv, ?_⟩
  cases vd with
  | struct _ fds => exact ht
  | tuple _ fds => exact ht
  | unit _ => simp [VariantDef.fields, declShown] at ht

theorem fillN_struct {E : Env} {n : String} {fds : List FieldDef} {c : Bool} (hd : E.decl n = some ⟨.struct fds, c⟩)
    {vs : List Obj} (h : List.Forall₂ (fun fd x => HasTy E fd.ty x) (declShown fds) vs) :
    HasTy E (.named n) (.struct (.derived n) (fillN fds vs)) :=
  .struct n fds c _ hd (fillN_names fds vs) (fillN_spec h).1 (fillN_spec h).2.1

theorem fillN_pos {E : Env} {fds : List FieldDef} {vs : List Obj}
    (h : List.Forall₂ (fun fd x => HasTy E fd.ty x) (declShown fds) vs) :
    ((fillN fds vs).map (·.2)).length = fds.length ∧
    (∀ (i : Nat) fd x, fds[i]? = some fd → ((fillN fds vs).map (·.2))[i]? = some x → fd.skip = true →
      x.isHidden = true) ∧
    (∀ (i : Nat) fd x, fds[i]? = some fd → ((fillN fds vs).map (·.2))[i]? = some x → fd.skip = false →
      HasTy E fd.ty x) ∧ visPos ((fillN fds vs).map (·.2)) = vs := by
  obtain ⟨h1, h2, h3, h4⟩ := fillN_spec h
  refine ⟨?_, ?_, ?_, by rw [visPos_map_snd, h4]⟩
  · have := congrArg List.length (fillN_names fds vs)
    simpa using this
  · intro i fd x hf hx hk
    rw [List.getElem?_map, Option.map_eq_some_iff] at hx
    obtain ⟨p, hp, rfl⟩ := hx
    exact h1 i fd p hf hp hk
  · intro i fd x hf hx hk
    rw [List.getElem?_map, Option.map_eq_some_iff] at hx
    obtain ⟨p, hp, rfl⟩ := hx
    exact h2 i fd p hf hp hk

theorem entryCopy_single (k v : Obj) : (k.copied, v.copied) ∈ entryCopy [(k, v)] := by
  refine List.mem_map.mpr ⟨(k.toValue, v.toValue), ?_, rfl⟩
  exact (bmCollect_perm (by simp)).mem_iff.mpr (by simp)

/-- If the reader's variants take everything of the writer's variant `vd`, one of them is related to it. -/
theorem variant_inv {E E' : Env} (hD : DeclsOK E) (hD' : DeclsOK E') {n m : String} {vds vds' : List VariantDef}
    {c c' : Bool} (hd : E.decl n = some ⟨.enum vds, c⟩) (hd' : E'.decl m = some ⟨.enum vds', c'⟩)
    (H : TyReads E E' (.named n) (.named m)) (hi : ∀ t ∈ (Ty.named n).comps E, ∃ x, HasTy E t x)
    {vd : VariantDef} (hv : vd ∈ vds) :
    ∃ vd' ∈ vds', VariantReads (fun a b => a ∈ (Ty.named n).comps E ∧ TyReads E E' a b) vd vd' := by
  have R : ∀ x, HasTy E (.named n) x → ∃ vd' ∈ vds', x.copied.variantName = some vd'.name ∧ VariantAsks E' x.copied vd' :=
    fun x hx => (reads_enum hD' hd' (value_any hx.copied)).mp (H x hx)
  have uniq : ∀ v ∈ vds', ∀ w ∈ vds', v.name = w.name → v = w := by
    intro v hv w hw he
    have h1 := find_variant (hD'.variant_names m vds' c' hd') hv
    have h2 := find_variant (hD'.variant_names m vds' c' hd') hw
    rw [he, h2] at h1
    exact (Option.some.inj h1).symm
  have inh : ∀ fd ∈ declShown vd.fields, ∃ x, HasTy E fd.ty x := fun fd hfd =>
    hi _ (shownComps_enum hd hv (List.mem_map.mpr ⟨fd, hfd, rfl⟩))
  have comp : ∀ a b, (a ∈ (declShown vd.fields).map (·.ty) ∧ TyReads E E' a b) →
      a ∈ (Ty.named n).comps E ∧ TyReads E E' a b := fun a b h => ⟨shownComps_enum hd hv h.1, h.2⟩
  obtain ⟨vs₀, hvs₀⟩ := forall2_choose inh
  -- a value of the variant, for any values of its shown fields
  obtain ⟨mk, hmk, hname, hfield, hpos⟩ : ∃ mk : List Obj → Obj,
      (∀ vs, List.Forall₂ (fun fd x => HasTy E fd.ty x) (declShown vd.fields) vs → HasTy E (.named n) (mk vs)) ∧
      (∀ vs, (mk vs).copied.variantName = some vd.name) ∧
      (∀ vs k, (mk vs).copied.field k = (lookup k (visFields (fillN vd.named vs))).map Obj.copied) ∧
      (∀ vs, List.Forall₂ (fun fd x => HasTy E fd.ty x) (declShown vd.fields) vs → ∀ i : Nat,
        (mk vs).copied.fieldAt i = (vs[i]?).map Obj.copied) := by
    cases vd with
    | struct vn fds =>
      have hn : ∀ vs, ((fillN fds vs).map (·.1)).Nodup := fun vs => by
        rw [fillN_names]; exact hD.variant_fields _ _ _ _ _ hd hv
      refine ⟨fun vs => .enumS (.derived n) vn (fillN fds vs), fun vs h =>
        .enumS n vds c vn fds _ hd hv (fillN_names fds vs) (fillN_spec h).1 (fillN_spec h).2.1,
        fun vs => by rw [copied_variantName]; rfl, fun vs k => (copied_field (hn vs) k).2 vn, fun vs h i => ?_⟩
      have h4 := (fillN_spec h).2.2.2
      rw [copied_enumS_at (hn vs)]
      conv => rhs; rw [← h4]
      rw [List.getElem?_map, Option.map_map]; rfl
    | tuple vn fds =>
      refine ⟨fun vs => .enumT (.derived n) vn ((fillN fds vs).map (·.2)), fun vs h =>
        .enumT n vds c vn fds _ hd hv (fillN_pos (fds := fds) h).1 (fillN_pos (fds := fds) h).2.1 (fillN_pos (fds := fds) h).2.2.1,
        fun vs => by rw [copied_variantName]; rfl, fun vs k => by rw [copied_enumT]; rfl, fun vs h i => ?_⟩
      rw [copied_enumT, Obj.fieldAt, (fillN_pos (fds := fds) h).2.2.2]
      exact visAt_copied i
    | unit vn =>
      refine ⟨fun _ => .enumU (.derived n) vn, fun _ _ => .enumU n vds c vn hd hv,
        fun vs => by rw [copied_variantName]; rfl, fun vs k => by rw [copied_enumU]; rfl, fun vs h i => ?_⟩
      cases h
      rw [copied_enumU]; rfl
  obtain ⟨vd', hv', hn', -⟩ := R _ (hmk vs₀ hvs₀)
  rw [hname] at hn'
  have asks : ∀ vs, List.Forall₂ (fun fd x => HasTy E fd.ty x) (declShown vd.fields) vs →
      VariantAsks E' (mk vs).copied vd' := by
    intro vs h
    obtain ⟨w, hw, hwn, ha⟩ := R _ (hmk vs h)
    rw [hname, hn'] at hwn
    have := uniq vd' hv' w hw (Option.some.inj hwn)
    subst this; exact ha
  refine ⟨vd', hv', Option.some.inj hn', ?_⟩
  cases vd' with
  | unit _ => trivial
  | tuple _ fds' =>
    refine PosReads.mono (pos_inv inh fun vs h i fd' hf hk => ?_) comp
    obtain ⟨x, hx, hr⟩ := asks vs h i fd' hf hk
    rw [hpos vs h] at hx
    exact ⟨x, hx, hr⟩
  | struct _ fds' =>
    cases vd with
    | struct vn fds =>
      refine NamedReads.mono (named_inv (hD.variant_fields _ _ _ _ _ hd hv) inh fun vs h fd' hf => ?_) comp
      obtain ⟨x, hx, hr⟩ := asks vs h fd' hf
      rw [hfield vs] at hx
      exact ⟨x, hx, hr⟩
    | tuple vn fds =>
      intro fd' hfd'
      obtain ⟨x, hx, -⟩ := asks vs₀ hvs₀ fd' hfd'
      rw [hfield] at hx
      simp [VariantDef.named, fillN, visFields, lookup] at hx
    | unit vn =>
      intro fd' hfd'
      obtain ⟨x, hx, -⟩ := asks vs₀ hvs₀ fd' hfd'
      rw [hfield] at hx
      simp [VariantDef.named, fillN, visFields, lookup] at hx

/-- If every value of type `a` can be read as `b`, one of the rules applies. -/
theorem reads_step {E E' : Env} (hD : DeclsOK E) (hD' : DeclsOK E') {a b : Ty} (H : TyReads E E' a b)
    (hi : ∃ x, HasTy E a x) (hic : ∀ t ∈ a.comps E, ∃ x, HasTy E t x) :
    ReadStep E E' (fun c d => (c = a ∨ c ∈ a.comps E) ∧ TyReads E E' c d) a b := by
  have up : ∀ c d, (c ∈ a.comps E ∧ TyReads E E' c d) → (c = a ∨ c ∈ a.comps E) ∧ TyReads E E' c d :=
    fun c d h => ⟨.inr h.1, h.2⟩
  by_cases hab : ∃ t, a = .box t
  · obtain ⟨t, rfl⟩ := hab
    exact .unbox t b ⟨.inr (by simp [Ty.comps]), fun x hx => H x (.box t x hx)⟩
  by_cases hbb : ∃ t, b = .box t
  · obtain ⟨t, rfl⟩ := hbb
    exact .box a t ⟨.inl rfl, fun x hx => reads_box.mp (H x hx)⟩
  by_cases hav : a = .value
  · subst hav
    rw [value_inv H fun t h => hbb ⟨t, h⟩]
    exact .value _
  obtain ⟨x₀, hx₀⟩ := hi
  obtain ⟨k1, k2, k3, k4, k5, k6, k7⟩ := kind_inv hx₀ (fun t h => hab ⟨t, h⟩) hav
  have hr := H x₀ hx₀
  have hval : HasTy E' .value x₀.copied := value_any hx₀.copied
  cases b with
  | box t => exact absurd ⟨t, rfl⟩ hbb
  | value => exact .value _
  | structValue =>
    obtain ⟨fds, h⟩ := k1 ((reads_dyn hval).1.mp hr)
    exact .structValue _ fds h
  | tupleStructValue =>
    obtain ⟨fds, h⟩ := k2 ((reads_dyn hval).2.1.mp hr)
    exact .tupleStructValue _ fds h
  | tupleValue =>
    obtain ⟨fds, h⟩ := k3 ((reads_dyn hval).2.2.1.mp hr)
    exact .tupleValue _ fds h
  | enumValue => exact .enumValue _ (k4 ((reads_dyn hval).2.2.2.mp hr))
  | scalar k =>
    obtain ⟨s, hs, he⟩ := reads_scalar.mp hr
    rcases k7 (by rw [he]; rfl) with ⟨k', rfl⟩ | ⟨k', rfl⟩
    · cases hx₀ with
      | scalar s' =>
        rw [copied_scalar] at he
        cases he
        rw [hs]; exact .scalar k
    · cases hx₀ with
      | nonzero _ n _ =>
        rw [copied_nonzero] at he
        cases he
        rw [← hs]; exact .nonzeroInt k'
  | nonzero k =>
    have hk : ∃ n, x₀.copied = .scalar (.int k n) := by
      rcases (reads_nonzero hD').mp hr with ⟨n, h⟩ | ⟨n, _, h⟩
      · rw [Obj.copied] at h
        cases hx : x₀.toValue <;> rw [hx] at h <;> simp [Value.toObj] at h
      · exact ⟨n, h⟩
    obtain ⟨n, he⟩ := hk
    rcases k7 (by rw [he]; rfl) with ⟨k', rfl⟩ | ⟨k', rfl⟩
    · cases hx₀ with
      | scalar s' =>
        rw [copied_scalar] at he
        cases he
        have := H (.scalar (.int k 0)) (.scalar (.int k 0))
        rw [copied_scalar] at this
        rcases (reads_nonzero hD').mp this with ⟨n, h⟩ | ⟨n, h0, h⟩
        · cases h
        · cases h; exact absurd rfl h0
    · cases hx₀ with
      | nonzero _ n _ =>
        rw [copied_nonzero] at he
        cases he
        exact .nonzero _
  | tuple ts' =>
    obtain ⟨hk, -⟩ := reads_tuple.mp hr
    obtain ⟨ts, ht⟩ := k3 hk
    refine .tuple a ts ts' ht ?_
    cases ht with
    | dyn =>
      intro i t' ht'
      have hw : (Value.tuple []).WF := .tuple _ (by simp)
      have := H (Value.tuple []).toObj (.tupleValue _ _ hw rfl)
      rw [copied_self (E := E) (.value _ _ hw rfl)] at this
      obtain ⟨x, hx, -⟩ := (reads_tuple.mp this).2 i t' ht'
      simp [Value.toObj, Obj.fieldAt, visAt] at hx
    | typed =>
      intro i t' ht'
      obtain ⟨t, h1, h2⟩ := tuple_inv (ts := ts) (ts' := ts') hic (fun vs hvs i t' ht' => by
        obtain ⟨hl, hi⟩ := index_of_forall2 hvs
        have := H (.tuple (.typed ts) vs) (.tuple ts vs hl hi)
        obtain ⟨x, hx, hr⟩ := (reads_tuple.mp this).2 i t' ht'
        rw [copied_tuple, Obj.fieldAt, visAt_copied] at hx
        exact ⟨x, hx, hr⟩) i t' ht'
      exact ⟨t, h1, up _ _ h2⟩
  | vec t' =>
    rcases k5 ((reads_kind hD' hr).1 t' rfl) with ⟨t, rfl⟩ | ⟨t, n, rfl⟩
    · refine .vec t t' ⟨.inr (by simp [Ty.comps]), fun x hx => ?_⟩
      have := H (.vec t [x]) (.vec t _ (by simpa using hx))
      rw [copied_vec, reads_vec] at this
      exact this _ (by simp)
    · refine .arrayVec t t' n ?_
      cases n with
      | zero => exact .inl rfl
      | succ n =>
        refine .inr ⟨.inr (by simp [Ty.comps]), fun x hx => ?_⟩
        have hy : HasTy E (.array t (n + 1)) (.array t (List.replicate (n + 1) x)) := by
          have := HasTy.array (E := E) t (List.replicate (n + 1) x) (fun y hy => by
            rw [List.eq_of_mem_replicate hy]; exact hx)
          rwa [List.length_replicate] at this
        have := H _ hy
        rw [copied_array, reads_vec] at this
        exact this _ (by simp)
  | array t' n' =>
    rcases k5 ((reads_kind hD' hr).2.1 t' n' rfl) with ⟨t, rfl⟩ | ⟨t, n, rfl⟩
    · obtain ⟨x, hx⟩ := hic t (by simp [Ty.comps])
      have h0 := H (.vec t []) (.vec t _ (by simp))
      have h1 := H (.vec t [x]) (.vec t _ (by simpa using hx))
      rw [copied_vec, reads_array] at h0 h1
      have := h0.1
      have := h1.1
      simp at *
      omega
    · have hn : n = n' := by
        cases hx₀ with
        | array _ xs h =>
          rw [copied_array, reads_array] at hr
          simpa using hr.1
      subst hn
      refine .array t t' n ?_
      cases n with
      | zero => exact .inl rfl
      | succ n =>
        refine .inr ⟨.inr (by simp [Ty.comps]), fun x hx => ?_⟩
        have hy : HasTy E (.array t (n + 1)) (.array t (List.replicate (n + 1) x)) := by
          have := HasTy.array (E := E) t (List.replicate (n + 1) x) (fun y hy => by
            rw [List.eq_of_mem_replicate hy]; exact hx)
          rwa [List.length_replicate] at this
        have := H _ hy
        rw [copied_array, reads_array] at this
        exact this.2 _ (by simp)
  | map k' v' =>
    obtain ⟨k, v, rfl⟩ := k6 ((reads_kind hD' hr).2.2 k' v' rfl)
    have both : ∀ x y, HasTy E k x → HasTy E v y → Reads E' k' x.copied ∧ Reads E' v' y.copied := by
      intro x y hx hy
      have := H (.map k v [(x, y)]) (.map k v _ (by simp [BMSorted]) (by simpa using hx) (by simpa using hy))
      rw [copied_map, reads_map] at this
      exact this _ (entryCopy_single x y)
    obtain ⟨x, hx⟩ := hic k (by simp [Ty.comps])
    obtain ⟨y, hy⟩ := hic v (by simp [Ty.comps])
    exact .map k v k' v' ⟨.inr (by simp [Ty.comps]), fun x hx => (both x y hx hy).1⟩
      ⟨.inr (by simp [Ty.comps]), fun y hy => (both x y hx hy).2⟩
  | named m =>
    cases hd' : E'.decl m with
    | none => obtain ⟨y, hy⟩ := hr; rw [fromReflect_nodecl hd'] at hy; cases hy
    | some d =>
      obtain ⟨sh, c'⟩ := d
      cases sh with
      | struct fds' =>
        obtain ⟨fds, ht⟩ := k1 ((reads_struct hd' hval).mp hr).1
        refine .struct a m fds fds' c' ht hd' ?_
        cases ht with
        | dyn =>
          intro fd' hfd'
          have hw : (Value.struct [] []).WF := .struct _ _ (by simp) (by simp [BMSorted]) (by simp)
          have := H (Value.struct [] []).toObj (.structValue _ _ _ hw rfl)
          rw [copied_self (E := E) (.value _ _ hw rfl)] at this
          obtain ⟨x, hx, -⟩ := ((reads_struct hd' (.value _ _ hw rfl)).mp this).2 fd' hfd'
          simp [Value.toObj, Obj.field, visFields, lookup] at hx
        | derived n _ c hd =>
          have hcs := shownComps_struct hd
          refine NamedReads.mono (named_inv (hD.struct_names n fds c hd)
            (fun fd hfd => hic _ (by rw [hcs]; exact List.mem_map.mpr ⟨fd, hfd, rfl⟩)) fun vs hvs fd' hfd' => ?_)
            fun c d h => up c d (by rw [hcs]; exact h)
          have ht := fillN_struct hd hvs
          have := ((reads_struct hd' (value_any ht.copied)).mp (H _ ht)).2 fd' hfd'
          rwa [(copied_field (by rw [fillN_names]; exact hD.struct_names n fds c hd) _).1] at this
      | tupleStruct fds' =>
        obtain ⟨fds, ht⟩ := k2 ((reads_tupleStruct hd' hval).mp hr).1
        refine .tupleStruct a m fds fds' c' ht hd' ?_
        cases ht with
        | dyn =>
          intro i fd' hfd' hk
          have hw : (Value.tupleStruct []).WF := .tupleStruct _ (by simp)
          have := H (Value.tupleStruct []).toObj (.tupleStructValue _ _ hw rfl)
          rw [copied_self (E := E) (.value _ _ hw rfl)] at this
          obtain ⟨x, hx, -⟩ := ((reads_tupleStruct hd' (.value _ _ hw rfl)).mp this).2 i fd' hfd' hk
          simp [Value.toObj, Obj.fieldAt, visAt] at hx
        | derived n _ c hd =>
          have hcs := shownComps_tupleStruct hd
          refine PosReads.mono (pos_inv
            (fun fd hfd => hic _ (by rw [hcs]; exact List.mem_map.mpr ⟨fd, hfd, rfl⟩)) fun vs hvs i fd' hfd' hk => ?_)
            fun c d h => up c d (by rw [hcs]; exact h)
          obtain ⟨p1, p2, p3, p4⟩ := fillN_pos hvs
          have ht := HasTy.tupleStruct (E := E) n fds c _ hd p1 p2 p3
          have := ((reads_tupleStruct hd' (value_any ht.copied)).mp (H _ ht)).2 i fd' hfd' hk
          rw [copied_tupleStruct, Obj.fieldAt, p4, visAt_copied] at this
          exact this
      | enum vds' =>
        have hke : x₀.copied.kind = .enum := by
          obtain ⟨vd, _, hn, _⟩ := (reads_enum hD' hd' hval).mp hr
          cases hx : x₀.copied <;> rw [hx] at hn <;> simp [Obj.variantName] at hn <;> rfl
        cases k4 hke with
        | dyn =>
          obtain ⟨vn, hvn⟩ := fresh_name (vds'.map (·.name))
          have hw : (Value.enumU vn).WF := .enumU _
          have := H (Value.enumU vn).toObj (.enumValueU _ _ rfl)
          rw [copied_self (E := E) (.value _ _ hw rfl)] at this
          obtain ⟨vd, hm, hn, -⟩ := (reads_enum hD' hd' (.value _ _ hw rfl)).mp this
          simp [Value.toObj, Obj.variantName] at hn
          exact absurd (List.mem_map.mpr ⟨vd, hm, hn.symm⟩) hvn
        | derived n vds c hd =>
          refine .enum n m vds vds' c c' hd hd' fun vd hv => ?_
          obtain ⟨vd', hv', h⟩ := variant_inv hD hD' hd hd' H hic hv
          exact ⟨vd', hv', variantReads_mono h up⟩

theorem ReadStep.mono {E E' : Env} {R R' : Ty → Ty → Prop} {a b : Ty} (h : ReadStep E E' R a b)
    (hr : ∀ c d, R c d → R' c d) : ReadStep E E' R' a b := by
  cases h with
  | scalar k => exact .scalar k
  | nonzero k => exact .nonzero k
  | nonzeroInt k => exact .nonzeroInt k
  | struct _ n fds fds' c h1 h2 h3 => exact .struct _ n fds fds' c h1 h2 (h3.mono hr)
  | tupleStruct _ n fds fds' c h1 h2 h3 => exact .tupleStruct _ n fds fds' c h1 h2 (h3.mono hr)
  | enum m n vds vds' c c' h1 h2 h3 =>
    refine .enum m n vds vds' c c' h1 h2 fun vd hv => ?_
    obtain ⟨vd', hv', h⟩ := h3 vd hv
    exact ⟨vd', hv', variantReads_mono h hr⟩
  | tuple _ ts ts' h1 h2 =>
    refine .tuple _ ts ts' h1 fun i t' ht' => ?_
    obtain ⟨t, ht, h⟩ := h2 i t' ht'
    exact ⟨t, ht, hr _ _ h⟩
  | vec t t' h => exact .vec t t' (hr _ _ h)
  | arrayVec t t' n h => exact .arrayVec t t' n (h.imp id (hr _ _))
  | array t t' n h => exact .array t t' n (h.imp id (hr _ _))
  | map k v k' v' h1 h2 => exact .map k v k' v' (hr _ _ h1) (hr _ _ h2)
  | unbox t _ h => exact .unbox t _ (hr _ _ h)
  | box _ t h => exact .box _ t (hr _ _ h)
  | value => exact .value _
  | structValue _ fds h => exact .structValue _ fds h
  | tupleStructValue _ fds h => exact .tupleStructValue _ fds h
  | tupleValue _ ts h => exact .tupleValue _ ts h
  | enumValue _ h => exact .enumValue _ h

end Mirror
