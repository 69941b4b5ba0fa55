import Verif.Spec.Suits
import Verif.Lemmas.Versions
import Verif.Lemmas.DefaultExact
import Verif.Lemmas.Rename

/-! # Lemmas for C96 -/

set_option linter.unusedSimpArgs false

namespace Mirror

theorem lookup_toObj {fs : List (String × Value)} (hs : BMSorted strCmp fs) {n : String} {x : Obj} :
    lookup n (fs.map fun p => (p.1, p.2.toObj)) = some x ↔ ∃ w, (n, w) ∈ fs ∧ x = w.toObj := by
  have hn : ((fs.map fun p => (p.1, p.2.toObj)).map (·.1)).Nodup := by
    simpa [Function.comp_def] using strSorted_nodup hs
  rw [lookup_iff hn, List.mem_map]
  constructor
  · rintro ⟨p, hp, he⟩; cases he; exact ⟨_, hp, rfl⟩
  · rintro ⟨w, hw, rfl⟩; exact ⟨_, hw, rfl⟩

theorem visFields_toObj (fs : List (String × Value)) :
    visFields (fs.map fun p => (p.1, p.2.toObj)) = fs.map fun p => (p.1, p.2.toObj) := by
  rw [visFields, List.filter_eq_self]
  intro x hx
  obtain ⟨p, _, rfl⟩ := List.mem_map.mp hx
  simp [Value.toObj_not_hidden]

theorem toObj_field {v : Value} (h : v.WF) {n : String} {x : Obj} :
    v.toObj.field n = some x ↔ ∃ w, v.Named n w ∧ x = w.toObj := by
  cases h with
  | struct ns fs _ hs _ => simp only [Value.toObj, Obj.field, visFields_toObj, lookup_toObj hs, Value.Named]
  | enumS vn ns fs _ hs _ => simp only [Value.toObj, Obj.field, visFields_toObj, lookup_toObj hs, Value.Named]
  | _ => simp [Value.toObj, Obj.field, Value.Named]

theorem toObj_fieldAt {v : Value} (h : v.WF) {i : Nat} {x : Obj} :
    v.toObj.fieldAt i = some x ↔ ∃ w, v.Nth i w ∧ x = w.toObj := by
  have dyn : ∀ {ns : List String} {fs : List (String × Value)}, BMSorted strCmp fs →
      ((ns[i]?.bind fun n => lookup n (fs.map fun p => (p.1, p.2.toObj))) = some x ↔
        ∃ w, (∃ n, ns[i]? = some n ∧ (n, w) ∈ fs) ∧ x = w.toObj) := by
    intro ns fs hs
    rw [Option.bind_eq_some_iff]
    constructor
    · rintro ⟨n, hn, hl⟩
      obtain ⟨w, hw, rfl⟩ := (lookup_toObj hs).mp hl
      exact ⟨w, ⟨n, hn, hw⟩, rfl⟩
    · rintro ⟨w, ⟨n, hn, hw⟩, rfl⟩
      exact ⟨n, hn, (lookup_toObj hs).mpr ⟨w, hw, rfl⟩⟩
  cases h with
  | struct ns fs _ hs _ => simp only [Value.toObj, Obj.fieldAt, dyn hs, Value.Nth]
  | enumS vn ns fs _ hs _ => simp only [Value.toObj, Obj.fieldAt, dyn hs, Value.Nth]
  | enumT vn ws _ => simp only [Value.toObj, Obj.fieldAt, toObj_visAt, Value.Nth, Option.map_eq_some_iff, eq_comm (a := x)]
  | tupleStruct ws _ => simp only [Value.toObj, Obj.fieldAt, toObj_visAt, Value.Nth, Option.map_eq_some_iff, eq_comm (a := x)]
  | tuple ws _ => simp only [Value.toObj, Obj.fieldAt, toObj_visAt, Value.Nth, Option.map_eq_some_iff, eq_comm (a := x)]
  | list ws _ => simp only [Value.toObj, Obj.fieldAt, List.getElem?_map, Value.Nth, Option.map_eq_some_iff, eq_comm (a := x)]
  | _ => simp [Value.toObj, Obj.fieldAt, Value.Nth]

theorem toObj_variantName (v : Value) : v.toObj.variantName = v.variant := by
  cases v <;> simp [Value.toObj, Obj.variantName, Value.variant]

/-- The parts of a value are smaller. -/
theorem Value.Named.part {v w : Value} {n : String} (h : v.Named n w) :
    sizeOf w < sizeOf v ∧ (v.WF → w.WF) := by
  have mem : ∀ {fs : List (String × Value)}, (n, w) ∈ fs → sizeOf w < sizeOf fs := by
    intro fs hm
    have := List.sizeOf_lt_of_mem hm
    have h2 : sizeOf (n, w) = 1 + sizeOf n + sizeOf w := rfl
    omega
  cases v with
  | struct ns fs =>
    have hm : (n, w) ∈ fs := h
    refine ⟨by have := mem hm; simp only [Value.struct.sizeOf_spec]; omega, fun hw => ?_⟩
    cases hw with | struct _ _ _ _ h3 => exact h3 _ hm
  | enumS vn ns fs =>
    have hm : (n, w) ∈ fs := h
    refine ⟨by have := mem hm; simp only [Value.enumS.sizeOf_spec]; omega, fun hw => ?_⟩
    cases hw with | enumS _ _ _ _ _ h3 => exact h3 _ hm
  | _ => exact h.elim

theorem Value.Nth.part {v w : Value} {i : Nat} (h : v.Nth i w) :
    sizeOf w < sizeOf v ∧ (v.WF → w.WF) := by
  cases v with
  | struct ns fs =>
    obtain ⟨n, _, hm⟩ := h
    exact Value.Named.part (v := .struct ns fs) (n := n) hm
  | enumS vn ns fs =>
    obtain ⟨n, _, hm⟩ := h
    exact Value.Named.part (v := .enumS vn ns fs) (n := n) hm
  | enumT vn ws =>
    have hm := List.mem_of_getElem? (show ws[i]? = some w from h)
    refine ⟨by have := List.sizeOf_lt_of_mem hm; simp only [Value.enumT.sizeOf_spec]; omega, fun hw => ?_⟩
    cases hw with | enumT _ _ h => exact h _ hm
  | tupleStruct ws =>
    have hm := List.mem_of_getElem? (show ws[i]? = some w from h)
    refine ⟨by have := List.sizeOf_lt_of_mem hm; simp only [Value.tupleStruct.sizeOf_spec]; omega, fun hw => ?_⟩
    cases hw with | tupleStruct _ h => exact h _ hm
  | tuple ws =>
    have hm := List.mem_of_getElem? (show ws[i]? = some w from h)
    refine ⟨by have := List.sizeOf_lt_of_mem hm; simp only [Value.tuple.sizeOf_spec]; omega, fun hw => ?_⟩
    cases hw with | tuple _ h => exact h _ hm
  | list ws =>
    have hm := List.mem_of_getElem? (show ws[i]? = some w from h)
    refine ⟨by have := List.sizeOf_lt_of_mem hm; simp only [Value.list.sizeOf_spec]; omega, fun hw => ?_⟩
    cases hw with | list _ h => exact h _ hm
  | _ => exact h.elim

theorem mem_list_part {ws : List Value} {w : Value} (hm : w ∈ ws) :
    sizeOf w < sizeOf (Value.list ws) ∧ ((Value.list ws).WF → w.WF) := by
  obtain ⟨i, h⟩ := List.getElem?_of_mem hm
  exact Value.Nth.part (v := .list ws) (i := i) h

theorem mem_map_part {kvs : List (Value × Value)} {p : Value × Value} (hm : p ∈ kvs) :
    (sizeOf p.1 < sizeOf (Value.map kvs) ∧ ((Value.map kvs).WF → p.1.WF)) ∧
    (sizeOf p.2 < sizeOf (Value.map kvs) ∧ ((Value.map kvs).WF → p.2.WF)) := by
  have h1 := List.sizeOf_lt_of_mem hm
  have h2 : sizeOf p = 1 + sizeOf p.1 + sizeOf p.2 := rfl
  have h3 : sizeOf (Value.map kvs) = 1 + sizeOf kvs := by simp
  refine ⟨⟨by omega, fun hw => ?_⟩, by omega, fun hw => ?_⟩
  · cases hw with | map _ _ h _ => exact h _ hm
  · cases hw with | map _ _ _ h => exact h _ hm

theorem takes_ids {names : List String} {fields : List (String × Ty)} {p : String × Option Ty} {j : Ty}
    (hp : p ∈ namedTypes names fields) (hj : p.2 = some j) : j ∈ fields.map (·.2) := by
  simp only [namedTypes, List.mem_map] at hp
  obtain ⟨n, _, rfl⟩ := hp
  exact bmGet_snd_mem hj

/-- `Takes` depends only on what `R` says of the ids of the node and the parts of the value. -/
theorem TypeNode.Takes.mono {R R' : Ty → Value → Prop} {op op' : Value → Prop} {v : Value} {n : TypeNode}
    (hR : ∀ j ∈ n.ids, ∀ w, sizeOf w < sizeOf v → (v.WF → w.WF) → R j w → R' j w)
    (ho : n = .opaque → op v → op' v) (h : n.Takes R op v) : n.Takes R' op' v := by
  have named : ∀ {names fields}, (∀ j ∈ fields.map (fun p : String × Ty => p.2), ∀ w, sizeOf w < sizeOf v →
      (v.WF → w.WF) → R j w → R' j w) → TakesNamed R v names fields → TakesNamed R' v names fields := by
    intro names fields hR h p hp
    obtain ⟨j, w, h1, h2, h3⟩ := h p hp
    exact ⟨j, w, h1, h2, hR j (takes_ids hp h1) w h2.part.1 h2.part.2 h3⟩
  have nth : ∀ {fields : List Ty}, (∀ j ∈ fields, ∀ w, sizeOf w < sizeOf v →
      (v.WF → w.WF) → R j w → R' j w) → TakesNth R v fields → TakesNth R' v fields := by
    intro fields hR h i j hj
    obtain ⟨w, h2, h3⟩ := h i j hj
    exact ⟨w, h2, hR j (List.mem_of_getElem? hj) w h2.part.1 h2.part.2 h3⟩
  cases n with
  | struct names fields => exact ⟨h.1, named hR h.2⟩
  | tupleStruct fields => exact ⟨h.1, nth hR h.2⟩
  | tuple fields => exact ⟨h.1, nth hR h.2⟩
  | enum vs =>
    obtain ⟨m, hm, hv, h⟩ := h
    refine ⟨m, hm, hv, ?_⟩
    have hids : ∀ j ∈ m.ids, j ∈ TypeNode.ids (.enum vs) := fun j hj =>
      List.mem_flatMap.mpr ⟨m, hm, hj⟩
    cases m with
    | struct _ names fields => exact named (fun j hj => hR j (hids j hj)) h
    | tuple _ fields => exact nth (fun j hj => hR j (hids j hj)) h
    | unit _ => trivial
  | list j =>
    obtain ⟨ws, rfl, h⟩ := h
    exact ⟨ws, rfl, fun w hw => hR j (by simp [TypeNode.ids]) w (mem_list_part hw).1 (mem_list_part hw).2 (h w hw)⟩
  | array j len =>
    obtain ⟨ws, rfl, hl, h⟩ := h
    exact ⟨ws, rfl, hl, fun w hw => hR j (by simp [TypeNode.ids]) w (mem_list_part hw).1 (mem_list_part hw).2 (h w hw)⟩
  | map k j =>
    obtain ⟨kvs, rfl, h⟩ := h
    exact ⟨kvs, rfl, fun p hp =>
      ⟨hR k (by simp [TypeNode.ids]) _ (mem_map_part hp).1.1 (mem_map_part hp).1.2 (h p hp).1,
       hR j (by simp [TypeNode.ids]) _ (mem_map_part hp).2.1 (mem_map_part hp).2.2 (h p hp).2⟩⟩
  | scalar k => exact h
  | «opaque» => exact ho rfl h

/-- The descriptor's relation is closed. -/
theorem Suits.intro {g : TypeGraph} {op : Ty → Value → Prop} {i : Ty} {v : Value} {n : TypeNode}
    (hn : g.node i = some n) (h : n.Takes (Suits g op) (op i) v) : Suits g op i v := by
  intro R hR
  exact hR i v n hn (h.mono (fun j _ w _ _ hw => hw R hR) fun _ h => h)

theorem Suits.cases {g : TypeGraph} {op : Ty → Value → Prop} {i : Ty} {v : Value}
    (h : Suits g op i v) : ∃ n, g.node i = some n ∧ n.Takes (Suits g op) (op i) v :=
  h (fun i v => ∃ n, g.node i = some n ∧ n.Takes (Suits g op) (op i) v) fun i v n hn ht =>
    ⟨n, hn, ht.mono (fun _ _ _ _ _ ⟨_, hm, hw⟩ => Suits.intro hm hw) fun _ h => h⟩

theorem takesNth_shown {R : Ty → Value → Prop} {v : Value} {fds : List FieldDef} (hg : ¬ SkipGap fds)
    (hR : ∀ t w, R t.unbox w ↔ R t w) :
    TakesNth R v ((fds.filter fun fd => !fd.skip).map fun fd => fd.ty.unbox) ↔
      ∀ (i : Nat) fd, fds[i]? = some fd → fd.skip = false → ∃ w, v.Nth i w ∧ R fd.ty w := by
  have happ := visDefs_append (SkipGap.last hg)
  have key : ∀ (i : Nat) fd, (fds.filter fun fd => !fd.skip)[i]? = some fd ↔ fds[i]? = some fd ∧ fd.skip = false := by
    intro i fd
    have hv : visDefs fds = fds.filter fun fd => !fd.skip := rfl
    constructor
    · intro h
      refine ⟨?_, by simpa using (List.mem_filter.mp (List.mem_of_getElem? h)).2⟩
      have hl := (List.getElem?_eq_some_iff.mp h).1
      rw [happ, List.getElem?_append_left (by rw [hv]; exact hl), hv, h]
    · rintro ⟨h, hs⟩
      by_cases hl : i < (visDefs fds).length
      · rw [happ, List.getElem?_append_left hl] at h; exact h
      · rw [happ, List.getElem?_append_right (by omega)] at h
        have := (List.mem_filter.mp (List.mem_of_getElem? h)).2
        rw [hs] at this; cases this
  constructor
  · intro h i fd hf hs
    obtain ⟨w, h1, h2⟩ := h i fd.ty.unbox (by rw [List.getElem?_map, (key i fd).mpr ⟨hf, hs⟩]; rfl)
    exact ⟨w, h1, (hR _ _).mp h2⟩
  · intro h i j hj
    rw [List.getElem?_map, Option.map_eq_some_iff] at hj
    obtain ⟨fd, hf, rfl⟩ := hj
    obtain ⟨w, h1, h2⟩ := h i fd ((key i fd).mp hf).1 ((key i fd).mp hf).2
    exact ⟨w, h1, (hR _ _).mpr h2⟩

theorem takesNamed_shown {R : Ty → Value → Prop} {v : Value} {fds : List FieldDef} {names fields}
    (he : namedTypes names fields =
      ((fds.filter fun fd => !fd.skip).map fun fd => (fd.name, some fd.ty.unbox)))
    (hR : ∀ t w, R t.unbox w ↔ R t w) :
    TakesNamed R v names fields ↔ ∀ fd ∈ declShown fds, ∃ w, v.Named fd.name w ∧ R fd.ty w := by
  have hd : declShown fds = fds.filter fun fd => !fd.skip := rfl
  rw [TakesNamed, he]
  constructor
  · intro h fd hf
    obtain ⟨j, w, h1, h2, h3⟩ := h _ (List.mem_map_of_mem (hd ▸ hf))
    cases h1
    exact ⟨w, h2, (hR _ _).mp h3⟩
  · intro h p hp
    obtain ⟨fd, hf, rfl⟩ := List.mem_map.mp hp
    obtain ⟨w, h1, h2⟩ := h fd (hd ▸ hf)
    exact ⟨_, w, rfl, h1, (hR _ _).mpr h2⟩

/-- One level: what the node of a type says is what the conversion asks. -/
theorem takes_reads {E : Env} (hD : DeclsOK E) {u : Ty} {n : TypeNode} (hd : Describes E u n)
    (hg : ¬ u.PosGap E) {v : Value} (hw : v.WF) {op : Value → Prop}
    (ho : u.IsOpaque → (op v ↔ Reads E u v.toObj)) :
    n.Takes (fun j w => Reads E j w.toObj) op v ↔ Reads E u v.toObj := by
  have hv : HasTy E .value v.toObj := .value _ _ hw rfl
  have hR : ∀ t w, (fun j (w : Value) => Reads E j w.toObj) t.unbox w ↔ (fun j (w : Value) => Reads E j w.toObj) t w := by
    intro t w; simp only [Reads, fromReflect_unbox]
  have hR' : ∀ (t : Ty) (o : Obj), Reads E t.unbox o ↔ Reads E t o := by
    intro t w; simp only [Reads, fromReflect_unbox]
  have named : ∀ {fds : List FieldDef}, (∀ fd ∈ declShown fds, ∃ w, v.Named fd.name w ∧ Reads E fd.ty w.toObj) ↔
      ∀ fd ∈ declShown fds, ∃ x, v.toObj.field fd.name = some x ∧ Reads E fd.ty x := by
    intro fds
    constructor
    · intro h fd hf
      obtain ⟨w, h1, h2⟩ := h fd hf
      exact ⟨_, (toObj_field hw).mpr ⟨w, h1, rfl⟩, h2⟩
    · intro h fd hf
      obtain ⟨x, h1, h2⟩ := h fd hf
      obtain ⟨w, h3, rfl⟩ := (toObj_field hw).mp h1
      exact ⟨w, h3, h2⟩
  have nth : ∀ (i : Nat) (t : Ty), (∃ w, v.Nth i w ∧ Reads E t w.toObj) ↔
      ∃ x, v.toObj.fieldAt i = some x ∧ Reads E t x := by
    intro i t
    constructor
    · rintro ⟨w, h1, h2⟩; exact ⟨_, (toObj_fieldAt hw).mpr ⟨w, h1, rfl⟩, h2⟩
    · rintro ⟨x, h1, h2⟩
      obtain ⟨w, h3, rfl⟩ := (toObj_fieldAt hw).mp h1
      exact ⟨w, h3, h2⟩
  cases hd with
  | scalar k =>
    rw [reads_scalar, TypeNode.Takes]
    constructor
    · rintro ⟨s, rfl, h⟩; exact ⟨s, h, by rw [Value.toObj]⟩
    · rintro ⟨s, h, he⟩
      refine ⟨s, ?_, h⟩
      cases v <;> simp [Value.toObj] at he ⊢
      exact he
  | nonzero k => exact ho trivial
  | value => exact ho trivial
  | structValue => exact ho trivial
  | tupleStructValue => exact ho trivial
  | tupleValue => exact ho trivial
  | enumValue => exact ho trivial
  | vec t =>
    rw [TypeNode.Takes]
    constructor
    · rintro ⟨ws, rfl, h⟩
      rw [Value.toObj, reads_vec]
      intro x hx
      obtain ⟨w, hm, rfl⟩ := List.mem_map.mp hx
      exact (hR t w).mp (h w hm)
    · intro h
      have hk := (reads_kind hD h).1 t rfl
      cases v <;> simp [Value.toObj, Obj.kind] at hk
      rename_i ws
      rw [Value.toObj, reads_vec] at h
      exact ⟨ws, rfl, fun w hm => (hR t w).mpr (h _ (List.mem_map_of_mem hm))⟩
  | array t len =>
    rw [TypeNode.Takes]
    constructor
    · rintro ⟨ws, rfl, hl, h⟩
      rw [Value.toObj, reads_array]
      refine ⟨by simpa using hl, fun x hx => ?_⟩
      obtain ⟨w, hm, rfl⟩ := List.mem_map.mp hx
      exact (hR t w).mp (h w hm)
    · intro h
      have hk := (reads_kind hD h).2.1 t len rfl
      cases v <;> simp [Value.toObj, Obj.kind] at hk
      rename_i ws
      rw [Value.toObj, reads_array] at h
      exact ⟨ws, rfl, by simpa using h.1, fun w hm => (hR t w).mpr (h.2 _ (List.mem_map_of_mem hm))⟩
  | map k t =>
    rw [TypeNode.Takes]
    constructor
    · rintro ⟨kvs, rfl, h⟩
      rw [Value.toObj, reads_map]
      intro x hx
      obtain ⟨p, hm, rfl⟩ := List.mem_map.mp hx
      exact ⟨(hR k _).mp (h p hm).1, (hR t _).mp (h p hm).2⟩
    · intro h
      have hk := (reads_kind hD h).2.2 k t rfl
      cases v <;> simp [Value.toObj, Obj.kind] at hk
      rename_i kvs
      rw [Value.toObj, reads_map] at h
      exact ⟨kvs, rfl, fun p hm => ⟨(hR k _).mpr (h _ (List.mem_map_of_mem hm)).1,
        (hR t _).mpr (h _ (List.mem_map_of_mem hm)).2⟩⟩
  | tuple ts =>
    rw [reads_tuple, TypeNode.Takes]
    have h1 : v.toObj.kind = .tuple ↔ ∃ ws, v = .tuple ws := by cases v <;> simp [Value.toObj, Obj.kind]
    rw [h1]
    refine and_congr Iff.rfl ⟨fun h i t hi => ?_, fun h i j hj => ?_⟩
    · obtain ⟨w, h2, h3⟩ := h i t.unbox (by rw [List.getElem?_map, hi]; rfl)
      exact (nth i t).mp ⟨w, h2, (hR t w).mp h3⟩
    · rw [List.getElem?_map, Option.map_eq_some_iff] at hj
      obtain ⟨t, ht, rfl⟩ := hj
      obtain ⟨w, h2, h3⟩ := (nth i t).mpr (h i t ht)
      exact ⟨w, h2, (hR t w).mpr h3⟩
  | struct n fds c names fields hd he _ _ =>
    rw [reads_struct hd hv, TypeNode.Takes, takesNamed_shown he hR]
    have h1 : v.toObj.kind = .struct ↔ ∃ ns fs, v = .struct ns fs := by cases v <;> simp [Value.toObj, Obj.kind]
    rw [h1]
    exact and_congr Iff.rfl named
  | tupleStruct n fds c hd =>
    have hgap : ¬ SkipGap fds := fun h => hg ⟨n, c, rfl, .inl ⟨fds, hd, h⟩⟩
    rw [reads_tupleStruct hd hv, TypeNode.Takes, takesNth_shown hgap hR]
    have h1 : v.toObj.kind = .tupleStruct ↔ ∃ ws, v = .tupleStruct ws := by cases v <;> simp [Value.toObj, Obj.kind]
    rw [h1]
    refine and_congr Iff.rfl ?_
    simp only [nth]
  | enum n vds c vs hd hl hvs =>
    rw [reads_enum hD hd hv, TypeNode.Takes]
    have one : ∀ {vd m}, vd ∈ vds → DescribesVariant vd m →
        (m.Takes (fun j w => Reads E j w.toObj) v ↔ v.toObj.variantName = some vd.name ∧ VariantAsks E v.toObj vd) := by
      intro vd m hm hdv
      rw [toObj_variantName]
      cases hdv with
      | struct vn fds names fields he _ _ =>
        simp only [VariantNode.Takes, takesNamed_shown (R := fun j w => Reads E j w.toObj) he hR]
        exact and_congr Iff.rfl named
      | tuple vn fds =>
        have hgap : ¬ SkipGap fds := fun h => hg ⟨n, c, rfl, .inr ⟨vn, fds, vds, hd, hm, h⟩⟩
        simp only [VariantNode.Takes, takesNth_shown (R := fun j w => Reads E j w.toObj) hgap hR]
        refine and_congr Iff.rfl ?_
        simp only [VariantAsks, nth]
      | unit vn => simp [VariantNode.Takes, VariantAsks, VariantNode.name, VariantDef.name]
    constructor
    · rintro ⟨m, hm, h⟩
      obtain ⟨i, hi⟩ := List.getElem?_of_mem hm
      have hlt : i < vds.length := by have := (List.getElem?_eq_some_iff.mp hi).1; omega
      have hvd := List.getElem?_eq_getElem hlt
      exact ⟨_, List.getElem_mem hlt, (one (List.getElem_mem hlt) (hvs i _ m hvd hi)).mp h⟩
    · rintro ⟨vd, hm, h⟩
      obtain ⟨i, hi⟩ := List.getElem?_of_mem hm
      have hlt : i < vs.length := by have := (List.getElem?_eq_some_iff.mp hi).1; omega
      have hmm := List.getElem?_eq_getElem hlt
      exact ⟨_, List.getElem_mem hlt, (one hm (hvs i vd _ hi hmm)).mpr h⟩

/-- What an opaque type takes. -/
theorem opaque_takes {E : Env} (hD : DeclsOK E) {u : Ty} (hu : u.IsOpaque) {v : Value} (hw : v.WF) :
    u.OpaqueTakes v ↔ Reads E u v.toObj := by
  have hv : HasTy E .value v.toObj := .value _ _ hw rfl
  obtain ⟨d1, d2, d3, d4⟩ := reads_dyn hv
  cases u with
  | nonzero k =>
    rw [reads_nonzero hD, Ty.OpaqueTakes]
    cases v <;> simp [Value.toObj]
  | value => simp [Ty.OpaqueTakes, reads_value]
  | structValue => rw [d1, Ty.OpaqueTakes]; cases v <;> simp [Value.toObj, Obj.kind]
  | tupleStructValue => rw [d2, Ty.OpaqueTakes]; cases v <;> simp [Value.toObj, Obj.kind]
  | tupleValue => rw [d3, Ty.OpaqueTakes]; cases v <;> simp [Value.toObj, Obj.kind]
  | enumValue => rw [d4, Ty.OpaqueTakes]; cases v <;> simp [Value.toObj, Obj.kind, Value.variant]
  | _ => exact hu.elim

/-- Renaming ids changes nothing. -/
theorem takes_rename {r : Ty → Ty} {R R' : Ty → Value → Prop} {op op' : Value → Prop} {v : Value} {n : TypeNode}
    (hR : ∀ j ∈ n.ids, ∀ w, R' (r j) w ↔ R j w) (ho : n = .opaque → (op' v ↔ op v)) :
    (n.rename r).Takes R' op' v ↔ n.Takes R op v := by
  have named : ∀ {names} {fields : List (String × Ty)}, (∀ j ∈ fields.map (fun p : String × Ty => p.2), ∀ w, R' (r j) w ↔ R j w) →
      (TakesNamed R' v names (fields.map fun p => (p.1, r p.2)) ↔ TakesNamed R v names fields) := by
    intro names fields hR
    rw [TakesNamed, TakesNamed, namedTypes_rename]
    constructor
    · intro h p hp
      obtain ⟨j, w, h1, h2, h3⟩ := h _ (List.mem_map_of_mem hp)
      obtain ⟨j', hj, rfl⟩ := Option.map_eq_some_iff.mp h1
      exact ⟨j', w, hj, h2, (hR j' (takes_ids hp hj) w).mp h3⟩
    · intro h q hq
      obtain ⟨p, hp, rfl⟩ := List.mem_map.mp hq
      obtain ⟨j, w, h1, h2, h3⟩ := h p hp
      exact ⟨r j, w, by simp [h1], h2, (hR j (takes_ids hp h1) w).mpr h3⟩
  have nth : ∀ {fields : List Ty}, (∀ j ∈ fields, ∀ w, R' (r j) w ↔ R j w) →
      (TakesNth R' v (fields.map r) ↔ TakesNth R v fields) := by
    intro fields hR
    constructor
    · intro h i j hj
      obtain ⟨w, h1, h2⟩ := h i (r j) (by rw [List.getElem?_map, hj]; rfl)
      exact ⟨w, h1, (hR j (List.mem_of_getElem? hj) w).mp h2⟩
    · intro h i j hj
      rw [List.getElem?_map, Option.map_eq_some_iff] at hj
      obtain ⟨t, ht, rfl⟩ := hj
      obtain ⟨w, h1, h2⟩ := h i t ht
      exact ⟨w, h1, (hR t (List.mem_of_getElem? ht) w).mpr h2⟩
  cases n with
  | struct names fields => exact and_congr Iff.rfl (named hR)
  | tupleStruct fields => exact and_congr Iff.rfl (nth hR)
  | tuple fields => exact and_congr Iff.rfl (nth hR)
  | enum vs =>
    have one : ∀ m ∈ vs, ((m.rename r).Takes R' v ↔ m.Takes R v) := by
      intro m hm
      have hids : ∀ j ∈ m.ids, ∀ w, R' (r j) w ↔ R j w := fun j hj =>
        hR j (List.mem_flatMap.mpr ⟨m, hm, hj⟩)
      cases m with
      | struct _ names fields => exact and_congr Iff.rfl (named hids)
      | tuple _ fields => exact and_congr Iff.rfl (nth hids)
      | unit _ => exact Iff.rfl
    simp only [TypeNode.rename, TypeNode.Takes, List.mem_map]
    constructor
    · rintro ⟨_, ⟨m, hm, rfl⟩, h⟩; exact ⟨m, hm, (one m hm).mp h⟩
    · rintro ⟨m, hm, h⟩; exact ⟨_, ⟨m, hm, rfl⟩, (one m hm).mpr h⟩
  | list j =>
    simp only [TypeNode.rename, TypeNode.Takes, hR j (by simp [TypeNode.ids])]
  | array j len =>
    simp only [TypeNode.rename, TypeNode.Takes, hR j (by simp [TypeNode.ids])]
  | map k j =>
    simp only [TypeNode.rename, TypeNode.Takes, hR j (by simp [TypeNode.ids]), hR k (by simp [TypeNode.ids])]
  | scalar k => exact Iff.rfl
  | «opaque» => exact ho rfl

theorem suits_rename {r : Ty → Ty} {P : Ty → Prop} {g g' : TypeGraph} (h : Renames r P g g')
    {op op' : Ty → Value → Prop}
    (ho : ∀ i, P i → g.node i = some .opaque → ∀ w, op' (r i) w ↔ op i w) :
    ∀ (v : Value) (i : Ty), P i → (Suits g' op' (r i) v ↔ Suits g op i v) := by
  intro v
  generalize hs : sizeOf v = k
  induction k using Nat.strong_induction_on generalizing v with
  | _ k ih =>
    intro i hi
    have IH : ∀ (n : TypeNode), g.node i = some n → ∀ j ∈ n.ids, ∀ w : Value, sizeOf w < sizeOf v →
        (Suits g' op' (r j) w ↔ Suits g op j w) := fun n hn j hj w hw =>
      ih (sizeOf w) (by omega) w rfl j (h.closed i n hi hn j hj)
    -- restrict both relations to the smaller values
    have step : ∀ n, g.node i = some n →
        ((n.rename r).Takes (fun j w => sizeOf w < sizeOf v ∧ Suits g' op' j w) (op' (r i)) v ↔
          n.Takes (fun j w => sizeOf w < sizeOf v ∧ Suits g op j w) (op i) v) := fun n hn =>
      takes_rename (fun j hj w => and_congr_right fun hw => IH n hn j hj w hw)
        fun he => ho i hi (he ▸ hn) v
    constructor
    · intro hf
      obtain ⟨m, hm, ht⟩ := hf.cases
      rw [h.node i hi] at hm
      obtain ⟨n, hn, rfl⟩ := Option.map_eq_some_iff.mp hm
      refine .intro hn (((step n hn).mp (ht.mono (fun j _ w hw _ hf => ⟨hw, hf⟩) fun _ h => h)).mono
        (fun j _ w _ _ hf => hf.2) fun _ h => h)
    · intro hf
      obtain ⟨n, hn, ht⟩ := hf.cases
      refine .intro (by rw [h.node i hi, hn]; rfl)
        (((step n hn).mpr (ht.mono (fun j _ w hw _ hf => ⟨hw, hf⟩) fun _ h => h)).mono
        (fun j _ w _ _ hf => hf.2) fun _ h => h)

end Mirror
