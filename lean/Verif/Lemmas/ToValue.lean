import Verif.Lemmas.FromReflect
import Verif.Spec.Parts

set_option linter.unusedSimpArgs false

/-!
# Lemmas about `toValue` and `reset`
-/

namespace Mirror

/-- Induction on the size of an object. -/
theorem Obj.ind {P : Obj → Prop} (h : ∀ o, (∀ o', sizeOf o' < sizeOf o → P o') → P o) (o : Obj) :
    P o := by
  generalize hn : sizeOf o = n
  induction n using Nat.strongRecOn generalizing o with
  | _ n ih => exact h o fun o' ho' => ih _ (hn ▸ ho') o' rfl

theorem visList_eq (fs : List (String × Obj)) :
    ((fs.map fun p => (p.1, p.2.isHidden, p.2.toValue)).filterMap
      fun q => if q.2.1 then none else some (q.1, q.2.2)) =
    (visFields fs).map fun p => (p.1, p.2.toValue) := by
  induction fs with
  | nil => rfl
  | cons p r ih =>
    simp only [List.map_cons, List.filterMap_cons, visFields, List.filter_cons]
    cases h : p.2.isHidden <;> simp [ih, visFields]

theorem visPosList_eq (fs : List Obj) :
    ((fs.map fun x => (x.isHidden, x.toValue)).filterMap
      fun q => if q.1 then none else some q.2) = (visPos fs).map fun x => x.toValue := by
  induction fs with
  | nil => rfl
  | cons p r ih =>
    simp only [List.map_cons, List.filterMap_cons, visPos, List.filter_cons]
    cases h : p.isHidden <;> simp [ih, visPos]

theorem toValue_struct (n : String) (fs : List (String × Obj)) :
    (Obj.struct (.derived n) fs).toValue =
      .struct ((visFields fs).map (·.1))
        (bmOfList strCmp ((visFields fs).map fun p => (p.1, p.2.toValue))) := by
  rw [Obj.toValue, visList_eq, svOfList_eq, svFinish, List.map_map]; rfl

theorem toValue_enumS (n v : String) (fs : List (String × Obj)) :
    (Obj.enumS (.derived n) v fs).toValue =
      .enumS v ((visFields fs).map (·.1))
        (bmOfList strCmp ((visFields fs).map fun p => (p.1, p.2.toValue))) := by
  rw [Obj.toValue, visList_eq, svOfList_eq, List.map_map]; rfl

theorem toValue_tupleStruct (t : TSTag) (fs : List Obj) :
    (Obj.tupleStruct t fs).toValue = .tupleStruct ((visPos fs).map fun x => x.toValue) := by
  rw [Obj.toValue, visPosList_eq]

theorem toValue_enumT (t : TSTag) (v : String) (fs : List Obj) :
    (Obj.enumT t v fs).toValue = .enumT v ((visPos fs).map fun x => x.toValue) := by
  rw [Obj.toValue, visPosList_eq]

@[simp] theorem isHidden_reset (o : Obj) : o.reset.isHidden = o.isHidden := by
  cases o <;> simp [Obj.reset, Obj.isHidden]

theorem visFields_reset (fs : List (String × Obj)) :
    visFields (fs.map fun p => (p.1, p.2.reset)) =
      (visFields fs).map fun p => (p.1, p.2.reset) := by
  simp only [visFields, List.filter_map, Function.comp_def, isHidden_reset]

theorem visPos_reset (fs : List Obj) :
    visPos (fs.map fun x => x.reset) = (visPos fs).map fun x => x.reset := by
  simp only [visPos, List.filter_map, Function.comp_def, isHidden_reset]

theorem visFields_sub {fs : List (String × Obj)} {p : String × Obj} (h : p ∈ visFields fs) :
    p ∈ fs := (List.mem_filter.mp h).1

theorem visPos_sub {fs : List Obj} {x : Obj} (h : x ∈ visPos fs) : x ∈ fs :=
  (List.mem_filter.mp h).1

/-- Resetting skipped fields is invisible to `to_value`. -/
theorem toValue_reset (o : Obj) : o.reset.toValue = o.toValue := by
  induction o using Obj.ind with
  | _ o ih =>
  cases o with
  | scalar s => simp [Obj.reset]
  | nonzero k n => simp [Obj.reset]
  | hidden d => simp [Obj.reset, Obj.toValue]
  | enumU t v => simp [Obj.reset]
  | struct tag fs =>
    cases tag with
    | derived n =>
      have : ∀ p ∈ visFields fs, p.2.reset.toValue = p.2.toValue := fun p hp =>
        ih _ (by have := sizeOf_snd_lt_of_mem (visFields_sub hp); simp; omega)
      simp only [Obj.reset, toValue_struct, visFields_reset, List.map_map, Function.comp_def]
      rw [List.map_congr_left (g := fun p : String × Obj => (p.1, p.2.toValue))]
      intro p hp; rw [this p hp]
    | dyn ns =>
      simp only [Obj.reset, Obj.toValue, List.map_map, Function.comp_def]
      rw [List.map_congr_left (g := fun p : String × Obj => (p.1, p.2.toValue))]
      intro p hp
      rw [ih _ (by have := sizeOf_snd_lt_of_mem hp; simp; omega)]
  | enumS tag v fs =>
    cases tag with
    | derived n =>
      have : ∀ p ∈ visFields fs, p.2.reset.toValue = p.2.toValue := fun p hp =>
        ih _ (by have := sizeOf_snd_lt_of_mem (visFields_sub hp); simp; omega)
      simp only [Obj.reset, toValue_enumS, visFields_reset, List.map_map, Function.comp_def]
      rw [List.map_congr_left (g := fun p : String × Obj => (p.1, p.2.toValue))]
      intro p hp; rw [this p hp]
    | dyn ns =>
      simp only [Obj.reset, Obj.toValue, List.map_map, Function.comp_def]
      rw [List.map_congr_left (g := fun p : String × Obj => (p.1, p.2.toValue))]
      intro p hp
      rw [ih _ (by have := sizeOf_snd_lt_of_mem hp; simp; omega)]
  | tupleStruct tag fs =>
    simp only [Obj.reset, toValue_tupleStruct, visPos_reset, List.map_map, Function.comp_def]
    rw [List.map_congr_left]
    intro x hx
    exact ih _ (by have := List.sizeOf_lt_of_mem (visPos_sub hx); simp; omega)
  | enumT tag v fs =>
    simp only [Obj.reset, toValue_enumT, visPos_reset, List.map_map, Function.comp_def]
    rw [List.map_congr_left]
    intro x hx
    exact ih _ (by have := List.sizeOf_lt_of_mem (visPos_sub hx); simp; omega)
  | tuple tag fs =>
    simp only [Obj.reset, Obj.toValue, List.map_map, Function.comp_def]
    rw [List.map_congr_left]
    intro x hx
    exact ih _ (by have := List.sizeOf_lt_of_mem hx; simp; omega)
  | vec tag fs =>
    simp only [Obj.reset, Obj.toValue, List.map_map, Function.comp_def]
    rw [List.map_congr_left]
    intro x hx
    exact ih _ (by have := List.sizeOf_lt_of_mem hx; simp; omega)
  | array tag fs =>
    simp only [Obj.reset, Obj.toValue, List.map_map, Function.comp_def]
    rw [List.map_congr_left]
    intro x hx
    exact ih _ (by have := List.sizeOf_lt_of_mem hx; simp; omega)
  | map kt vt kvs =>
    simp only [Obj.reset, Obj.toValue, List.map_map, Function.comp_def]
    rw [List.map_congr_left (g := fun p : Obj × Obj => (p.1.toValue, p.2.toValue))]
    intro p hp
    rw [ih p.1 (by have := sizeOf_fst_lt_of_mem hp; simp; omega),
      ih p.2 (by have := sizeOf_snd_lt_of_mem hp; simp; omega)]

/-- Dynamic values have no skipped fields. -/
theorem toObj_reset (v : Value) : v.toObj.reset = v.toObj := by
  generalize hn : sizeOf v = n
  induction n using Nat.strongRecOn generalizing v with
  | _ n ih =>
  subst hn
  cases v with
  | scalar s => simp [Value.toObj, Obj.reset]
  | enumU s => simp [Value.toObj, Obj.reset]
  | struct ns fs =>
    simp only [Value.toObj, Obj.reset, List.map_map, Function.comp_def]
    congr 1
    apply List.map_congr_left
    intro p hp
    rw [ih _ (by have := sizeOf_snd_lt_of_mem hp; simp; omega) _ rfl]
  | enumS v ns fs =>
    simp only [Value.toObj, Obj.reset, List.map_map, Function.comp_def]
    congr 1
    apply List.map_congr_left
    intro p hp
    rw [ih _ (by have := sizeOf_snd_lt_of_mem hp; simp; omega) _ rfl]
  | enumT v fs =>
    simp only [Value.toObj, Obj.reset, List.map_map, Function.comp_def]
    congr 1
    apply List.map_congr_left
    intro p hp
    rw [ih _ (by have := List.sizeOf_lt_of_mem hp; simp; omega) _ rfl]
  | tupleStruct fs =>
    simp only [Value.toObj, Obj.reset, List.map_map, Function.comp_def]
    congr 1
    apply List.map_congr_left
    intro p hp
    rw [ih _ (by have := List.sizeOf_lt_of_mem hp; simp; omega) _ rfl]
  | tuple fs =>
    simp only [Value.toObj, Obj.reset, List.map_map, Function.comp_def]
    congr 1
    apply List.map_congr_left
    intro p hp
    rw [ih _ (by have := List.sizeOf_lt_of_mem hp; simp; omega) _ rfl]
  | list fs =>
    simp only [Value.toObj, Obj.reset, List.map_map, Function.comp_def]
    congr 1
    apply List.map_congr_left
    intro p hp
    rw [ih _ (by have := List.sizeOf_lt_of_mem hp; simp; omega) _ rfl]
  | map kvs =>
    simp only [Value.toObj, Obj.reset, List.map_map, Function.comp_def]
    congr 1
    apply List.map_congr_left
    intro p hp
    rw [ih _ (by have := sizeOf_fst_lt_of_mem hp; simp; omega) p.1 rfl,
      ih _ (by have := sizeOf_snd_lt_of_mem hp; simp; omega) p.2 rfl]

theorem mem_keys_bmInsert {α} {k n : String} {v : α} {l : List (String × α)} :
    k ∈ (bmInsert strCmp n v l).map (·.1) ↔ k = n ∨ k ∈ l.map (·.1) := by
  induction l with
  | nil => simp [bmInsert]
  | cons p r ih =>
    obtain ⟨m, w⟩ := p
    simp only [bmInsert]
    split
    · simp
    · next h =>
      have := (strCmp_eq_iff _ _).mp h
      simp [this]
    · simp only [List.map_cons, List.mem_cons, ih]
      constructor
      · rintro (h | h | h) <;> simp [h]
      · rintro (h | h | h) <;> simp [h]

theorem mem_keys_bmOfList {α} {k : String} {l : List (String × α)} :
    k ∈ (bmOfList strCmp l).map (·.1) ↔ k ∈ l.map (·.1) := by
  suffices h : ∀ m, k ∈ (l.foldl (fun m p => bmInsert strCmp p.1 p.2 m) m).map (·.1) ↔
      k ∈ l.map (·.1) ∨ k ∈ m.map (·.1) by simpa [bmOfList] using h []
  induction l with
  | nil => simp
  | cons p r ih =>
    intro m
    rw [List.foldl_cons, ih, mem_keys_bmInsert]
    simp only [List.map_cons, List.mem_cons]
    constructor
    · rintro (h | h | h) <;> simp [h]
    · rintro ((h | h) | h) <;> simp [h]

theorem svWF {l : List (String × Value)} (h : ∀ p ∈ l, p.2.WF) :
    (Value.struct (l.map (·.1)) (bmOfList strCmp l)).WF :=
  .struct _ _ (fun _ => mem_keys_bmOfList.symm) (bmOfList_sorted strCmpOn (by simp))
    (bmOfList_vals h)

theorem evWF {v : String} {l : List (String × Value)} (h : ∀ p ∈ l, p.2.WF) :
    (Value.enumS v (l.map (·.1)) (bmOfList strCmp l)).WF :=
  .enumS _ _ _ (fun _ => mem_keys_bmOfList.symm) (bmOfList_sorted strCmpOn (by simp))
    (bmOfList_vals h)

/-! ## Aligning fields with their declarations -/

theorem align_named {fds : List FieldDef} {fs : List (String × Obj)}
    (h : fs.map (·.1) = fds.map (·.name)) {i : Nat} {p : String × Obj} (hp : fs[i]? = some p) :
    ∃ fd, fds[i]? = some fd ∧ fd.name = p.1 := by
  have := congrArg (·[i]?) h
  simp [hp] at this
  cases hf : fds[i]? with
  | none => simp [hf] at this
  | some fd => simp [hf] at this; exact ⟨fd, rfl, this.symm⟩

theorem align_named' {fds : List FieldDef} {fs : List (String × Obj)}
    (h : fs.map (·.1) = fds.map (·.name)) {i : Nat} {fd : FieldDef} (hp : fds[i]? = some fd) :
    ∃ p, fs[i]? = some p ∧ fd.name = p.1 := by
  have := congrArg (·[i]?) h
  simp [hp] at this
  obtain ⟨a, ha⟩ := this
  exact ⟨(fd.name, a), ha, rfl⟩

theorem align_pos {α β} {fds : List α} {fs : List β} (h : fs.length = fds.length) {i : Nat} {x : β}
    (hx : fs[i]? = some x) : ∃ fd, fds[i]? = some fd := by
  obtain ⟨hi, _⟩ := List.getElem?_eq_some_iff.mp hx
  exact ⟨fds[i]'(h ▸ hi), List.getElem?_eq_getElem _⟩

theorem vis_named {P : Obj → Prop} {fds : List FieldDef} {fs : List (String × Obj)}
    (h : fs.map (·.1) = fds.map (·.name))
    (h3 : ∀ (i : Nat) fd p, fds[i]? = some fd → fs[i]? = some p → fd.skip = true →
      p.2.isHidden = true)
    (h4 : ∀ (i : Nat) fd p, fds[i]? = some fd → fs[i]? = some p → fd.skip = false → P p.2)
    {p : String × Obj} (hp : p ∈ visFields fs) : P p.2 := by
  obtain ⟨hm, hv⟩ := List.mem_filter.mp hp
  obtain ⟨i, hi⟩ := List.getElem?_of_mem hm
  obtain ⟨fd, hfd, _⟩ := align_named h hi
  cases hs : fd.skip with
  | true => simp [h3 i fd p hfd hi hs] at hv
  | false => exact h4 i fd p hfd hi hs

theorem vis_pos {P : Obj → Prop} {fds : List FieldDef} {fs : List Obj}
    (h : fs.length = fds.length)
    (h3 : ∀ (i : Nat) fd x, fds[i]? = some fd → fs[i]? = some x → fd.skip = true →
      x.isHidden = true)
    (h4 : ∀ (i : Nat) fd x, fds[i]? = some fd → fs[i]? = some x → fd.skip = false → P x)
    {x : Obj} (hp : x ∈ visPos fs) : P x := by
  obtain ⟨hm, hv⟩ := List.mem_filter.mp hp
  obtain ⟨i, hi⟩ := List.getElem?_of_mem hm
  obtain ⟨fd, hfd⟩ := align_pos h hi
  cases hs : fd.skip with
  | true => simp [h3 i fd x hfd hi hs] at hv
  | false => exact h4 i fd x hfd hi hs

/-- `to_value` of a proper value is a proper `Value`. -/
theorem HasTy.toValue_wf {E : Env} {t : Ty} {o : Obj} (h : HasTy E t o) : o.toValue.WF := by
  induction h with
  | scalar s => rw [Obj.toValue]; exact .scalar _
  | nonzero k n _ => rw [Obj.toValue]; exact .scalar _
  | struct n fds c fs hd h2 h3 _ ih =>
    rw [toValue_struct]
    have := svWF (l := (visFields fs).map fun p => (p.1, p.2.toValue)) (by
      intro p hp
      obtain ⟨q, hq, rfl⟩ := List.mem_map.mp hp
      exact vis_named (P := fun x => x.toValue.WF) h2 h3 ih hq)
    rwa [List.map_map] at this
  | enumS n vds c vn fds fs hd hv h2 h3 _ ih =>
    rw [toValue_enumS]
    have := evWF (v := vn) (l := (visFields fs).map fun p => (p.1, p.2.toValue)) (by
      intro p hp
      obtain ⟨q, hq, rfl⟩ := List.mem_map.mp hp
      exact vis_named (P := fun x => x.toValue.WF) h2 h3 ih hq)
    rwa [List.map_map] at this
  | tupleStruct n fds c fs hd h2 h3 _ ih =>
    rw [toValue_tupleStruct]
    refine .tupleStruct _ ?_
    intro v hv
    obtain ⟨q, hq, rfl⟩ := List.mem_map.mp hv
    exact vis_pos (P := fun x => x.toValue.WF) h2 h3 ih hq
  | enumT n vds c vn fds fs hd hv h2 h3 _ ih =>
    rw [toValue_enumT]
    refine .enumT _ _ ?_
    intro v hv
    obtain ⟨q, hq, rfl⟩ := List.mem_map.mp hv
    exact vis_pos (P := fun x => x.toValue.WF) h2 h3 ih hq
  | enumU n vds c vn _ _ => rw [Obj.toValue]; exact .enumU _
  | tuple ts fs hl _ ih =>
    rw [Obj.toValue]
    refine .tuple _ ?_
    intro v hv
    obtain ⟨q, hq, rfl⟩ := List.mem_map.mp hv
    obtain ⟨i, hi⟩ := List.getElem?_of_mem hq
    obtain ⟨t, ht⟩ := align_pos hl hi
    exact ih i t q ht hi
  | vec t xs _ ih =>
    rw [Obj.toValue]
    refine .list _ ?_
    intro v hv
    obtain ⟨q, hq, rfl⟩ := List.mem_map.mp hv
    exact ih q hq
  | array t xs _ ih =>
    rw [Obj.toValue]
    refine .list _ ?_
    intro v hv
    obtain ⟨q, hq, rfl⟩ := List.mem_map.mp hv
    exact ih q hq
  | map kt vt kvs _ _ _ ihk ihv =>
    rw [Obj.toValue]
    refine .map _ (bmCollect_sorted valueCmpOn (by simp)) ?_ ?_
    · intro p hp
      obtain ⟨q, hq, rfl⟩ := List.mem_map.mp (bmCollect_mem hp)
      exact ihk q hq
    · intro p hp
      obtain ⟨q, hq, rfl⟩ := List.mem_map.mp (bmCollect_mem hp)
      exact ihv q hq
  | box t o _ ih => exact ih
  | value v o h ho => subst ho; rwa [Value.toObj_toValue h]
  | structValue ns fs o h ho => subst ho; rwa [Value.toObj_toValue h]
  | tupleStructValue fs o h ho => subst ho; rwa [Value.toObj_toValue h]
  | tupleValue fs o h ho => subst ho; rwa [Value.toObj_toValue h]
  | enumValueS v ns fs o h ho => subst ho; rwa [Value.toObj_toValue h]
  | enumValueT v fs o h ho => subst ho; rwa [Value.toObj_toValue h]
  | enumValueU v o ho => subst ho; rw [Value.toObj_toValue (.enumU v)]; exact .enumU v

end Mirror
