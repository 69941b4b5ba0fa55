import Verif.Lemmas.BTree
import Verif.Model.Reflect
import Verif.Spec.Typing

set_option linter.unusedSimpArgs false

/-!
# Lemmas about proper values
-/

namespace Mirror

theorem Value.toObj_not_hidden (v : Value) : v.toObj.isHidden = false := by
  cases v <;> simp [Value.toObj, Obj.isHidden]

theorem HasTy.not_hidden {E : Env} {t : Ty} {o : Obj} (h : HasTy E t o) : o.isHidden = false := by
  induction h <;> first | rfl | assumption | (subst_vars; apply Value.toObj_not_hidden)

/-- Dropping nothing. -/
theorem filterMap_vis_eq {α} (fs : List α) (hid : α → Bool) (f : α → Value)
    (h : ∀ x ∈ fs, hid x = false) :
    (fs.map fun x => (hid x, f x)).filterMap (fun q => if q.1 then none else some q.2) =
      fs.map f := by
  induction fs with
  | nil => rfl
  | cons x r ih =>
    have h1 := h x (by simp)
    have h2 := ih fun y hy => h y (by simp [hy])
    simp only [List.map_cons, List.filterMap_cons, h1]
    simp only [Bool.false_eq_true, if_false, h2]

theorem map_id_of_mem {α} {f : α → α} {l : List α} (h : ∀ x ∈ l, f x = x) : l.map f = l := by
  conv => rhs; rw [← List.map_id l]
  exact List.map_congr_left h

/-- Reading a well-formed `Value` back through reflection. -/
theorem Value.toObj_toValue {v : Value} (h : v.WF) : v.toObj.toValue = v := by
  induction h with
  | scalar s => simp [Value.toObj, Obj.toValue]
  | struct ns fs _ _ _ ih =>
    simp only [Value.toObj, Obj.toValue, List.map_map]
    rw [map_id_of_mem]; rintro ⟨n, x⟩ hp; simp [ih _ hp]
  | enumS v ns fs _ _ _ ih =>
    simp only [Value.toObj, Obj.toValue, List.map_map]
    rw [map_id_of_mem]; rintro ⟨n, x⟩ hp; simp [ih _ hp]
  | enumT v fs _ ih =>
    simp only [Value.toObj, Obj.toValue]
    rw [filterMap_vis_eq _ _ _ (by intro x hx; obtain ⟨y, _, rfl⟩ := List.mem_map.mp hx; exact y.toObj_not_hidden),
      List.map_map, map_id_of_mem]
    intro x hp; simp [ih _ hp]
  | enumU v => simp [Value.toObj, Obj.toValue]
  | tupleStruct fs _ ih =>
    simp only [Value.toObj, Obj.toValue]
    rw [filterMap_vis_eq _ _ _ (by intro x hx; obtain ⟨y, _, rfl⟩ := List.mem_map.mp hx; exact y.toObj_not_hidden),
      List.map_map, map_id_of_mem]
    intro x hp; simp [ih _ hp]
  | tuple fs _ ih =>
    simp only [Value.toObj, Obj.toValue, List.map_map]
    rw [map_id_of_mem]; intro x hp; simp [ih _ hp]
  | list fs _ ih =>
    simp only [Value.toObj, Obj.toValue, List.map_map]
    rw [map_id_of_mem]; intro x hp; simp [ih _ hp]
  | map kvs hs _ _ ihk ihv =>
    simp only [Value.toObj, Obj.toValue, List.map_map]
    rw [map_id_of_mem (l := kvs) (by rintro ⟨k, v⟩ hp; simp [ihk _ hp, ihv _ hp]),
      bmCollect_self valueCmpOn (by simp) hs]

theorem valueMap_hasTy {E : Env} (hO : OrdLaws E) {kvs : List (Value × Value)}
    (hs : BMSorted Value.cmp kvs) (hk : ∀ p ∈ kvs, p.1.WF) (hv : ∀ p ∈ kvs, p.2.WF) :
    HasTy E (.map .value .value) (Value.map kvs).toObj := by
  simp only [Value.toObj]
  refine .map _ _ _ ?_ ?_ ?_
  · simp only [BMSorted, List.pairwise_map]
    refine List.Pairwise.imp_of_mem ?_ hs
    intro p q hp hq h
    rw [hO.value _ _ (hk p hp) (hk q hq)]; exact h
  · intro p hp
    obtain ⟨q, hq, rfl⟩ := List.mem_map.mp hp
    exact .value _ _ (hk q hq) rfl
  · intro p hp
    obtain ⟨q, hq, rfl⟩ := List.mem_map.mp hp
    exact .value _ _ (hv q hq) rfl

/-- A value downcasts to the type it has, and has the type it downcasts to. -/
theorem HasTy.typeOf {E : Env} (hO : OrdLaws E) {t : Ty} {o : Obj} (h : HasTy E t o) :
    ∃ u, o.typeOf = some u ∧ HasTy E u o := by
  induction h with
  | box t o _ ih => exact ih
  | value v o hv ho =>
    subst ho
    cases v with
    | scalar s =>
      simp only [Value.toObj]
      exact ⟨_, rfl, .scalar s⟩
    | struct ns fs => exact ⟨.structValue, by simp [Value.toObj, Obj.typeOf], .structValue _ _ _ hv rfl⟩
    | enumS v ns fs => exact ⟨.enumValue, by simp [Value.toObj, Obj.typeOf], .enumValueS _ _ _ _ hv rfl⟩
    | enumT v fs => exact ⟨.enumValue, by simp [Value.toObj, Obj.typeOf], .enumValueT _ _ _ hv rfl⟩
    | enumU v => exact ⟨.enumValue, by simp [Value.toObj, Obj.typeOf], .enumValueU _ _ rfl⟩
    | tupleStruct fs => exact ⟨.tupleStructValue, by simp [Value.toObj, Obj.typeOf], .tupleStructValue _ _ hv rfl⟩
    | tuple fs => exact ⟨.tupleValue, by simp [Value.toObj, Obj.typeOf], .tupleValue _ _ hv rfl⟩
    | list xs =>
      refine ⟨.vec .value, by simp [Value.toObj, Obj.typeOf], ?_⟩
      cases hv with
      | list _ h =>
        simp only [Value.toObj]
        refine .vec _ _ ?_
        intro x hx
        obtain ⟨y, hy, rfl⟩ := List.mem_map.mp hx
        exact .value y _ (h y hy) rfl
    | map kvs =>
      cases hv with
      | map _ hs hk hv => exact ⟨.map .value .value, by simp [Value.toObj, Obj.typeOf], valueMap_hasTy hO hs hk hv⟩
  | scalar s => exact ⟨_, rfl, .scalar s⟩
  | nonzero k n h => exact ⟨_, rfl, .nonzero k n h⟩
  | struct n fds c fs h1 h2 h3 h4 => exact ⟨_, rfl, .struct n fds c fs h1 h2 h3 h4⟩
  | tupleStruct n fds c fs h1 h2 h3 h4 => exact ⟨_, rfl, .tupleStruct n fds c fs h1 h2 h3 h4⟩
  | enumS n vds c vn fds fs h1 h2 h3 h4 h5 => exact ⟨_, rfl, .enumS n vds c vn fds fs h1 h2 h3 h4 h5⟩
  | enumT n vds c vn fds fs h1 h2 h3 h4 h5 => exact ⟨_, rfl, .enumT n vds c vn fds fs h1 h2 h3 h4 h5⟩
  | enumU n vds c vn h1 h2 => exact ⟨_, rfl, .enumU n vds c vn h1 h2⟩
  | tuple ts fs h1 h2 => exact ⟨_, rfl, .tuple ts fs h1 h2⟩
  | vec t xs h => exact ⟨_, rfl, .vec t xs h⟩
  | array t xs h => exact ⟨_, rfl, .array t xs h⟩
  | map kt vt kvs h1 h2 h3 => exact ⟨_, rfl, .map kt vt kvs h1 h2 h3⟩
  | structValue ns fs o h ho => subst ho; exact ⟨_, by simp [Value.toObj, Obj.typeOf], .structValue _ _ _ h rfl⟩
  | tupleStructValue fs o h ho => subst ho; exact ⟨_, by simp [Value.toObj, Obj.typeOf], .tupleStructValue _ _ h rfl⟩
  | tupleValue fs o h ho => subst ho; exact ⟨_, by simp [Value.toObj, Obj.typeOf], .tupleValue _ _ h rfl⟩
  | enumValueS v ns fs o h ho => subst ho; exact ⟨_, by simp [Value.toObj, Obj.typeOf], .enumValueS _ _ _ _ h rfl⟩
  | enumValueT v fs o h ho => subst ho; exact ⟨_, by simp [Value.toObj, Obj.typeOf], .enumValueT _ _ _ h rfl⟩
  | enumValueU v o ho => subst ho; exact ⟨_, by simp [Value.toObj, Obj.typeOf], .enumValueU _ _ rfl⟩
end Mirror
