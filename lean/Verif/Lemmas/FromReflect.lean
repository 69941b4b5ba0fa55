import Verif.Lemmas.Typing

set_option linter.unusedSimpArgs false

/-!
# Unfolding equations for `fromReflect`
-/

namespace Mirror

/-- The per-field conversion of derived types. -/
def convField (E : Env) (c : Bool) (t : Ty) (v : Obj) : Option Obj :=
  if !c && v.isTy t then some v else fromReflect E t v

/-- Conversion of a declared named field from its source. -/
def convNamed (E : Env) (c : Bool) (o : Obj) (fd : FieldDef) : Option (String × Obj) :=
  if fd.skip then some (fd.name, Obj.hidden 0)
  else (o.field fd.name).bind fun v => (convField E c fd.ty v).map fun y => (fd.name, y)

/-- Conversion of a declared positional field from its source. -/
def convPos (E : Env) (c : Bool) (o : Obj) (i : Nat) (fd : FieldDef) : Option Obj :=
  if fd.skip then some (Obj.hidden 0) else (o.fieldAt i).bind fun v => convField E c fd.ty v

/-- Closes the goal "the model's per-field function is the abbreviation". -/
macro "conv_tac" : tactic => `(tactic|
  (simp only [convNamed, convPos, convField]
   repeat' split
   all_goals first | (simp_all; done) | (simp_all; split <;> simp_all)))

theorem fromReflect_scalar (E : Env) (k : ScalarKind) (o : Obj) :
    fromReflect E (.scalar k) o = if o.isTy (.scalar k) then some o else none := by
  rw [fromReflect]

theorem fromReflect_nonzero (E : Env) (k : IntKind) (o : Obj) :
    fromReflect E (.nonzero k) o =
      if o.isTy (.nonzero k) then some o
      else
        match o with
        | .scalar (.int k' n) => if k' = k ∧ n ≠ 0 then some (.nonzero k n) else none
        | _ => none := by
  cases o with
  | scalar s => cases s <;> simp [fromReflect]
  | _ => simp [fromReflect]

theorem fromReflect_struct {E : Env} {n : String} {fds : List FieldDef} {c : Bool}
    (hd : E.decl n = some ⟨.struct fds, c⟩) (o : Obj) :
    fromReflect E (.named n) o =
      if o.kind = .struct then
        (optAll (fds.map (convNamed E c o))).map (Obj.struct (.derived n))
      else none := by
  rw [fromReflect, hd]
  dsimp only
  split
  · congr 2
    apply List.map_congr_left
    intro fd _
    conv_tac
  · rfl

theorem fromReflect_tupleStruct {E : Env} {n : String} {fds : List FieldDef} {c : Bool}
    (hd : E.decl n = some ⟨.tupleStruct fds, c⟩) (o : Obj) :
    fromReflect E (.named n) o =
      if o.kind = .tupleStruct then
        (optAll (fds.mapIdx (convPos E c o))).map (Obj.tupleStruct (.derived n))
      else none := by
  rw [fromReflect, hd]
  dsimp only
  split
  · congr 2
    congr 1
    funext i fd
    conv_tac
  · rfl

theorem fromReflect_enum {E : Env} {n : String} {vds : List VariantDef} {c : Bool}
    (hd : E.decl n = some ⟨.enum vds, c⟩) (o : Obj) :
    fromReflect E (.named n) o =
      o.variantName.bind fun vn =>
        (vds.find? fun vd => vd.name = vn).bind fun vd =>
          match vd with
          | .struct vn fds =>
            (optAll (fds.map (convNamed E c o))).map (Obj.enumS (.derived n) vn)
          | .tuple vn fds =>
            (optAll (fds.mapIdx (convPos E c o))).map (Obj.enumT (.derived n) vn)
          | .unit vn => some (.enumU (.derived n) vn) := by
  rw [fromReflect, hd]
  dsimp only
  split
  · next h => rw [h]; rfl
  · next vn h =>
    rw [h]; simp only [Option.bind_some]
    split
    · next h => rw [h]; rfl
    · next h =>
      rw [h]; simp only [Option.bind_some]
      congr 2
      apply List.map_congr_left
      intro fd _
      conv_tac
    · next h =>
      rw [h]; simp only [Option.bind_some]
      congr 2
      congr 1
      funext i fd
      conv_tac
    · next h => rw [h]; rfl

theorem fromReflect_nodecl {E : Env} {n : String} (hd : E.decl n = none) (o : Obj) :
    fromReflect E (.named n) o = none := by
  rw [fromReflect, hd]

theorem fromReflect_tuple (E : Env) (ts : List Ty) (o : Obj) :
    fromReflect E (.tuple ts) o =
      if o.kind = .tuple then
        (optAll (ts.mapIdx fun i t => (o.fieldAt i).bind fun v => fromReflect E t v)).map
          (Obj.tuple (.typed ts))
      else none := by
  rw [fromReflect]
  split
  · congr 2
    congr 1
    funext i t
    split <;> simp_all
  · rfl

theorem fromReflect_vec (E : Env) (t u : Ty) (xs : List Obj) :
    fromReflect E (.vec t) (.vec u xs) =
      (optAll (xs.map fun x => fromReflect E t x)).map (Obj.vec t) := by
  rw [fromReflect]

theorem fromReflect_array (E : Env) (t u : Ty) (n : Nat) (xs : List Obj) :
    fromReflect E (.array t n) (.vec u xs) =
      (optAll (xs.map fun x => fromReflect E t x)).bind fun ys =>
        if ys.length = n then some (.array t ys) else none := by
  rw [fromReflect]
  split <;> (rename_i h; rw [h]; rfl)

theorem fromReflect_map (E : Env) (kt vt u w : Ty) (kvs : List (Obj × Obj)) :
    fromReflect E (.map kt vt) (.map u w kvs) =
      (optAll (kvs.map fun p => (fromReflect E kt p.1).bind fun k =>
        (fromReflect E vt p.2).map fun v => (k, v))).map
          fun l => Obj.map kt vt (bmOfList (E.kcmp kt) l) := by
  rw [fromReflect]
  congr 2
  apply List.map_congr_left
  intro p _
  cases fromReflect E kt p.1 <;> cases fromReflect E vt p.2 <;> rfl

theorem fromReflect_box (E : Env) (t : Ty) (o : Obj) :
    fromReflect E (.box t) o = fromReflect E t o := by
  rw [fromReflect]

theorem fromReflect_value (E : Env) (o : Obj) :
    fromReflect E .value o = some o.toValue.toObj := by
  rw [fromReflect]

theorem optAll_eq_some {α} {l : List (Option α)} {r : List α} :
    optAll l = some r ↔ l = r.map some := by
  induction l generalizing r with
  | nil => simp [optAll]
  | cons x l ih =>
    cases x with
    | none => simp only [optAll]; constructor
              · intro h; cases h
              · intro h; cases r <;> simp at h
    | some x =>
      simp only [optAll, Option.map_eq_some_iff]
      constructor
      · rintro ⟨a, ha, rfl⟩; simp [ih.mp ha]
      · intro h
        cases r with
        | nil => simp at h
        | cons y r => simp at h; exact ⟨r, ih.mpr h.2, by simp [h.1]⟩

theorem optAll_map_some {α β} {f : α → Option β} {g : α → β} {l : List α}
    (h : ∀ x ∈ l, f x = some (g x)) : optAll (l.map f) = some (l.map g) := by
  rw [optAll_eq_some, List.map_map]
  exact List.map_congr_left (by simpa using h)

end Mirror
