import Verif.Lemmas.With
import Verif.Lemmas.Demo

set_option linter.unusedSimpArgs false

/-!
# C63: `from_reflect_with` decides what a field becomes, and where it does not
-/

namespace Mirror

/-- C63: `T::from_reflect(&o)` is `Some(y)` exactly when `o` converts to `y` in the sense of the
specification, where a field with a function is what the function makes of the source's field. -/
theorem C63_from_reflect_iff (E : Env) (W : WithFns) (hD : DeclsOK E) (T : Ty) (o y : Obj) :
    fromReflectW E W T o = some y ↔ ConvertsToW E W T o y :=
  (convertsToW_iff hD).symm

/-- C63: functions that do what the field would get anyway change nothing, at any depth. -/
theorem C63_standard (E : Env) (W : WithFns) (hD : DeclsOK E) (hW : W.Standard E) (T : Ty) (o : Obj) :
    fromReflectW E W T o = fromReflect E T o :=
  fromReflectW_standard hD hW T o

/-- C63: without `from_reflect_with` attributes, `from_reflect` is the function modelled in
`Model/Reflect.lean`: everything proved there carries over. -/
theorem C63_conservative (E : Env) (hD : DeclsOK E) (T : Ty) (o : Obj) :
    fromReflectW E (fun _ _ _ => none) T o = fromReflect E T o :=
  fromReflectW_standard hD ⟨by simp, by simp, by simp, by simp⟩ T o

/-- C63: a struct field with a function holds what the function returned for the source's field of
that name, whatever its type and whether or not the type has opted out of `Clone`. -/
theorem C63_struct_field (E : Env) (W : WithFns) (hD : DeclsOK E) (hO : OrdLaws E) (hW : W.Typed E)
    (n : String) (fds : List FieldDef) (c : Bool) (hd : E.decl n = some ⟨.struct fds, c⟩)
    (i : Nat) (fd : FieldDef) (hfd : fds[i]? = some fd) (hs : fd.skip = false)
    (f : Obj → Option Obj) (hf : W n none i = some f) (o y : Obj) (ho : ∃ t, HasTy E t o)
    (h : fromReflectW E W (.named n) o = some y) :
    ∃ v z, o.field fd.name = some v ∧ f v = some z ∧ y.field fd.name = some z := by
  have hty := fromReflectW_sound hD hO hW _ o y ho h
  have hstep := (fromReflectW_step hD _ o y).mp h
  cases hstep with
  | struct n fds' c' o fs hd' hk h' =>
    rw [hd] at hd'; cases hd'
    have hl : fs.length = fds.length := by simpa using congrArg List.length h'.names
    obtain ⟨p, hp⟩ := align_pos hl.symm hfd
    obtain ⟨v, hv, hff⟩ := h'.shown i fd p hfd hp hs
    rcases hff with ⟨g, hg, hz⟩ | ⟨hnone, _⟩
    · rw [hf] at hg; cases hg
      refine ⟨v, p.2, hv, hz, ?_⟩
      have hname : p.1 = fd.name := by
        have := congrArg (·[i]?) h'.names
        simpa [hfd, hp] using this
      have hnd : (fs.map (·.1)).Nodup := by rw [h'.names]; exact hD.struct_names n fds c hd
      have hvis : p.2.isHidden = false := (hW.struct n fds c i fd f v p.2 hd hfd hf hz).not_hidden
      have hmem : p ∈ visFields fs := by
        simp only [visFields, List.mem_filter]
        exact ⟨List.mem_of_getElem? hp, by simp [hvis]⟩
      simp only [Obj.field]
      rw [← hname]
      exact (lookup_iff (visFields_nodup hnd)).mpr hmem
    · rw [hf] at hnone; cases hnone
  | tupleStruct n fds' c' o fs hd' hk h' => rw [hd] at hd'; cases hd'
  | enumS n fds' c' o fs _ _ hd' hk h' => rw [hd] at hd'; cases hd'
  | enumT n fds' c' o fs _ _ hd' hk h' => rw [hd] at hd'; cases hd'
  | enumU n fds' c' o _ hd' hk h' => rw [hd] at hd'; cases hd'
  | other _ _ _ hne _ => exact absurd rfl (hne n)

/-- C63: if the function refuses the source's field, or the source has no such field, the whole
conversion fails. -/
theorem C63_struct_refused (E : Env) (W : WithFns) (hD : DeclsOK E) (n : String)
    (fds : List FieldDef) (c : Bool) (hd : E.decl n = some ⟨.struct fds, c⟩) (i : Nat) (fd : FieldDef)
    (hfd : fds[i]? = some fd) (hs : fd.skip = false) (f : Obj → Option Obj)
    (hf : W n none i = some f) (o : Obj) (h : (o.field fd.name).bind f = none) :
    fromReflectW E W (.named n) o = none := by
  cases hr : fromReflectW E W (.named n) o with
  | none => rfl
  | some y =>
    have hstep := (fromReflectW_step hD _ o y).mp hr
    cases hstep with
    | struct n fds' c' o fs hd' hk h' =>
      rw [hd] at hd'; cases hd'
      have hl : fs.length = fds.length := by simpa using congrArg List.length h'.names
      obtain ⟨p, hp⟩ := align_pos hl.symm hfd
      obtain ⟨v, hv, hff⟩ := h'.shown i fd p hfd hp hs
      rcases hff with ⟨g, hg, hz⟩ | ⟨hnone, _⟩
      · rw [hf] at hg; cases hg
        rw [hv, Option.bind_some, hz] at h; cases h
      · rw [hf] at hnone; cases hnone
    | tupleStruct n fds' c' o fs hd' hk h' => rw [hd] at hd'; cases hd'
    | enumS n fds' c' o fs _ _ hd' hk h' => rw [hd] at hd'; cases hd'
    | enumT n fds' c' o fs _ _ hd' hk h' => rw [hd] at hd'; cases hd'
    | enumU n fds' c' o _ hd' hk h' => rw [hd] at hd'; cases hd'
    | other _ _ _ hne _ => exact absurd rfl (hne n)

/-- C63: the result is a proper value of the target type, as without functions (functions return
values of their field's type: the compiler checks that). -/
theorem C63_typed (E : Env) (W : WithFns) (hD : DeclsOK E) (hO : OrdLaws E) (hW : W.Typed E) (T : Ty)
    (o y : Obj) (ho : ∃ t, HasTy E t o) (h : fromReflectW E W T o = some y) : HasTy E T y :=
  fromReflectW_sound hD hO hW T o y ho h

/-- C63, partial: every field with a function, at every depth of the result, holds something its
function returned — provided that this is so in the source already. Missing: sources that hold derived
values for which it is not so (see `C63_nested_bypassed`). -/
theorem C63_honoured_partial (E : Env) (W : WithFns) (hD : DeclsOK E)
    (hW : ∀ n vn i f v y, W n vn i = some f → f v = some y → y.Everywhere (W.Honoured E))
    (T : Ty) (o y : Obj) (hok : ∃ t, HasTy E t o) (ho : o.Everywhere (W.Honoured E))
    (h : fromReflectW E W T o = some y) : y.Everywhere (W.Honoured E) :=
  fromReflectW_honoured hD hW T o y hok ho h

/-- C63: in particular for every source that is a `Value`. -/
theorem C63_honoured_from_value (E : Env) (W : WithFns) (hD : DeclsOK E)
    (hW : ∀ n vn i f v y, W n vn i = some f → f v = some y → y.Everywhere (W.Honoured E))
    (T : Ty) (v : Value) (hv : v.WF) (y : Obj) (h : fromReflectW E W T v.toObj = some y) :
    y.Everywhere (W.Honoured E) :=
  fromReflectW_honoured hD hW T v.toObj y hv.ok v.toObj_honoured h

/-- C63: the functions of a nested type are bypassed when the source already holds a value of that
type: unless the enclosing type has opted out of `Clone`, the nested value is cloned as it is. With
`opt_out(Clone)` it is converted, and the functions are called. -/
theorem C63_nested_bypassed (E : Env) (W : WithFns) (n : String)
    (fd : FieldDef) (c : Bool) (hd : E.decl n = some ⟨.struct [fd], c⟩) (hs : fd.skip = false)
    (hf : W n none 0 = none) (o v : Obj) (hk : o.kind = .struct) (hv : o.field fd.name = some v)
    (hty : v.typeOf = some fd.ty) :
    fromReflectW E W (.named n) o =
      if c then (fromReflectW E W fd.ty v).map fun z => .struct (.derived n) [(fd.name, z)]
      else some (.struct (.derived n) [(fd.name, v)]) := by
  rw [fromReflectW_struct hd, if_pos hk]
  simp only [List.mapIdx_cons, List.mapIdx_nil, convNamedW, hs, Bool.false_eq_true, if_false, hv,
    Option.bind_some, convFieldW, hf, Obj.isTy, hty, beq_self_eq_true, Bool.and_true]
  cases c with
  | true =>
    simp only [Bool.not_true, Bool.false_eq_true, if_false, if_true]
    cases fromReflectW E W fd.ty v <;> rfl
  | false => rfl

/-- C63: a function that works by `downcast_ref`, as the documentation's example does, on a field of a
derived type makes the enclosing type impossible to build from any `Value`: the round trip through
`Value` then fails for every value, and so does `clone_reflect` with `opt_out(Clone)`. -/
theorem C63_downcast_refuses_values (E : Env) (W : WithFns) (hD : DeclsOK E) (n : String)
    (fds : List FieldDef) (c : Bool) (hd : E.decl n = some ⟨.struct fds, c⟩) (i : Nat) (fd : FieldDef)
    (hfd : fds[i]? = some fd) (hs : fd.skip = false) (m : String) (ht : fd.ty = .named m)
    (f : Obj → Option Obj) (hf : W n none i = some f)
    (hdown : ∀ v, v.typeOf ≠ some fd.ty → f v = none) (v : Value) :
    fromReflectW E W (.named n) v.toObj = none := by
  refine C63_struct_refused E W hD n fds c hd i fd hfd hs f hf v.toObj ?_
  cases hfield : v.toObj.field fd.name with
  | none => rfl
  | some w =>
    obtain ⟨u, rfl⟩ := Value.toObj_parts (Obj.field_parts hfield)
    exact hdown _ (by rw [ht]; exact u.toObj_not_named m)

/-- C63: ... while for a scalar field the same function changes nothing: without `opt_out(Clone)` or
with it, it is what the field would get anyway. -/
theorem C63_downcast_scalar (E : Env) (c : Bool) (k : ScalarKind) (v : Obj) :
    (if v.typeOf = some (.scalar k) then some v else none) =
      if c = false ∧ v.typeOf = some (.scalar k) then some v else fromReflect E (.scalar k) v := by
  rw [fromReflect_scalar]
  by_cases h : v.typeOf = some (.scalar k) <;> simp [h, Obj.isTy]

/-! ## A concrete case -/

/-- `struct Ratio { #[reflect(from_reflect_with(clamp))] a: i32 }`, `struct Holder { r: Ratio }`,
`struct Strict { r: Ratio }` with `opt_out(Clone)`,
`struct Down { #[reflect(from_reflect_with(downcast))] r: Ratio }`. -/
def ratioEnv : Env := valueOrdEnv fun
  | "Ratio" => some ⟨.struct [⟨"a", .scalar (.int .i32), false⟩], false⟩
  | "Holder" => some ⟨.struct [⟨"r", .named "Ratio", false⟩], false⟩
  | "Strict" => some ⟨.struct [⟨"r", .named "Ratio", false⟩], true⟩
  | "Down" => some ⟨.struct [⟨"r", .named "Ratio", false⟩], false⟩
  | _ => none

/-- `Some(field.downcast_ref::<i32>()?.clamp(0, 1))`. -/
def clampFn : Obj → Option Obj
  | .scalar (.int .i32 n) => some (.scalar (.int .i32 (max 0 (min n 1))))
  | _ => none

/-- The functions of `ratioEnv`. -/
def ratioFns : WithFns
  | "Ratio", none, 0 => some clampFn
  | "Down", none, 0 => some fun v => if v.typeOf = some (.named "Ratio") then some v else none
  | _, _, _ => none

theorem ratio_declsOK : DeclsOK ratioEnv where
  struct_names n fds c h := by
    simp only [ratioEnv, valueOrdEnv] at h
    split at h <;> simp at h <;> (obtain ⟨rfl, _⟩ := h; decide)
  variant_names n vds c h := by
    simp only [ratioEnv, valueOrdEnv] at h
    split at h <;> simp at h
  variant_fields n vds c vn fds h hv := by
    simp only [ratioEnv, valueOrdEnv] at h
    split at h <;> simp at h

/-- A `Ratio` holding `a`. -/
def ratioObj (a : Int) : Obj := .struct (.derived "Ratio") [("a", .scalar (.int .i32 a))]

theorem ratio_from (a : Int) : fromReflectW ratioEnv ratioFns (.named "Ratio") (ratioObj a) =
    some (ratioObj (max 0 (min a 1))) := by
  rw [fromReflectW_struct (show ratioEnv.decl "Ratio" = some ⟨.struct _, false⟩ from rfl)]
  rfl

/-- Non-vacuity and the finding: `Ratio::from_reflect` clamps; `Holder::from_reflect` keeps an
out-of-range `Ratio` that the source holds, although from the source's `Value` it clamps it; `Strict`
clamps it in both cases; `Down` cannot be made from a `Value`. -/
example : DeclsOK ratioEnv ∧
    fromReflectW ratioEnv ratioFns (.named "Ratio") (ratioObj 100) = some (ratioObj 1) ∧
    fromReflectW ratioEnv ratioFns (.named "Holder") (.struct (.derived "Holder") [("r", ratioObj 100)]) =
      some (.struct (.derived "Holder") [("r", ratioObj 100)]) ∧
    fromReflectW ratioEnv ratioFns (.named "Holder")
        (Value.struct ["r"] [("r", .struct ["a"] [("a", .scalar (.int .i32 100))])]).toObj =
      some (.struct (.derived "Holder") [("r", ratioObj 1)]) ∧
    fromReflectW ratioEnv ratioFns (.named "Strict") (.struct (.derived "Holder") [("r", ratioObj 100)]) =
      some (.struct (.derived "Strict") [("r", ratioObj 1)]) ∧
    (∀ v : Value, fromReflectW ratioEnv ratioFns (.named "Down") v.toObj = none) := by
  refine ⟨ratio_declsOK, ratio_from 100, ?_, ?_, ?_, ?_⟩
  · exact C63_nested_bypassed ratioEnv ratioFns "Holder" ⟨"r", .named "Ratio", false⟩ false rfl rfl rfl
      _ (ratioObj 100) rfl rfl rfl
  · rw [fromReflectW_struct (show ratioEnv.decl "Holder" = some ⟨.struct _, false⟩ from rfl)]
    have : fromReflectW ratioEnv ratioFns (.named "Ratio")
        (Value.struct ["a"] [("a", .scalar (.int .i32 100))]).toObj = some (ratioObj 1) := by
      rw [fromReflectW_struct (show ratioEnv.decl "Ratio" = some ⟨.struct _, false⟩ from rfl)]
      simp [Value.toObj, Obj.kind, convNamedW, Obj.field, visFields, lookup, Obj.isHidden, convFieldW,
        ratioFns, clampFn, optAll, ratioObj]
    simp [Value.toObj] at this
    simp [Value.toObj, Obj.kind, convNamedW, Obj.field, visFields, lookup, Obj.isHidden, convFieldW,
      ratioFns, optAll, Obj.isTy, Obj.typeOf, this]
  · rw [C63_nested_bypassed ratioEnv ratioFns "Strict" ⟨"r", .named "Ratio", false⟩ true rfl rfl rfl
      _ (ratioObj 100) rfl rfl rfl, if_pos rfl, ratio_from]
    rfl
  · intro v
    exact C63_downcast_refuses_values ratioEnv ratioFns ratio_declsOK "Down" _ _ rfl 0 _ rfl rfl "Ratio"
      rfl _ rfl (fun v hv => if_neg hv) v

/-- Non-vacuity: the functions of `ratioEnv` are typed, and what they return holds no field with a
function that was not made by it. -/
example : (∀ v y, clampFn v = some y → HasTy ratioEnv (.scalar (.int .i32)) y) ∧
    (∀ v y, clampFn v = some y → y.Everywhere (ratioFns.Honoured ratioEnv)) ∧
    (ratioObj 1).Everywhere (ratioFns.Honoured ratioEnv) ∧
    ¬ ratioFns.Honoured ratioEnv (ratioObj 100) := by
  have hc : ∀ v y, clampFn v = some y → ∃ n : Int, y = .scalar (.int .i32 n) ∧ n ≤ 1 := by
    intro v y h
    unfold clampFn at h
    split at h
    · cases h; exact ⟨_, rfl, by omega⟩
    · cases h
  refine ⟨?_, ?_, ?_, ?_⟩
  · intro v y h
    obtain ⟨n, rfl, _⟩ := hc v y h
    exact .scalar' rfl
  · intro v y h
    obtain ⟨n, rfl, _⟩ := hc v y h
    exact .mk _ (.other _ (by simp [Obj.typeOf])) nofun
  · refine .mk _ (.struct "Ratio" _ _ _ rfl ?_) ?_
    · intro i fd p f hfd hp _ hf
      match i with
      | 0 =>
        cases hp; cases hf
        exact ⟨.scalar (.int .i32 1), rfl⟩
      | i + 1 => simp at hfd
    · intro x hx
      simp [ratioObj, Obj.parts, visFields, Obj.isHidden] at hx
      subst hx
      exact .mk _ (.other _ (by simp [Obj.typeOf])) nofun
  · intro h
    cases h with
    | struct _ fds c _ hd h =>
      cases hd
      obtain ⟨v, hv⟩ := h 0 _ _ clampFn rfl rfl rfl rfl
      obtain ⟨n, hn, hle⟩ := hc _ _ hv
      cases hn
      omega
    | other _ hne => exact hne "Ratio" rfl

end Mirror
