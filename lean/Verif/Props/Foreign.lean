import Verif.Spec.Foreign
import Verif.Props.RoundTrip
import Verif.Props.Default
import Verif.Props.TypeInfo
import Verif.Lemmas.Patch
import Verif.Lemmas.ReflectEq

set_option linter.unusedSimpArgs false

/-!
# The library's own types (C64)
-/

namespace Mirror

variable {E : Env}

/-! ## Enums with one-field tuple variants -/

theorem hasTy_enumT1 {n : String} {vds : List VariantDef} {c : Bool} {vn : String} {t : Ty} {y : Obj}
    (hd : E.decl n = some ⟨.enum vds, c⟩) (hm : .tuple vn [⟨"", t, false⟩] ∈ vds) (hy : HasTy E t y) :
    HasTy E (.named n) (.enumT (.derived n) vn [y]) := by
  refine .enumT n vds c vn _ _ hd hm rfl ?_ ?_
  · intro i fd x h1 h2 h3
    match i with
    | 0 => simp at h1; subst h1; simp at h3
    | i + 1 => simp at h1
  · intro i fd x h1 h2 h3
    match i with
    | 0 => simp at h1 h2; subst h1 h2; exact hy
    | i + 1 => simp at h1

theorem enumT1_inv {t : Ty} {fs : List Obj} (h1 : fs.length = [(⟨"", t, false⟩ : FieldDef)].length)
    (h3 : ∀ (i : Nat) fd x, [(⟨"", t, false⟩ : FieldDef)][i]? = some fd → fs[i]? = some x →
      fd.skip = false → HasTy E fd.ty x) : ∃ y, fs = [y] ∧ HasTy E t y := by
  match fs, h1 with
  | [y], _ => exact ⟨y, rfl, h3 0 _ y rfl rfl rfl⟩

/-! ## `Option` -/

/-- C64: the values of `Option<T>` are `None` and `Some(y)` for values `y` of `T`. -/
theorem C64_option_values {n : String} {t : Ty} (hd : E.decl n = some (optionDef t)) (x : Obj) :
    HasTy E (.named n) x ↔ x = optNone n ∨ ∃ y, HasTy E t y ∧ x = optSome n y := by
  constructor
  · intro h
    rcases enum_inv hd h with ⟨vn, fds, fs, hm, rfl, e1, e2, e3⟩ | ⟨vn, fds, fs, hm, rfl, e1, e2, e3⟩ |
        ⟨vn, hm, rfl⟩
    · simp at hm
    · simp at hm; obtain ⟨rfl, rfl⟩ := hm
      obtain ⟨y, rfl, hy⟩ := enumT1_inv e1 e3
      exact .inr ⟨y, hy, rfl⟩
    · simp at hm; subst hm; exact .inl rfl
  · rintro (rfl | ⟨y, hy, rfl⟩)
    · exact .enumU n _ _ _ hd (by simp)
    · exact hasTy_enumT1 hd (by simp) hy

/-- C64: `to_value` of an option. -/
theorem C64_option_to_value (n : String) (y : Obj) (hy : y.isHidden = false) :
    (optNone n).toValue = .enumU "None" ∧ (optSome n y).toValue = .enumT "Some" [y.toValue] := by
  constructor
  · simp [optNone, Obj.toValue]
  · simp [optSome, Obj.toValue, hy]

/-- C64: what `Option<T>::from_reflect` makes of any value: `None` of a `None`, and `Some(y)` of a `Some`
whose content `T` converts to `y`. -/
theorem C64_option_from_reflect {n : String} {t : Ty} (hd : E.decl n = some (optionDef t)) (o x : Obj) :
    fromReflect E (.named n) o = some x ↔
      (o.variantName = some "None" ∧ x = optNone n) ∨
      (∃ w y, o.variantName = some "Some" ∧ o.fieldAt 0 = some w ∧ fromReflect E t w = some y ∧
        x = optSome n y) := by
  rw [fromReflect_enum hd]
  cases hv : o.variantName with
  | none => simp
  | some vn =>
    by_cases h1 : vn = "None"
    · subst h1; simp [VariantDef.name, optNone, eq_comm]
    · by_cases h2 : vn = "Some"
      · subst h2
        cases hf : o.fieldAt 0 with
        | none => simp [VariantDef.name, convPos, convField, optAll, hf]
        | some w =>
          cases hy : fromReflect E t w with
          | none => simp [VariantDef.name, convPos, convField, optAll, hf, hy]
          | some y => simp [VariantDef.name, convPos, convField, optAll, hf, hy, optSome, eq_comm]
      · simp [VariantDef.name, h1, h2, Ne.symm h1, Ne.symm h2]

/-- C64: what patching an option with any value does: a `None` makes it `None`; a `Some` whose content
converts to `T` makes it `Some` of the conversion, whatever it held; a `Some` whose content does not
convert is patched into the content of a `Some`; everything else changes nothing. -/
theorem C64_option_patch {n : String} {t : Ty} (hd : E.decl n = some (optionDef t)) (v : Obj) :
    (v.variantName = some "None" → ∀ x, HasTy E (.named n) x → patch E x v = optNone n) ∧
    (∀ w y, v.variantName = some "Some" → v.fieldAt 0 = some w → fromReflect E t w = some y →
      ∀ x, HasTy E (.named n) x → patch E x v = optSome n y) ∧
    (∀ w, v.variantName = some "Some" → v.fieldAt 0 = some w → fromReflect E t w = none →
      patch E (optNone n) v = optNone n ∧
      ∀ a, HasTy E t a → patch E (optSome n a) v = optSome n (patch E a w)) ∧
    (v.variantName ≠ some "None" → (v.variantName = some "Some" → v.fieldAt 0 = none) →
      ∀ x, HasTy E (.named n) x → patch E x v = x) := by
  have hx : ∀ x, HasTy E (.named n) x → x.kind = .enum ∧ x.typeOf = some (.named n) := by
    intro x hx
    rcases (C64_option_values hd x).mp hx with rfl | ⟨y, _, rfl⟩ <;> exact ⟨rfl, rfl⟩
  have key : ∀ x, HasTy E (.named n) x → patch E x v =
      if v.kind = .enum then
        match fromReflect E (.named n) v with
        | some y => y
        | none => if v.variantName = x.variantName then patchFields E v x else x
      else x := by
    intro x h
    have hc : (v.isTy (.named n) && !((E.decl n).any (·.cloneOptOut))) = false := by
      rw [hd]; simp [optionDef]
    rw [patch_enum_derived E (hx x h).1 (hx x h).2, hc]
    rfl
  have hk : ∀ {s}, v.variantName = some s → v.kind = .enum := by
    intro s h; cases v <;> simp [Obj.variantName] at h <;> rfl
  have hconv := C64_option_from_reflect hd v
  refine ⟨fun hv x h => ?_, fun w y hv hw hy x h => ?_, fun w hv hw hy => ⟨?_, fun a ha => ?_⟩,
    fun hv hw x h => ?_⟩
  · rw [key x h, if_pos (hk hv), (hconv _).mpr (.inl ⟨hv, rfl⟩)]
  · rw [key x h, if_pos (hk hv), (hconv _).mpr (.inr ⟨w, y, hv, hw, hy, rfl⟩)]
  · have : fromReflect E (.named n) v = none := by
      cases hc : fromReflect E (.named n) v with
      | none => rfl
      | some z =>
        rcases (hconv z).mp hc with ⟨h, _⟩ | ⟨w', y, _, h1, h2, _⟩
        · rw [hv] at h; simp at h
        · rw [hw] at h1; cases h1; rw [hy] at h2; cases h2
    rw [key _ ((C64_option_values hd _).mpr (.inl rfl)), if_pos (hk hv), this]
    have hne : v.variantName ≠ (optNone n).variantName := by rw [hv]; simp [optNone, Obj.variantName]
    dsimp only
    rw [if_neg hne]
  · have : fromReflect E (.named n) v = none := by
      cases hc : fromReflect E (.named n) v with
      | none => rfl
      | some z =>
        rcases (hconv z).mp hc with ⟨h, _⟩ | ⟨w', y, _, h1, h2, _⟩
        · rw [hv] at h; simp at h
        · rw [hw] at h1; cases h1; rw [hy] at h2; cases h2
    rw [key _ ((C64_option_values hd _).mpr (.inr ⟨a, ha, rfl⟩)), if_pos (hk hv), this]
    have he : v.variantName = (optSome n a).variantName := hv
    dsimp only
    rw [if_pos he]
    simp [optSome, patchFields, patchPos, patchO, hw]
  · have : fromReflect E (.named n) v = none := by
      cases hc : fromReflect E (.named n) v with
      | none => rfl
      | some z =>
        rcases (hconv z).mp hc with ⟨h, _⟩ | ⟨w', y, h0, h1, h2, _⟩
        · exact absurd h hv
        · rw [hw h0] at h1; cases h1
    rw [key x h, this]
    split
    · dsimp only
      split
      · next he =>
        rcases (C64_option_values hd x).mp h with rfl | ⟨y, hy, rfl⟩
        · exact absurd he hv
        · have := hw he
          simp [optSome, patchFields, patchPos, patchO, this]
      · rfl
    · rfl

theorem eqAll_single (r : Option Bool) : eqAll [r] = r := by
  match r with
  | some true => rfl
  | some false => rfl
  | none => rfl

/-- Enums in one-field tuple variants compare by variant name and content. -/
theorem reflectEq_enumT1 {tag tag' vn vn'} {a b : Obj} (ha : a.isHidden = false)
    (hb : b.isHidden = false) :
    reflectEq E (.enumT tag vn [a]) (.enumT tag' vn' [b]) =
      if vn' = vn then reflectEq E a b else some false := by
  rw [reflectEq.eq_def]
  by_cases h : vn' = vn
  · have h1 : List.takeWhile (fun x : Obj => !x.isHidden) [a] = [a] := by simp [ha]
    have h2 : List.takeWhile (fun x : Obj => !x.isHidden) [b] = [b] := by simp [hb]
    have hat : ((List.takeWhile (fun x : Obj => !x.isHidden) [a]).zip
        (List.takeWhile (fun x : Obj => !x.isHidden) [b])).attach.map
          (fun p => reflectEq E p.1.1 p.1.2) = [reflectEq E a b] := by
      rw [h1, h2]; rfl
    simp only [h, Obj.kind, Obj.variantName, Obj.variantKind, Obj.fieldsLen, Obj.posIter, and_self,
      if_true, List.filter_cons, List.filter_nil, ha, hb, Bool.not_false, hat, eqAll_single]
    rfl
  · simp [h, Obj.kind, Obj.variantName]

/-- C64: `reflect_eq` of options, also of different types: `None` is equal to `None`, unequal to `Some`,
and two `Some`s compare as their contents. -/
theorem C64_option_eq (n m : String) (a b : Obj) (ha : a.isHidden = false) (hb : b.isHidden = false) :
    reflectEq E (optNone n) (optNone m) = some true ∧
    reflectEq E (optNone n) (optSome m b) = some false ∧
    reflectEq E (optSome n a) (optNone m) = some false ∧
    reflectEq E (optSome n a) (optSome m b) = reflectEq E a b := by
  refine ⟨?_, ?_, ?_, ?_⟩
  · rw [reflectEq.eq_def]; simp [optNone, Obj.kind, Obj.variantName, Obj.fieldsLen, Obj.variantKind]
  · rw [reflectEq.eq_def]; simp [optNone, optSome, Obj.kind, Obj.variantName]
  · rw [reflectEq.eq_def]; simp [optNone, optSome, Obj.kind, Obj.variantName]
  · rw [optSome, optSome, reflectEq_enumT1 ha hb, if_pos rfl]

/-- C64: `clone_reflect` of an option goes through `Value`: it clones the content only as far as
`T::from_reflect(&content.to_value())` does, and panics (`none`) when that fails. -/
theorem C64_option_clone {n : String} {t : Ty} (hd : E.decl n = some (optionDef t)) :
    cloneReflect E (optNone n) = some (optNone n) ∧
    ∀ y, HasTy E t y →
      cloneReflect E (optSome n y) = (fromReflect E t y.toValue.toObj).map (optSome n) := by
  have hc : ∀ x : Obj, x.typeOf = some (.named n) →
      cloneReflect E x = fromReflect E (.named n) x.toValue.toObj := by
    intro x hx; rw [cloneReflect, hx]; dsimp only; rw [hd]; simp [optionDef]
  constructor
  · rw [hc _ rfl, (C64_option_to_value n (.scalar (.bool true)) rfl).1, Value.toObj]
    exact (C64_option_from_reflect hd _ _).mpr (.inl ⟨rfl, rfl⟩)
  · intro y hy
    rw [hc _ rfl, (C64_option_to_value n y hy.not_hidden).2, Value.toObj]
    have hf : (Obj.enumT TSTag.dyn "Some" ([y.toValue].map Value.toObj)).fieldAt 0 = some y.toValue.toObj := by
      simp [Obj.fieldAt, visAt, Value.toObj_not_hidden]
    apply Option.ext
    intro z
    rw [C64_option_from_reflect hd, hf]
    simp only [Obj.variantName, Option.some.injEq, Option.map_eq_some_iff]
    constructor
    · rintro (⟨h, _⟩ | ⟨w, y', _, rfl, h, rfl⟩)
      · simp at h
      · exact ⟨y', h, rfl⟩
    · rintro ⟨y', h, rfl⟩
      exact .inr ⟨_, y', trivial, rfl, h, rfl⟩

/-- C64: the default of `Option<T>` is `None`, whether or not `T` has a default. -/
theorem C64_option_default (hD : DeclsOK E) {n : String} {t : Ty} (hd : E.decl n = some (optionDef t))
    {f d} (h : describe E f (.named n) = some d) (fuel : Nat) :
    defaultValue d.graph (fuel + 1) d.root = some (some (.enumU "None")) ∧
    hasDefault d.graph (fuel + 1) d.root = some true := by
  obtain ⟨node, hn⟩ := descriptor_closed hD h .root
  have hr := descriptor_root hD h
  obtain ⟨hdesc, _⟩ := describe_graphOK hD h _ _ hn
  rw [hr] at hdesc hn ⊢
  simp only [Ty.unbox] at hdesc hn ⊢
  cases hdesc with
  | struct _ _ _ _ _ hd' => rw [hd] at hd'; cases hd'
  | tupleStruct _ _ _ hd' => rw [hd] at hd'; cases hd'
  | enum _ vds c vs hd' hlen hv =>
    rw [hd] at hd'; cases hd'
    match vs, hlen with
    | [a, b], _ =>
      have h0 := hv 0 _ a rfl rfl
      cases h0
      simp only [defaultValue, hasDefault, hn]
      exact ⟨rfl, rfl⟩

/-- C64: `Option<[T; N]>` cannot be made from its own `Some`s: arrays convert from lists only, and
`Option` opts out of `Clone`. -/
theorem C64_option_of_array_fails {n : String} {t : Ty} {len : Nat}
    (hd : E.decl n = some (optionDef (.array t len))) (xs : List Obj) :
    fromReflect E (.named n) (optSome n (.array t xs)) = none := by
  cases hc : fromReflect E (.named n) (optSome n (.array t xs)) with
  | none => rfl
  | some z =>
    rcases (C64_option_from_reflect hd _ z).mp hc with ⟨h, _⟩ | ⟨w, y, _, h1, h2, _⟩
    · simp [optSome, Obj.variantName] at h
    · simp [optSome, Obj.fieldAt, visAt, Obj.isHidden] at h1
      subst h1
      rw [C04_array_never_converts_from_itself] at h2; cases h2

/-! ## `Result` -/

/-- C64: the values of `Result<T, E>`. -/
theorem C64_result_values {n : String} {t e : Ty} (hd : E.decl n = some (resultDef t e)) (x : Obj) :
    HasTy E (.named n) x ↔ (∃ y, HasTy E t y ∧ x = resOk n y) ∨ (∃ y, HasTy E e y ∧ x = resErr n y) := by
  constructor
  · intro h
    rcases enum_inv hd h with ⟨vn, fds, fs, hm, rfl, e1, e2, e3⟩ | ⟨vn, fds, fs, hm, rfl, e1, e2, e3⟩ |
        ⟨vn, hm, rfl⟩
    · simp at hm
    · simp at hm
      rcases hm with ⟨rfl, rfl⟩ | ⟨rfl, rfl⟩
      · obtain ⟨y, rfl, hy⟩ := enumT1_inv e1 e3
        exact .inl ⟨y, hy, rfl⟩
      · obtain ⟨y, rfl, hy⟩ := enumT1_inv e1 e3
        exact .inr ⟨y, hy, rfl⟩
    · simp at hm
  · rintro (⟨y, hy, rfl⟩ | ⟨y, hy, rfl⟩)
    · exact hasTy_enumT1 hd (by simp) hy
    · exact hasTy_enumT1 hd (by simp) hy

/-- C64: what `Result<T, E>::from_reflect` makes of any value. -/
theorem C64_result_from_reflect {n : String} {t e : Ty} (hd : E.decl n = some (resultDef t e))
    (o x : Obj) :
    fromReflect E (.named n) o = some x ↔
      (∃ w y, o.variantName = some "Ok" ∧ o.fieldAt 0 = some w ∧ fromReflect E t w = some y ∧
        x = resOk n y) ∨
      (∃ w y, o.variantName = some "Err" ∧ o.fieldAt 0 = some w ∧ fromReflect E e w = some y ∧
        x = resErr n y) := by
  rw [fromReflect_enum hd]
  cases hv : o.variantName with
  | none => simp
  | some vn =>
    by_cases h1 : vn = "Ok"
    · subst h1
      cases hf : o.fieldAt 0 with
      | none => simp [VariantDef.name, convPos, convField, optAll, hf]
      | some w =>
        cases hy : fromReflect E t w with
        | none => simp [VariantDef.name, convPos, convField, optAll, hf, hy]
        | some y => simp [VariantDef.name, convPos, convField, optAll, hf, hy, resOk, eq_comm]
    · by_cases h2 : vn = "Err"
      · subst h2
        cases hf : o.fieldAt 0 with
        | none => simp [VariantDef.name, convPos, convField, optAll, hf]
        | some w =>
          cases hy : fromReflect E e w with
          | none => simp [VariantDef.name, convPos, convField, optAll, hf, hy]
          | some y => simp [VariantDef.name, convPos, convField, optAll, hf, hy, resErr, eq_comm]
      · simp [VariantDef.name, h1, h2, Ne.symm h1, Ne.symm h2]

/-- C64: `reflect_eq` of results. -/
theorem C64_result_eq (n m : String) (a b : Obj) (ha : a.isHidden = false) (hb : b.isHidden = false) :
    reflectEq E (resOk n a) (resOk m b) = reflectEq E a b ∧
    reflectEq E (resErr n a) (resErr m b) = reflectEq E a b ∧
    reflectEq E (resOk n a) (resErr m b) = some false ∧
    reflectEq E (resErr n a) (resOk m b) = some false := by
  simp only [resOk, resErr, reflectEq_enumT1 ha hb]
  simp

/-- C64: the default of `Result<T, E>` is `Ok` of the default of `T`. -/
theorem C64_result_default (hD : DeclsOK E) {n : String} {t e : Ty}
    (hd : E.decl n = some (resultDef t e)) {f d} (h : describe E f (.named n) = some d) (fuel : Nat) :
    defaultValue d.graph (fuel + 1) d.root =
      (defaultValue d.graph fuel t.unbox).map (Option.map fun v => .enumT "Ok" [v]) := by
  obtain ⟨node, hn⟩ := descriptor_closed hD h .root
  have hr := descriptor_root hD h
  obtain ⟨hdesc, _⟩ := describe_graphOK hD h _ _ hn
  rw [hr] at hdesc hn ⊢
  simp only [Ty.unbox] at hdesc hn ⊢
  cases hdesc with
  | struct _ _ _ _ _ hd' => rw [hd] at hd'; cases hd'
  | tupleStruct _ _ _ hd' => rw [hd] at hd'; cases hd'
  | enum _ vds c vs hd' hlen hv =>
    rw [hd] at hd'; cases hd'
    match vs, hlen with
    | [a, b], _ =>
      have h0 := hv 0 _ a rfl rfl
      cases h0
      simp only [defaultValue, hn, defaultVariant, List.filter_cons, List.filter_nil, Bool.not_false,
        if_true, List.map_cons, List.map_nil, defaultPos]
      rcases defaultValue d.graph fuel t.unbox with _ | _ | v <;> rfl

/-! ## `Range` -/

/-- C64: the values of `Range<T>`. -/
theorem C64_range_values {n : String} {t : Ty} (hd : E.decl n = some (rangeDef t)) (x : Obj) :
    HasTy E (.named n) x ↔ ∃ a b, HasTy E t a ∧ HasTy E t b ∧ x = rangeOf n a b := by
  constructor
  · intro h
    cases h with
    | struct _ fds c fs hd' e1 e2 e3 =>
      rw [hd] at hd'; cases hd'
      match fs, e1 with
      | [(a, x), (b, y)], e1 =>
        simp at e1; obtain ⟨rfl, rfl⟩ := e1
        exact ⟨x, y, e3 0 _ _ rfl rfl rfl, e3 1 _ _ rfl rfl rfl, rfl⟩
    | tupleStruct _ _ _ _ hd' => rw [hd] at hd'; cases hd'
    | enumS _ _ _ _ _ _ hd' => rw [hd] at hd'; cases hd'
    | enumT _ _ _ _ _ _ hd' => rw [hd] at hd'; cases hd'
    | enumU _ _ _ _ hd' => rw [hd] at hd'; cases hd'
  · rintro ⟨a, b, ha, hb, rfl⟩
    refine .struct n _ _ _ hd rfl ?_ ?_
    · intro i fd p h1 h2 h3
      match i with
      | 0 => simp at h1; subst h1; simp at h3
      | 1 => simp at h1; subst h1; simp at h3
      | i + 2 => simp at h1
    · intro i fd p h1 h2 h3
      match i with
      | 0 => simp at h1 h2; subst h1 h2; exact ha
      | 1 => simp at h1 h2; subst h1 h2; exact hb
      | i + 2 => simp at h1

/-- C64: `Range<T>::from_reflect` takes `start` and `end` from any struct that shows both, in any order and
among others, and converts each. -/
theorem C64_range_from_reflect {n : String} {t : Ty} (hd : E.decl n = some (rangeDef t)) (o x : Obj) :
    fromReflect E (.named n) o = some x ↔
      o.kind = .struct ∧ ∃ v w a b, o.field "start" = some v ∧ o.field "end" = some w ∧
        fromReflect E t v = some a ∧ fromReflect E t w = some b ∧ x = rangeOf n a b := by
  rw [fromReflect_struct hd]
  split
  · next hk =>
    simp only [List.map_cons, List.map_nil, convNamed, convField]
    cases h1 : o.field "start" with
    | none => simp [optAll]
    | some v =>
      cases h2 : o.field "end" with
      | none => cases h3 : fromReflect E t v <;> simp [optAll, h3]
      | some w =>
        cases h3 : fromReflect E t v with
        | none => simp [optAll, h3]
        | some a =>
          cases h4 : fromReflect E t w with
          | none => simp [optAll, h3, h4]
          | some b => simp [optAll, h3, h4, hk, rangeOf, eq_comm]
  · next hk => simp [hk]

/-! ## The other structs -/

theorem pair_named {p : String × Obj} {s : String} (h : p.1 = s) : p = (s, p.2) := by rw [← h]

/-- The values of a struct without skipped fields. -/
theorem plainStruct_values {n : String} {fds : List FieldDef} {c : Bool} (hd : E.decl n = some ⟨.struct fds, c⟩)
    (hs : ∀ fd ∈ fds, fd.skip = false) (x : Obj) :
    HasTy E (.named n) x ↔ ∃ fs, x = .struct (.derived n) fs ∧
      List.Forall₂ (fun (fd : FieldDef) (p : String × Obj) => p.1 = fd.name ∧ HasTy E fd.ty p.2) fds fs := by
  constructor
  · intro h
    cases h with
    | struct _ fds' c' fs hd' e1 e2 e3 =>
      rw [hd] at hd'; cases hd'
      refine ⟨fs, rfl, List.forall₂_iff_get.mpr ⟨by simpa using (congrArg List.length e1).symm, fun i h1 h2 => ⟨?_, ?_⟩⟩⟩
      · have := congrArg (fun l => l[i]?) e1
        simpa [h1, h2] using this
      · exact e3 i _ _ (by simp [h1]) (by simp [h2]) (hs _ (List.getElem_mem h1))
    | tupleStruct _ _ _ _ hd' => rw [hd] at hd'; cases hd'
    | enumS _ _ _ _ _ _ hd' => rw [hd] at hd'; cases hd'
    | enumT _ _ _ _ _ _ hd' => rw [hd] at hd'; cases hd'
    | enumU _ _ _ _ hd' => rw [hd] at hd'; cases hd'
  · rintro ⟨fs, rfl, h⟩
    obtain ⟨hl, hg⟩ := List.forall₂_iff_get.mp h
    refine .struct n _ _ _ hd ?_ ?_ ?_
    · apply List.ext_getElem?
      intro i
      by_cases hi : i < fs.length
      · have := (hg i (hl ▸ hi) hi).1
        have hi' : i < fds.length := hl ▸ hi
        simpa [hi, hi'] using this
      · have hi' : ¬ i < fds.length := hl ▸ hi
        simp [hi, hi']
    · intro i fd p h1 h2 h3
      have := hs fd (List.mem_of_getElem? h1)
      rw [this] at h3; cases h3
    · intro i fd p h1 h2 _
      obtain ⟨i1, rfl⟩ := List.getElem?_eq_some_iff.mp h1
      obtain ⟨i2, rfl⟩ := List.getElem?_eq_some_iff.mp h2
      exact (hg i i1 i2).2

/-- C64: the values of `RangeFrom<T>`. -/
theorem C64_range_from_values {n : String} {t : Ty} (hd : E.decl n = some (rangeFromDef t)) (x : Obj) :
    HasTy E (.named n) x ↔ ∃ a, HasTy E t a ∧ x = .struct (.derived n) [("start", a)] := by
  rw [plainStruct_values hd (by simp)]
  constructor
  · rintro ⟨fs, rfl, (_ | ⟨h1, (_ | _)⟩)⟩
    exact ⟨_, h1.2, by rw [pair_named h1.1]⟩
  · rintro ⟨a, h1, rfl⟩
    exact ⟨_, rfl, .cons ⟨rfl, h1⟩ .nil⟩

/-- C64: the values of `RangeTo<T>` and `RangeToInclusive<T>`. -/
theorem C64_range_to_values {n : String} {t : Ty} (hd : E.decl n = some (rangeToDef t)) (x : Obj) :
    HasTy E (.named n) x ↔ ∃ a, HasTy E t a ∧ x = .struct (.derived n) [("end", a)] := by
  rw [plainStruct_values hd (by simp)]
  constructor
  · rintro ⟨fs, rfl, (_ | ⟨h1, (_ | _)⟩)⟩
    exact ⟨_, h1.2, by rw [pair_named h1.1]⟩
  · rintro ⟨a, h1, rfl⟩
    exact ⟨_, rfl, .cons ⟨rfl, h1⟩ .nil⟩

/-- C64: the values of `glam::Vec2`. -/
theorem C64_vec2_values {n : String} (hd : E.decl n = some vec2Def) (x : Obj) :
    HasTy E (.named n) x ↔ ∃ a b, HasTy E (.scalar .f32) a ∧ HasTy E (.scalar .f32) b ∧
      x = .struct (.derived n) [("x", a), ("y", b)] := by
  rw [plainStruct_values hd (by simp)]
  constructor
  · rintro ⟨fs, rfl, (_ | ⟨h1, (_ | ⟨h2, (_ | _)⟩)⟩)⟩
    exact ⟨_, _, h1.2, h2.2, by rw [pair_named h1.1, pair_named h2.1]⟩
  · rintro ⟨a, b, h1, h2, rfl⟩
    exact ⟨_, rfl, .cons ⟨rfl, h1⟩ (.cons ⟨rfl, h2⟩ .nil)⟩

/-- C64: the values of `glam::Vec3`. -/
theorem C64_vec3_values {n : String} (hd : E.decl n = some vec3Def) (x : Obj) :
    HasTy E (.named n) x ↔ ∃ a b c, HasTy E (.scalar .f32) a ∧ HasTy E (.scalar .f32) b ∧
      HasTy E (.scalar .f32) c ∧ x = .struct (.derived n) [("x", a), ("y", b), ("z", c)] := by
  rw [plainStruct_values hd (by simp)]
  constructor
  · rintro ⟨fs, rfl, (_ | ⟨h1, (_ | ⟨h2, (_ | ⟨h3, (_ | _)⟩)⟩)⟩)⟩
    exact ⟨_, _, _, h1.2, h2.2, h3.2, by rw [pair_named h1.1, pair_named h2.1, pair_named h3.1]⟩
  · rintro ⟨a, b, c, h1, h2, h3, rfl⟩
    exact ⟨_, rfl, .cons ⟨rfl, h1⟩ (.cons ⟨rfl, h2⟩ (.cons ⟨rfl, h3⟩ .nil))⟩

/-- C64: the values of `glam::Mat3`; `v` is the name of `Vec3`. -/
theorem C64_mat3_values {n v : String} (hd : E.decl n = some (mat3Def v)) (x : Obj) :
    HasTy E (.named n) x ↔ ∃ a b c, HasTy E (.named v) a ∧ HasTy E (.named v) b ∧
      HasTy E (.named v) c ∧ x = .struct (.derived n) [("x_axis", a), ("y_axis", b), ("z_axis", c)] := by
  rw [plainStruct_values hd (by simp)]
  constructor
  · rintro ⟨fs, rfl, (_ | ⟨h1, (_ | ⟨h2, (_ | ⟨h3, (_ | _)⟩)⟩)⟩)⟩
    exact ⟨_, _, _, h1.2, h2.2, h3.2, by rw [pair_named h1.1, pair_named h2.1, pair_named h3.1]⟩
  · rintro ⟨a, b, c, h1, h2, h3, rfl⟩
    exact ⟨_, rfl, .cons ⟨rfl, h1⟩ (.cons ⟨rfl, h2⟩ (.cons ⟨rfl, h3⟩ .nil))⟩

/-! ## `ColorRgba8` -/

/-- C64: the values of `ColorRgba8` hold an array of four bytes. -/
theorem C64_color_values {n : String} (hd : E.decl n = some colorRgba8Def) (x : Obj) :
    HasTy E (.named n) x ↔ ∃ a, HasTy E (.array (.scalar (.int .u8)) 4) a ∧ x = .tupleStruct (.derived n) [a] := by
  constructor
  · intro h
    cases h with
    | tupleStruct _ fds c fs hd' e1 e2 e3 =>
      rw [hd] at hd'; cases hd'
      match fs, e1 with
      | [a], _ => exact ⟨a, e3 0 _ a rfl rfl rfl, rfl⟩
    | struct _ _ _ _ hd' => rw [hd] at hd'; cases hd'
    | enumS _ _ _ _ _ _ hd' => rw [hd] at hd'; cases hd'
    | enumT _ _ _ _ _ _ hd' => rw [hd] at hd'; cases hd'
    | enumU _ _ _ _ hd' => rw [hd] at hd'; cases hd'
  · rintro ⟨a, ha, rfl⟩
    refine .tupleStruct n _ _ _ hd rfl ?_ ?_
    · intro i fd p h1 h2 h3
      match i with
      | 0 => simp at h1; subst h1; simp at h3
      | i + 1 => simp at h1
    · intro i fd p h1 h2 h3
      match i with
      | 0 => simp at h1 h2; subst h1 h2; exact ha
      | i + 1 => simp at h1

/-- C64: what `ColorRgba8::from_reflect` makes of any value: the first field of a tuple struct, taken as
it is if it is an array of four bytes, and converted otherwise. -/
theorem C64_color_from_reflect {n : String} (hd : E.decl n = some colorRgba8Def) (o x : Obj) :
    fromReflect E (.named n) o = some x ↔
      o.kind = .tupleStruct ∧ ∃ w a, o.fieldAt 0 = some w ∧ x = .tupleStruct (.derived n) [a] ∧
        ((w.typeOf = some (.array (.scalar (.int .u8)) 4) ∧ a = w) ∨
          (w.typeOf ≠ some (.array (.scalar (.int .u8)) 4) ∧
            fromReflect E (.array (.scalar (.int .u8)) 4) w = some a)) := by
  rw [fromReflect_tupleStruct hd]
  by_cases hk : o.kind = .tupleStruct
  · simp only [hk, if_true, true_and]
    cases hf : o.fieldAt 0 with
    | none => simp [convPos, convField, optAll, hf]
    | some w =>
      by_cases ht : w.typeOf = some (.array (.scalar (.int .u8)) 4)
      · have hi : w.isTy (.array (.scalar (.int .u8)) 4) = true := by rw [Obj.isTy, ht]; exact beq_self_eq_true _
        constructor
        · intro h
          simp [convPos, convField, optAll, hf, hi] at h
          exact ⟨w, w, rfl, h.symm, .inl ⟨ht, rfl⟩⟩
        · rintro ⟨w', a, h1, rfl, ⟨_, rfl⟩ | ⟨h2, _⟩⟩
          · cases h1; simp [convPos, convField, optAll, hf, hi]
          · cases h1; exact absurd ht h2
      · have hi : w.isTy (.array (.scalar (.int .u8)) 4) = false := by simpa [Obj.isTy] using ht
        constructor
        · intro h
          cases hy : fromReflect E (.array (.scalar (.int .u8)) 4) w with
          | none => simp [convPos, convField, optAll, hf, hi, hy] at h
          | some y =>
            simp [convPos, convField, optAll, hf, hi, hy] at h
            exact ⟨w, y, rfl, h.symm, .inr ⟨ht, hy⟩⟩
        · rintro ⟨w', a, h1, rfl, ⟨h2, rfl⟩ | ⟨_, h2⟩⟩
          · cases h1; exact absurd h2 ht
          · cases h1; simp [convPos, convField, optAll, hf, hi, h2]
  · simp [hk]

/-- C64: unlike an option of an array, a colour can be made from itself. -/
theorem C64_color_from_itself {n : String} (hd : E.decl n = some colorRgba8Def) {x : Obj}
    (h : HasTy E (.named n) x) : fromReflect E (.named n) x = some x := by
  obtain ⟨a, ha, rfl⟩ := (C64_color_values hd x).mp h
  refine (C64_color_from_reflect hd _ _).mpr ⟨rfl, a, a, ?_, rfl, .inl ⟨?_, rfl⟩⟩
  · simp [Obj.fieldAt, visAt, ha.not_hidden]
  · generalize ht : Ty.array (.scalar (.int .u8)) 4 = t at ha
    cases ha with
    | array t xs => injection ht with h1 h2; subst h1; simp [Obj.typeOf, ← h2]
    | _ => cases ht

/-! ## `RangeFull` and `Infallible` -/

/-- C64: `RangeFull` has one value, and every struct converts to it. -/
theorem C64_range_full {n : String} (hd : E.decl n = some rangeFullDef) (o x : Obj) :
    (HasTy E (.named n) x ↔ x = .struct (.derived n) []) ∧
    (fromReflect E (.named n) o = some x ↔ o.kind = .struct ∧ x = .struct (.derived n) []) := by
  constructor
  · constructor
    · intro h
      cases h with
      | struct _ fds c fs hd' e1 =>
        rw [hd] at hd'; cases hd'
        simp at e1; rw [e1]
      | tupleStruct _ _ _ _ hd' => rw [hd] at hd'; cases hd'
      | enumS _ _ _ _ _ _ hd' => rw [hd] at hd'; cases hd'
      | enumT _ _ _ _ _ _ hd' => rw [hd] at hd'; cases hd'
      | enumU _ _ _ _ hd' => rw [hd] at hd'; cases hd'
    · rintro rfl
      exact .struct n _ _ _ hd rfl (by simp) (by simp)
  · rw [fromReflect_struct hd]
    by_cases hk : o.kind = .struct <;> simp [hk, optAll, eq_comm]

/-- C64: `Infallible` has no values, nothing converts to it, and it has no default. -/
theorem C64_infallible (hD : DeclsOK E) {n : String} (hd : E.decl n = some infallibleDef) :
    (∀ x, ¬ HasTy E (.named n) x) ∧ (∀ o, fromReflect E (.named n) o = none) ∧
    ∀ f d, describe E f (.named n) = some d → ∀ fuel,
      defaultValue d.graph (fuel + 1) d.root = some none ∧
      hasDefault d.graph (fuel + 1) d.root = some false := by
  refine ⟨fun x h => ?_, fun o => ?_, fun f d h fuel => ?_⟩
  · rcases enum_inv hd h with ⟨vn, fds, fs, hm, _⟩ | ⟨vn, fds, fs, hm, _⟩ | ⟨vn, hm, _⟩ <;> simp at hm
  · rw [fromReflect_enum hd]; cases o.variantName <;> simp
  · obtain ⟨node, hn⟩ := descriptor_closed hD h .root
    have hr := descriptor_root hD h
    obtain ⟨hdesc, _⟩ := describe_graphOK hD h _ _ hn
    rw [hr] at hdesc hn ⊢
    simp only [Ty.unbox] at hdesc hn ⊢
    cases hdesc with
    | struct _ _ _ _ _ hd' => rw [hd] at hd'; cases hd'
    | tupleStruct _ _ _ hd' => rw [hd] at hd'; cases hd'
    | enum _ vds c vs hd' hlen hv =>
      rw [hd] at hd'; cases hd'
      match vs, hlen with
      | [], _ => simp [defaultValue, hasDefault, hn]

/-! ## All of them -/

/-- C64: the library's declarations are legal and skip nothing. -/
theorem C64_lib_legal (hL : ∀ n d, E.decl n = some d → LibDef d) : DeclsOK E ∧ NoSkips E := by
  refine ⟨⟨fun n fds c h => ?_, fun n vds c h => ?_, fun n vds c vn fds h hm => ?_⟩,
    fun n fds c h => ?_, fun n fds c h => ?_, fun n vds c vn fds h hm => ?_⟩
  all_goals
    have hl := hL _ _ h
    generalize hq : TyDef.mk _ _ = q at hl
    cases hl <;> cases hq <;> first | simp at hm | skip
  all_goals first
    | (simp [VariantDef.name]; done)
    | (intro fd hfd; simp at hfd; rcases hfd with rfl | rfl | rfl <;> rfl)
    | (intro fd hfd; simp at hfd; rcases hfd with rfl | rfl <;> rfl)
    | (intro fd hfd; simp at hfd; subst hfd; rfl)
    | (rcases hm with ⟨_, rfl⟩ | ⟨_, rfl⟩ <;> simp)
    | (obtain ⟨_, rfl⟩ := hm; simp)
    | simp

/-- C64: types made of the library's types, built-in types, lists, arrays, tuples and maps survive the
round trip through `Value`. -/
theorem C64_lib_roundtrip (hL : ∀ n d, E.decl n = some d → LibDef d) (hO : OrdLaws E) (hK : KeysShown E)
    {T : Ty} {x : Obj} (h : HasTy E T x) : fromReflect E T x.toValue.toObj = some x :=
  C01_roundtrip (C64_lib_legal hL).1 hO hK (C64_lib_legal hL).2 h

/-! ## A concrete case -/

/-- `Option<u8>`, `Option<[u8; 2]>`, `Result<u8, String>`, `Range<Option<u8>>`, `RangeFull`,
`Infallible`, `ColorRgba8`. -/
def libEnv : Env := valueOrdEnv fun
  | "Option<u8>" => some (optionDef (.scalar (.int .u8)))
  | "Option<[u8; 2]>" => some (optionDef (.array (.scalar (.int .u8)) 2))
  | "Result<u8, String>" => some (resultDef (.scalar (.int .u8)) (.scalar .string))
  | "Range<Option<u8>>" => some (rangeDef (.named "Option<u8>"))
  | "RangeFull" => some rangeFullDef
  | "Infallible" => some infallibleDef
  | "ColorRgba8" => some colorRgba8Def
  | _ => none

theorem libEnv_lib (n : String) (d : TyDef) (h : libEnv.decl n = some d) : LibDef d := by
  simp only [libEnv, valueOrdEnv] at h
  split at h <;> cases h
  all_goals first
    | exact .option _ | exact .result _ _ | exact .range _ | exact .rangeFull | exact .infallible
    | exact .colorRgba8

/-- `Some(7)`, `None`, `Some([1, 2])`, `Err("no")`, `None..Some(7)` are values, and come back from
`Value`. -/
example :
    let some7 := optSome "Option<u8>" (.scalar (.int .u8 7))
    let none8 := optNone "Option<u8>"
    let arr := optSome "Option<[u8; 2]>" (.array (.scalar (.int .u8)) [.scalar (.int .u8 1), .scalar (.int .u8 2)])
    let err := resErr "Result<u8, String>" (.scalar (.string "no"))
    let r := rangeOf "Range<Option<u8>>" none8 some7
    HasTy libEnv (.named "Option<u8>") some7 ∧
    HasTy libEnv (.named "Option<[u8; 2]>") arr ∧
    HasTy libEnv (.named "Result<u8, String>") err ∧
    HasTy libEnv (.named "Range<Option<u8>>") r ∧
    fromReflect libEnv (.named "Range<Option<u8>>") r.toValue.toObj = some r ∧
    fromReflect libEnv (.named "Option<[u8; 2]>") arr.toValue.toObj = some arr ∧
    fromReflect libEnv (.named "Option<[u8; 2]>") arr = none := by
  intro some7 none8 arr err r
  have h7 : HasTy libEnv (.named "Option<u8>") some7 :=
    (C64_option_values (t := .scalar (.int .u8)) rfl _).mpr (.inr ⟨_, HasTy.scalar' rfl, rfl⟩)
  have h0 : HasTy libEnv (.named "Option<u8>") none8 :=
    (C64_option_values (t := .scalar (.int .u8)) rfl _).mpr (.inl rfl)
  have ha : HasTy libEnv (.named "Option<[u8; 2]>") arr := by
    refine (C64_option_values (t := .array (.scalar (.int .u8)) 2) rfl _).mpr (.inr ⟨_, ?_, rfl⟩)
    refine HasTy.array (.scalar (.int .u8)) [.scalar (.int .u8 1), .scalar (.int .u8 2)] fun x hx => ?_
    simp at hx
    rcases hx with rfl | rfl <;> exact HasTy.scalar' rfl
  have hr : HasTy libEnv (.named "Range<Option<u8>>") r :=
    (C64_range_values (t := .named "Option<u8>") rfl _).mpr ⟨_, _, h0, h7, rfl⟩
  have rt := fun T x h => C64_lib_roundtrip (T := T) (x := x) libEnv_lib (valueOrdEnv_ordLaws _)
    (valueOrdEnv_keysShown _) h
  exact ⟨h7, ha, (C64_result_values (t := .scalar (.int .u8)) (e := .scalar .string) rfl _).mpr
    (.inr ⟨_, HasTy.scalar' rfl, rfl⟩), hr, rt _ _ hr, rt _ _ ha,
    C64_option_of_array_fails (t := .scalar (.int .u8)) (len := 2) rfl _⟩

/-- Both have descriptors, so the theorems on defaults speak about something. -/
example : (∃ d, describe libEnv 10 (.named "Option<u8>") = some d) ∧
    (∃ d, describe libEnv 10 (.named "Result<u8, String>") = some d) ∧
    (∃ d, describe libEnv 10 (.named "Infallible") = some d) :=
  ⟨⟨_, rfl⟩, ⟨_, rfl⟩, ⟨_, rfl⟩⟩

/-- A colour comes back from itself and from a tuple struct with a list of four bytes. -/
example :
    let bytes : List Obj := [.scalar (.int .u8 1), .scalar (.int .u8 2), .scalar (.int .u8 3), .scalar (.int .u8 4)]
    let c : Obj := .tupleStruct (.derived "ColorRgba8") [.array (.scalar (.int .u8)) bytes]
    HasTy libEnv (.named "ColorRgba8") c ∧ fromReflect libEnv (.named "ColorRgba8") c = some c ∧
      fromReflect libEnv (.named "ColorRgba8") c.toValue.toObj = some c := by
  intro bytes c
  have hc : HasTy libEnv (.named "ColorRgba8") c := by
    refine (C64_color_values rfl _).mpr ⟨_, HasTy.array (.scalar (.int .u8)) bytes fun x hx => ?_, rfl⟩
    simp [bytes] at hx
    rcases hx with rfl | rfl | rfl | rfl <;> exact HasTy.scalar' rfl
  exact ⟨hc, C64_color_from_itself rfl hc, C64_lib_roundtrip libEnv_lib (valueOrdEnv_ordLaws _)
    (valueOrdEnv_keysShown _) hc⟩

end Mirror
