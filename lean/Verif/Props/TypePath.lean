import Verif.Lemmas.TypePath
import Verif.Lemmas.Demo

set_option linter.unusedSimpArgs false

/-!
# Value paths and type paths (C29)

`d.typeAt p` is `type_at` on a finished descriptor: `none` if it panics, `some none` if it returns `None`,
`some (some ta)` if it finds the type or variant `ta`.
-/

namespace Mirror

variable {E : Env}

/-- C29 (and C33). `type_at` never panics, whatever the path. -/
theorem type_at_total (hD : DeclsOK E) {fuel t d} (h : describe E fuel t = some d) (p : KeyPath) :
    ∃ r, d.typeAt p = some r := by
  obtain ⟨n, hn⟩ := describe_root_node hD h
  obtain ⟨r, hr, _⟩ := typeAt_in (describe_graphOK hD h) p (ta := .ty d.root n) hn
  exact ⟨r, by simp [TypeDescriptor.typeAt, TypeAt.new, hn, hr]⟩

theorem ta_root (hD : DeclsOK E) {fuel t d} (h : describe E fuel t = some d) {x : Obj}
    (hx : HasTy E t x) : ∃ n, d.graph.node d.root = some n ∧ TA E d.graph t (.ty d.root n) x := by
  obtain ⟨n, hn⟩ := describe_root_node hD h
  have hr := (describe_good hD h).1
  refine ⟨n, hn, .ty _ _ _ hn ?_ ?_⟩
  · rw [hr]; exact reach_unbox t
  · rw [hr]; exact hasTy_unbox.mpr hx

theorem TA.isA (hD : DeclsOK E) {g : TypeGraph} {t ta x} (h : TA E g t ta x) : IsA E ta x := by
  cases h with
  | ty id n _ _ _ hx => exact .ty _ _ _ hx
  | variant n vds c vd v _ hdecl hvd hdv _ _ ho hv =>
    refine .variant _ n _ ho hv ?_
    have hnodup := hD.variant_names _ _ _ hdecl
    have hname := describesVariant_name hdv
    rcases enum_inv hdecl ho with ⟨vn, fds, fs, hm, rfl, _⟩ | ⟨vn, fds, fs, hm, rfl, _⟩ | ⟨vn, hm, rfl⟩ <;>
      simp only [Obj.variantName, Option.some.injEq] at hv
    · have : vd = .struct vn fds := variantDef_unique hnodup hvd hm (by rw [hname, ← hv]; rfl)
      subst this; cases hdv; rfl
    · have : vd = .tuple vn fds := variantDef_unique hnodup hvd hm (by rw [hname, ← hv]; rfl)
      subst this; cases hdv; rfl
    · have : vd = .unit vn := variantDef_unique hnodup hvd hm (by rw [hname, ← hv]; rfl)
      subst this; cases hdv; rfl

/-- `type_at` of a longer path continues where the shorter one ends. -/
theorem type_at_append {g : TypeGraph} (p q : KeyPath) (ta : TypeAt) :
    ta.typeAt g (p ++ q) = (ta.typeAt g p).bind fun r =>
      match r with
      | none => some none
      | some x => x.typeAt g q := by
  induction p generalizing ta with
  | nil => rfl
  | cons k p ih =>
    rw [List.cons_append, typeAtGo_cons, typeAtGo_cons]
    rcases ta.atKey g k with _ | _ | x
    · rfl
    · rfl
    · exact ih x

/-- C29, first half. If `type_at(p)` finds a type and `at(p)` finds a value, then the value is of that type; if
`type_at(p)` finds a variant, the value is in that variant. Missing: paths to an index with a skipped field before
it, for which `type_at` answers for another field (`type_at_shifted`). -/
theorem type_at_sound_partial (hD : DeclsOK E) {fuel t d}
    (h : describe E fuel t = some d) {x y : Obj} (hx : HasTy E t x) {p : KeyPath} (hc : ClearPath E x p)
    {ta : TypeAt} (ht : d.typeAt p = some (some ta)) (hy : atPath E x p = some y) : IsA E ta y := by
  obtain ⟨n, hn, hta⟩ := ta_root hD h hx
  simp only [TypeDescriptor.typeAt, TypeAt.new, hn, Option.map_some] at ht
  exact (ta_sound hD (describe_graphOK hD h) p hta hc hy ht).isA hD

/-- C29, second half, exactly, with the same restriction. A value path that spells out the variants it goes through
also exists as a type path, unless it goes on beyond a place whose type is `Value` or another dynamic type; and
then it does not. -/
theorem type_at_complete_partial (hD : DeclsOK E) {fuel t d}
    (h : describe E fuel t = some d) {x : Obj} (hx : HasTy E t x) {p : KeyPath} (hc : ClearPath E x p)
    (hp : SpelledOut E false x p) :
    (∃ ta, d.typeAt p = some (some ta)) ↔
      ¬ ∃ q k r id n, p = q ++ k :: r ∧ d.typeAt q = some (some (.ty id n)) ∧ id.Dyn := by
  obtain ⟨n, hn, hta⟩ := ta_root hD h hx
  have hG := describe_graphOK hD h
  have e : ∀ q, d.typeAt q = (TypeAt.ty d.root n).typeAt d.graph q := fun q => by
    simp [TypeDescriptor.typeAt, TypeAt.new, hn]
  simp only [e]
  constructor
  · rintro ⟨ta, hta'⟩ ⟨q, k, r, id, m, rfl, hq, hd⟩
    rw [type_at_append, hq] at hta'
    obtain ⟨r', hr', hin⟩ := typeAt_in hG q (ta := .ty d.root n) hn
    rw [hq] at hr'; cases hr'
    have hm : d.graph.node id = some m := hin _ rfl
    simp only [Option.bind_some] at hta'
    rw [typeAtGo_cons, dyn_stops hG hm hd] at hta'
    cases hta'
  · intro hno
    rcases ta_complete hD hG hp hta hc (by simp) with h | h
    · exact h
    · obtain ⟨q, k, r, id, m, a, b, c, _⟩ := h
      exact absurd ⟨q, k, r, id, m, a, b, c⟩ hno

/-- C29 for values without gaps: every path that leads somewhere is clear, so both halves hold for all of them. -/
theorem type_at_no_gaps (hD : DeclsOK E) (hO : OrdLaws E) {fuel t d}
    (h : describe E fuel t = some d) {x y : Obj} (hx : HasTy E t x) (hg : x.NoGaps) {p : KeyPath}
    (hy : atPath E x p = some y) :
    (∀ ta, d.typeAt p = some (some ta) → IsA E ta y) ∧
    (SpelledOut E false x p → (∃ ta, d.typeAt p = some (some ta)) ∨
      ∃ q k r id n, p = q ++ k :: r ∧ d.typeAt q = some (some (.ty id n)) ∧ id.Dyn) := by
  have hc := hg.clearPath hO ⟨t, hx⟩ hy
  refine ⟨fun ta ht => type_at_sound_partial hD h hx hc ht hy, fun hp => ?_⟩
  have := type_at_complete_partial hD h hx hc hp
  by_cases hq : ∃ q k r id n, p = q ++ k :: r ∧ d.typeAt q = some (some (.ty id n)) ∧ id.Dyn
  · exact .inr hq
  · exact .inl (this.mpr hq)

/-- C29 for types without dynamic components. -/
theorem type_at_complete_static (hD : DeclsOK E) {fuel t d}
    (h : describe E fuel t = some d) (hT : Static E t) {x : Obj} (hx : HasTy E t x) {p : KeyPath}
    (hc : ClearPath E x p) (hp : SpelledOut E false x p) : ∃ ta, d.typeAt p = some (some ta) := by
  obtain ⟨n, hn, hta⟩ := ta_root hD h hx
  have hG := describe_graphOK hD h
  have e : ∀ q, d.typeAt q = (TypeAt.ty d.root n).typeAt d.graph q := fun q => by
    simp [TypeDescriptor.typeAt, TypeAt.new, hn]
  simp only [e]
  rcases ta_complete hD hG hp hta hc (by simp) with h | ⟨_, _, _, id, _, _, _, hd, hr⟩
  · exact h
  · have := hT id hr
    rcases hd with h | h | h | h | h <;> simp_all

/-- C29, where it fails, for every type and value: if the path takes the field at index `i` and a field before it is
skipped, then `type_at` finds nothing there or finds the type of a later field. -/
theorem type_at_shifted (hD : DeclsOK E) {fuel t d}
    (h : describe E fuel t = some d) {x z y : Obj} (hx : HasTy E t x) {q : KeyPath} (hc : ClearPath E x q)
    {i j : Nat} (hz : atPath E x q = some z) (hy : atPath E x (q ++ [.numbered i]) = some y) (hj : j < i)
    (hg : z.fieldAt j = none) :
    d.typeAt (q ++ [.numbered i]) = some none ∨
    ∃ ta k w, d.typeAt (q ++ [.numbered i]) = some (some ta) ∧ i < k ∧ z.fieldAt k = some w ∧ IsA E ta w := by
  obtain ⟨n, hn, hta⟩ := ta_root hD h hx
  have hG := describe_graphOK hD h
  have e : ∀ q, d.typeAt q = (TypeAt.ty d.root n).typeAt d.graph q := fun q => by
    simp [TypeDescriptor.typeAt, TypeAt.new, hn]
  simp only [e]
  rw [type_at_append]
  obtain ⟨r, hr, _⟩ := typeAt_in hG q (ta := .ty d.root n) hn
  rw [hr]
  cases r with
  | none => exact .inl rfl
  | some ta =>
    have hta' := ta_sound hD hG q hta hc hz hr
    have hy' : z.atKey E (.numbered i) = some y := by
      rw [atPath_append, hz] at hy
      simp only [Option.bind_some] at hy
      rw [atPath_cons] at hy
      obtain ⟨w, hw, hy⟩ := Option.bind_eq_some_iff.mp hy
      rw [atPath_nil] at hy; cases hy; exact hw
    simp only [Option.bind_some]
    rw [typeAtGo_cons]
    rcases ta_shift hD hG hta' hy' hj hg with h1 | ⟨ta', k, w, h1, h2, h3, h4⟩
    · left; rw [h1]; rfl
    · right; exact ⟨ta', k, w, by rw [h1]; rfl, h2, h3, h4.isA hD⟩

/-- The path `.kids[0].val` in a tree: both sides exist. -/
example : ∃ d, describe demoEnv 10 (.named "Tree") = some d ∧
    d.typeAt [.named "kids", .get (.scalar (.int .i32 0)), .named "val"] =
      some (some (.ty (.nonzero .u8) .opaque)) ∧
    HasTy demoEnv (.named "Tree") demoTree ∧
    atPath demoEnv demoTree [.named "kids", .get (.scalar (.int .i32 0)), .named "val"] =
      some (.nonzero .u8 9) := by
  refine ⟨_, rfl, ?_, demoTree_hasTy, ?_⟩
  · rfl
  · rfl

/-- The path `::Some.0.x` in `Opt::Some(Point)` spells out its variant. -/
example : SpelledOut demoEnv false (.enumT (.derived "Opt") "Some" [demoPoint])
    [.variant "Some", .numbered 0, .named "x"] := by
  refine .variant _ _ _ _ _ rfl (.other _ _ _ _ _ (by simp) (fun _ => rfl) rfl ?_)
  exact .other _ _ _ _ _ (by simp) (fun h => by cases h) rfl (.nil _ _)

/-- `Opt` has no dynamic components. -/
theorem opt_static : Static demoEnv (.named "Opt") := by
  have hS : ∀ u, (Ty.named "Opt").Reach demoEnv u →
      u ∈ [Ty.named "Opt", .named "Point", .scalar (.int .i32), .scalar .f32] := by
    intro u hu
    induction hu with
    | refl => decide
    | step u v _ hv ih =>
      have : ∀ u ∈ [Ty.named "Opt", .named "Point", .scalar (.int .i32), .scalar .f32],
        ∀ v ∈ u.comps demoEnv, v ∈ [Ty.named "Opt", .named "Point", .scalar (.int .i32), .scalar .f32] := by
        decide
      exact this u ih v hv
  intro u hu
  have h := hS u hu
  simp only [List.mem_cons, List.not_mem_nil, or_false] at h
  rcases h with rfl | rfl | rfl | rfl <;> simp

/-- In `Shifted(_, 5)` the path `.1` is not clear; in `Opt::Some(Point)` the path `::Some.0.x` is. -/
example : ¬ ClearPath demoEnv (.tupleStruct (.derived "Shifted") [.hidden 0, .scalar (.int .i32 5)]) [.numbered 1] ∧
    ClearPath demoEnv (.enumT (.derived "Opt") "Some" [demoPoint]) [.variant "Some", .numbered 0, .named "x"] := by
  constructor
  · intro h
    have := h [] 1 [] _ rfl (atPath_nil _ _) 0 (by decide)
    simp [Obj.fieldAt, visAt, Obj.isHidden] at this
  · rintro q i r z hp hz j hj
    rcases q with _ | ⟨a, _ | ⟨b, _ | ⟨c, q⟩⟩⟩ <;> simp at hp
    obtain ⟨_, rfl, _⟩ := hp
    omega

/-- The variant must be spelled out: `at` accepts `.0` on `Opt::Some(..)`, `type_at` does not. -/
example : ∃ d, describe demoEnv 10 (.named "Opt") = some d ∧ d.typeAt [.numbered 0] = some none ∧
    atPath demoEnv (.enumT (.derived "Opt") "Some" [demoPoint]) [.numbered 0] = some demoPoint :=
  ⟨_, rfl, rfl, rfl⟩

/-- `struct Shifted(#[reflect(skip)] bool, i32, String)`. -/
def shiftedEnv : Env := valueOrdEnv fun n => if n = "Shifted" then
    some ⟨.tupleStruct [⟨"", .scalar .bool, true⟩, ⟨"", .scalar (.int .i32), false⟩,
      ⟨"", .scalar .string, false⟩], false⟩
  else none

/-- `Shifted(_, 5, "a")`. -/
def shifted : Obj :=
  .tupleStruct (.derived "Shifted") [.hidden 0, .scalar (.int .i32 5), .scalar (.string "a")]

theorem shifted_declsOK : DeclsOK shiftedEnv where
  struct_names n fds c h := by
    simp only [shiftedEnv, valueOrdEnv] at h; split at h <;> simp at h
  variant_names n vds c h := by
    simp only [shiftedEnv, valueOrdEnv] at h; split at h <;> simp at h
  variant_fields n vds c vn fds h hv := by
    simp only [shiftedEnv, valueOrdEnv] at h; split at h <;> simp at h

theorem shifted_hasTy : HasTy shiftedEnv (.named "Shifted") shifted := by
  refine .tupleStruct _ _ false _ rfl rfl ?_ ?_
  · intro i fd x hfd hx hs
    match i with
    | 0 => simp at hx; subst hx; rfl
    | 1 => simp at hfd; subst hfd; simp at hs
    | 2 => simp at hfd; subst hfd; simp at hs
    | i + 3 => simp at hfd
  · intro i fd x hfd hx hs
    match i with
    | 0 => simp at hfd; subst hfd; simp at hs
    | 1 => simp at hfd hx; subst hfd hx; exact .scalar' rfl
    | 2 => simp at hfd hx; subst hfd hx; exact .scalar' rfl
    | i + 3 => simp at hfd

/-- C29 fails for a skipped field before reflected ones: for `Shifted(_, 5, "a")`, `type_at(.1)` is
`String`, `at(.1)` is the `i32`; and `at(.2)` exists while `type_at(.2)` does not. -/
theorem type_at_fails_skip : ∃ d, describe shiftedEnv 10 (.named "Shifted") = some d ∧
    HasTy shiftedEnv (.named "Shifted") shifted ∧
    d.typeAt [.numbered 1] = some (some (.ty (.scalar .string) (.scalar .string))) ∧
    atPath shiftedEnv shifted [.numbered 1] = some (.scalar (.int .i32 5)) ∧
    ¬ IsA shiftedEnv (.ty (.scalar .string) (.scalar .string)) (.scalar (.int .i32 5)) ∧
    d.typeAt [.numbered 2] = some none ∧
    atPath shiftedEnv shifted [.numbered 2] = some (.scalar (.string "a")) := by
  refine ⟨_, rfl, shifted_hasTy, rfl, rfl, ?_, rfl, rfl⟩
  rintro ⟨⟩
  next h =>
  generalize he : Ty.scalar .string = q at h
  cases h <;> simp [Scalar.kind] at he

end Mirror
