import Verif.Lemmas.DefaultExact
import Verif.Props.TypePath
import Verif.Props.RoundTrip

set_option linter.unusedSimpArgs false

/-!
# Default values (C38, C39, C40)

`defaultValue d.graph fuel d.root` and `hasDefault d.graph fuel d.root` are `default_value` and
`has_default_value` on a finished descriptor. They are `some r` if the call returns `r` within a call depth
of `fuel`. A call that is `none` for every `fuel` never returns.
-/

namespace Mirror

variable {E : Env}

/-! ## C38 -/

/-- C38, where skipped positional fields come last. If `default_value` returns a value, it converts to the
type, and the result is a proper value of the type whose `to_value` is the default. Missing: declarations
with a skipped field before a reflected one in a tuple struct or tuple variant, for which it is false
(`default_value_converts_fails_skip`). -/
theorem default_value_converts_partial (hD : DeclsOK E) (hO : OrdLaws E) (hS : SkipsLast E) {n fuel t d v}
    (hd : describe E n t = some d) (h : defaultValue d.graph fuel d.root = some (some v)) :
    ∃ y, fromReflect E t v.toObj = some y ∧ HasTy E t y ∧ y.toValue = v := by
  have hr := (describe_good hD hd).1
  rw [hr] at h
  obtain ⟨hw, y, hy, h1, _⟩ := conv_unbox (default_conv hD (describe_graphOK hD hd) _ _ _ (hS.clean _) h)
  exact ⟨y, hy, fromReflect_sound hO t _ hw.ok hy, h1⟩

/-- C38 fails for misplaced skips: the default of a tuple struct with a skipped field before a reflected one
never converts to the type. -/
theorem default_value_converts_fails_skip (hD : DeclsOK E) {n : String} {fds : List FieldDef} {c : Bool}
    {i j : Nat} {fi fj : FieldDef} (hdecl : E.decl n = some ⟨.tupleStruct fds, c⟩)
    (hi : fds[i]? = some fi) (hj : fds[j]? = some fj) (hsi : fi.skip = true) (hsj : fj.skip = false)
    (hij : i < j) {f fuel d v} (hd : describe E f (.named n) = some d)
    (h : defaultValue d.graph fuel d.root = some (some v)) :
    fromReflect E (.named n) v.toObj = none := by
  have hr : d.root = .named n := (describe_good hD hd).1
  rw [hr] at h
  obtain ⟨node, hn⟩ := describe_root_node hD hd
  rw [hr] at hn
  have hg := (describe_graphOK hD hd _ _ hn).1
  cases fuel with
  | zero => cases h
  | succ fuel =>
  generalize he : Ty.named n = q at hg
  cases hg <;> cases he
  case succ.struct.refl => simp_all
  case succ.enum.refl => simp_all
  case succ.tupleStruct.refl fds' c' h' =>
    rw [hdecl] at h'; cases h'
    simp only [defaultValue, hn] at h
    obtain ⟨r, hr, h⟩ := Option.map_eq_some_iff.mp h
    obtain ⟨vs, rfl, rfl⟩ := Option.map_eq_some_iff.mp h
    have hlen := (defaultPos_some.mp hr).length_eq
    rw [fromReflect_tupleStruct hdecl, conv_pos_short hi hj hsi hsj hij]
    · simp
    · intro k hk
      simp only [Value.toObj, Obj.fieldAt, toObj_visAt, Option.map_eq_none_iff, List.getElem?_eq_none_iff]
      simp only [List.length_map] at hlen
      rw [← hlen]; exact hk

/-- C38, exactly: the default of a type converts, to a proper value of the type whose `to_value` is the
default, if and only if none of the types it is made up of has a skipped field before a reflected one in
its tuple struct or in its first variant, a tuple variant. -/
theorem C38_converts_iff (hD : DeclsOK E) (hO : OrdLaws E) {n fuel t d v}
    (hd : describe E n t = some d) (h : defaultValue d.graph fuel d.root = some (some v)) :
    (∃ y, fromReflect E t v.toObj = some y ∧ HasTy E t y ∧ y.toValue = v) ↔
      ∀ u, t.Needs E u → ¬ u.DefaultGap E := by
  have hr := (describe_good hD hd).1
  rw [hr] at h
  constructor
  · rintro ⟨y, hy, _⟩
    exact NeedsClean.unbox_iff.mp (default_clean hD (describe_graphOK hD hd) _ _ _ y h
      (by rw [fromReflect_unbox]; exact hy))
  · intro hC
    obtain ⟨hw, y, hy, h1, _⟩ := conv_unbox (default_conv hD (describe_graphOK hD hd) _ _ _
      (NeedsClean.unbox_iff.mpr hC) h)
    exact ⟨y, hy, fromReflect_sound hO t _ hw.ok hy, h1⟩

/-- C38, the other side: the default does not convert at all if and only if there is such a type. -/
theorem C38_fails_iff (hD : DeclsOK E) (hO : OrdLaws E) {n fuel t d v}
    (hd : describe E n t = some d) (h : defaultValue d.graph fuel d.root = some (some v)) :
    fromReflect E t v.toObj = none ↔ ∃ u, t.Needs E u ∧ u.DefaultGap E := by
  have := C38_converts_iff hD hO hd h
  constructor
  · intro hn
    by_contra hc
    obtain ⟨y, hy, _⟩ := this.mpr fun u hu hg => hc ⟨u, hu, hg⟩
    rw [hn] at hy; cases hy
  · rintro ⟨u, hu, hg⟩
    cases hy : fromReflect E t v.toObj with
    | none => rfl
    | some y =>
      have hr := (describe_good hD hd).1
      rw [hr] at h
      exact absurd hg (NeedsClean.unbox_iff.mp (default_clean hD (describe_graphOK hD hd) _ _ _ y h
        (by rw [fromReflect_unbox]; exact hy)) u hu)

/-- Such a type deep inside: a pair of a number and `Shifted`. -/
example : ∃ d v, describe shiftedEnv 10 (.tuple [.scalar .bool, .named "Shifted"]) = some d ∧
    defaultValue d.graph 10 d.root = some (some v) ∧
    fromReflect shiftedEnv (.tuple [.scalar .bool, .named "Shifted"]) v.toObj = none := by
  refine ⟨_, _, rfl, rfl, ?_⟩
  refine (C38_fails_iff (n := 10) (fuel := 10) shifted_declsOK (valueOrdEnv_ordLaws _) rfl rfl).mpr
    ⟨.named "Shifted", .step _ _ _ .refl rfl (by simp), "Shifted", _, rfl, .inl ⟨_, rfl, 0, 1, _, _, rfl, rfl, rfl, rfl, by decide⟩⟩

/-- Such a default exists. -/
example : ∃ d v, describe shiftedEnv 10 (.named "Shifted") = some d ∧
    defaultValue d.graph 10 d.root = some (some v) ∧
    fromReflect shiftedEnv (.named "Shifted") v.toObj = none := by
  refine ⟨_, _, rfl, rfl, ?_⟩
  exact default_value_converts_fails_skip (n := "Shifted") (i := 0) (j := 1) (f := 10) (fuel := 10)
    shifted_declsOK rfl rfl rfl rfl rfl (by decide) rfl rfl

/-! ## C39 -/

theorem needs_comps {all : Bool} {t : Ty} {us : List Ty} (h : t.needs E all = some us) :
    ∀ u ∈ us, u ∈ t.comps E := by
  intro u hu
  unfold Ty.needs at h
  split at h
  · cases h; simp at hu
  · cases h; simp at hu
  · cases h; simp at hu
  · cases h
    split at hu
    · simpa [Ty.comps] using hu
    · rw [List.eq_of_mem_replicate hu]; simp [Ty.comps]
  · cases h; exact hu
  · cases h; exact hu
  · split at h
    · next hd => cases h; simp only [Ty.comps, hd]; exact hu
    · next hd => cases h; simp only [Ty.comps, hd]; exact hu
    · next hd => cases h; simp only [Ty.comps, hd, List.flatMap_cons]; exact List.mem_append_left _ hu
    · next hd => cases h; simp only [Ty.comps, hd, List.flatMap_cons]; exact List.mem_append_left _ hu
    · cases h; simp at hu
    · cases h
    · cases h
  · cases h

/-- The two notions of what is needed differ only at arrays. -/
theorem needs_array {t : Ty} (h : ∀ u n, t ≠ .array u n) (all all' : Bool) :
    t.needs E all = t.needs E all' := by
  cases t <;> first | rfl | exact absurd rfl (h _ _)

theorem Defaultable.weaken {t : Ty} (h : Defaultable E true t) : Defaultable E false t := by
  induction h with
  | mk t us hu _ ih =>
    by_cases ha : ∃ u n, t = .array u n
    · obtain ⟨u, n, rfl⟩ := ha
      cases hu
      exact .mk _ (List.replicate n u) rfl fun w hw => by
        rw [List.eq_of_mem_replicate hw]; exact ih u (by simp)
    · exact .mk t us (by rw [← hu]; exact needs_array (fun u n e => ha ⟨u, n, e⟩) _ _) ih

theorem NoEmptyArrays.comp {t u : Ty} (h : NoEmptyArrays E t) (hu : u ∈ t.comps E) : NoEmptyArrays E u := by
  intro w hw
  have : ∀ {x}, u.Reach E x → t.Reach E x := by
    intro x hx
    induction hx with
    | refl => exact .step _ _ .refl hu
    | step a b _ hb ih => exact .step _ _ ih hb
  exact h w (this hw)

theorem Defaultable.strengthen {t : Ty} (h : Defaultable E false t) (hN : NoEmptyArrays E t) :
    Defaultable E true t := by
  induction h with
  | mk t us hu _ ih =>
    by_cases ha : ∃ u n, t = .array u n
    · obtain ⟨u, n, rfl⟩ := ha
      cases hu
      refine .mk _ [u] rfl fun w hw => ?_
      simp only [List.mem_singleton] at hw; subst hw
      cases n with
      | zero => exact absurd .refl (hN w)
      | succ n => exact ih w (by simp) (hN.comp (by simp [Ty.comps]))
    · exact .mk t us (by rw [← hu]; exact needs_array (fun u n e => ha ⟨u, n, e⟩) _ _) fun w hw =>
        ih w hw (hN.comp (needs_comps hu w hw))

theorem default_some_iff {g : TypeGraph} {id : Ty} :
    (∃ fuel v, defaultValue g fuel id = some (some v)) ↔
      ∃ fuel, (defaultValue g fuel id).map (·.isSome) = some true := by
  constructor
  · rintro ⟨fuel, v, h⟩; exact ⟨fuel, by simp [h]⟩
  · rintro ⟨fuel, h⟩
    rcases hd : defaultValue g fuel id with _ | _ | v
    · simp [hd] at h
    · simp [hd] at h
    · exact ⟨fuel, v, hd⟩

theorem default_none_iff {g : TypeGraph} {id : Ty} {fuel : Nat} :
    defaultValue g fuel id = some none ↔ (defaultValue g fuel id).map (·.isSome) = some false := by
  rcases defaultValue g fuel id with _ | _ | v <;> simp

theorem root_node (hD : DeclsOK E) {n t d} (hd : describe E n t = some d) :
    ∃ m, d.graph.node t.unbox = some m := by
  rw [← (describe_good hD hd).1]; exact describe_root_node hD hd

/-- C39, one half, for every type: if `has_default_value` says `true`, then `default_value` returns a
value. -/
theorem has_default_sound (hD : DeclsOK E) {n fuel t d} (hd : describe E n t = some d)
    (h : hasDefault d.graph fuel d.root = some true) :
    ∃ fuel' v, defaultValue d.graph fuel' d.root = some (some v) := by
  have hG := describe_graphOK hD hd
  rw [default_some_iff]
  rw [(describe_good hD hd).1] at h ⊢
  exact ((default_follows hG).true_iff (root_node hD hd)).mpr
    (((has_follows hG).true_iff (root_node hD hd)).mp ⟨fuel, h⟩).weaken

theorem asks_iff {t u : Ty} (hN : NoEmptyArrays E t) : Asks E true u t ↔ Asks E false u t := by
  have dd : ∀ {pre us : List Ty} {post} {all}, t.needs E all = some us → us = pre ++ u :: post →
      ((∀ w ∈ pre, Defaultable E true w) ↔ ∀ w ∈ pre, Defaultable E false w) := by
    intro pre us post all h e
    refine forall₂_congr fun w hw => ⟨fun h => h.weaken, fun h' => h'.strengthen ?_⟩
    exact hN.comp (needs_comps h w (by rw [e]; simp [hw]))
  by_cases ha : ∃ w n, t = .array w n
  · obtain ⟨w, n, rfl⟩ := ha
    have : ∀ all, Asks E all u (.array w n) ↔ u = w := by
      intro all
      constructor
      · rintro ⟨pre, post, h, _⟩
        have hu : u ∈ (pre ++ u :: post) := by simp
        have := needs_comps h u hu
        simpa [Ty.comps] using this
      · rintro rfl
        cases all with
        | true => exact ⟨[], [], rfl, by simp⟩
        | false =>
          cases n with
          | zero => exact absurd .refl (hN u)
          | succ n => exact ⟨[], List.replicate n u, rfl, by simp⟩
    rw [this, this]
  · have he := needs_array (E := E) (fun u n e => ha ⟨u, n, e⟩) true false
    constructor
    · rintro ⟨pre, post, h, hp⟩
      exact ⟨pre, post, by rw [← he]; exact h, (dd h rfl).mp hp⟩
    · rintro ⟨pre, post, h, hp⟩
      exact ⟨pre, post, by rw [he]; exact h, (dd h rfl).mpr hp⟩

theorem asks_comps {all : Bool} {t u : Ty} (h : Asks E all u t) : u ∈ t.comps E := by
  obtain ⟨pre, post, h, _⟩ := h
  exact needs_comps h u (by simp)

theorem acc_asks {t : Ty} (hN : NoEmptyArrays E t) : Acc (Asks E true) t ↔ Acc (Asks E false) t := by
  constructor
  · intro h
    induction h with
    | intro t _ ih => exact ⟨_, fun u hu => ih u ((asks_iff hN).mpr hu) (hN.comp (asks_comps hu))⟩
  · intro h
    induction h with
    | intro t _ ih => exact ⟨_, fun u hu => ih u ((asks_iff hN).mp hu) (hN.comp (asks_comps hu))⟩

/-- The answer when it is not `true`. -/
theorem Follows.false_iff {g : TypeGraph} {all : Bool} {B : Nat → Ty → Option Bool}
    (hB : Follows E g all B) {t : Ty} (hn : ∃ m, g.node t.unbox = some m) :
    (∃ fuel, B fuel t.unbox = some false) ↔ Acc (Asks E all) t ∧ ¬ Defaultable E all t := by
  obtain ⟨m, hm⟩ := hn
  rw [← hB.answers_iff ⟨m, hm⟩, ← hB.true_iff ⟨m, hm⟩]
  constructor
  · rintro ⟨fuel, h⟩
    exact ⟨⟨fuel, _, h⟩, fun ⟨f, hf⟩ => by cases hB.det hm h hf⟩
  · rintro ⟨⟨fuel, r, h⟩, hc⟩
    cases r with
    | false => exact ⟨fuel, h⟩
    | true => exact absurd ⟨fuel, h⟩ hc

/-- C39 for types without arrays of length zero: `has_default_value` returns `true` exactly when
`default_value` returns `Some`, and `false` exactly when it returns `None`. Missing: arrays of length zero
(`has_default_fails_empty_array`). -/
theorem has_default_exact_partial (hD : DeclsOK E) {n t d} (hd : describe E n t = some d)
    (hN : NoEmptyArrays E t) :
    ((∃ fuel, hasDefault d.graph fuel d.root = some true) ↔
      ∃ fuel v, defaultValue d.graph fuel d.root = some (some v)) ∧
    ((∃ fuel, hasDefault d.graph fuel d.root = some false) ↔
      ∃ fuel, defaultValue d.graph fuel d.root = some none) := by
  have hG := describe_graphOK hD hd
  have hr := root_node hD hd
  rw [default_some_iff]
  simp only [default_none_iff]
  rw [(describe_good hD hd).1]
  have h1 := (has_follows hG).true_iff hr
  have h2 := (default_follows hG).true_iff hr
  have h3 := (has_follows hG).false_iff hr
  have h4 := (default_follows hG).false_iff hr
  have hdd : Defaultable E true t ↔ Defaultable E false t := ⟨fun h => h.weaken, fun h => h.strengthen hN⟩
  refine ⟨h1.trans (hdd.trans h2.symm), h3.trans (Iff.trans ?_ h4.symm)⟩
  rw [acc_asks hN, hdd]

/-- Types with a default: exactly those all of whose needed components have one, whatever
`has_default_value` says. -/
theorem default_value_some_iff (hD : DeclsOK E) {n t d} (hd : describe E n t = some d) :
    (∃ fuel v, defaultValue d.graph fuel d.root = some (some v)) ↔ Defaultable E false t := by
  rw [default_some_iff, (describe_good hD hd).1]
  exact (default_follows (describe_graphOK hD hd)).true_iff (root_node hD hd)

/-- C39, exactly: `has_default_value` is `true` if and only if everything it looks at has a default,
where an array counts with its element type whatever its length. -/
theorem C39_has_default_true_iff (hD : DeclsOK E) {n t d} (hd : describe E n t = some d) :
    (∃ fuel, hasDefault d.graph fuel d.root = some true) ↔ Defaultable E true t := by
  rw [(describe_good hD hd).1]
  exact (has_follows (describe_graphOK hD hd)).true_iff (root_node hD hd)

/-- C39: for a type with a default, the two notions differ exactly if the default contains an array of
length zero whose element type has none. -/
theorem defaultable_differ_iff {t : Ty} (h : Defaultable E false t) :
    ¬ Defaultable E true t ↔ ∃ u, t.Needs E (.array u 0) ∧ ¬ Defaultable E true u := by
  constructor
  · intro hn
    by_contra hc
    refine hn ?_
    replace hc : ∀ u, t.Needs E (.array u 0) → Defaultable E true u := fun u hu => by
      by_contra h'; exact hc ⟨u, hu, h'⟩
    clear hn
    induction h with
    | mk t us hu hd ih =>
      have ih' : ∀ u ∈ us, Defaultable E true u := fun u hm => ih u hm fun w hw => hc w (.head hu hm hw)
      by_cases ha : ∃ u n, t = .array u n
      · obtain ⟨u, n, rfl⟩ := ha
        cases hu
        refine .mk _ [u] rfl ?_
        simp only [List.mem_singleton, forall_eq]
        cases n with
        | zero => exact hc u .refl
        | succ n => exact ih' u (by simp)
      · exact .mk _ us (by rw [needs_array (fun u n h => ha ⟨u, n, h⟩) true false]; exact hu) ih'
  · rintro ⟨u, hu, hn⟩ ht
    have : ∀ w, t.Needs E w → Defaultable E true w := by
      intro w hw
      induction hw with
      | refl => exact ht
      | step a b bs _ h1 h2 ih =>
        cases ih with
        | mk _ us hus hd =>
          by_cases ha : ∃ u n, a = .array u n
          · obtain ⟨u, n, rfl⟩ := ha
            cases hus; cases h1
            simp only [Bool.false_eq_true, if_false] at h2
            rw [List.eq_of_mem_replicate h2]
            exact hd u (by simp)
          · rw [needs_array (fun u n h => ha ⟨u, n, h⟩) false true, hus] at h1
            cases h1; exact hd _ h2
    cases this _ hu with
    | mk _ us hus hd => cases hus; exact hn (hd u (by simp))

/-- C39, exactly: `has_default_value` is `false` although `default_value` returns a value if and only if
the default contains an array of length zero whose element type has no default, and the call returns. -/
theorem C39_disagree_iff (hD : DeclsOK E) {n t d} (hd : describe E n t = some d) :
    ((∃ fuel, hasDefault d.graph fuel d.root = some false) ∧
      ∃ fuel v, defaultValue d.graph fuel d.root = some (some v)) ↔
    Acc (Asks E true) t ∧ Defaultable E false t ∧
      ∃ u, t.Needs E (.array u 0) ∧ ¬ Defaultable E true u := by
  rw [default_value_some_iff hD hd]
  have hf : (∃ fuel, hasDefault d.graph fuel d.root = some false) ↔
      Acc (Asks E true) t ∧ ¬ Defaultable E true t := by
    rw [(describe_good hD hd).1]
    exact (has_follows (describe_graphOK hD hd)).false_iff (root_node hD hd)
  rw [hf]
  constructor
  · rintro ⟨⟨h1, h2⟩, h3⟩
    exact ⟨h1, h3, (defaultable_differ_iff h3).mp h2⟩
  · rintro ⟨h1, h3, h2⟩
    exact ⟨⟨h1, (defaultable_differ_iff h3).mpr h2⟩, h3⟩

/-- C39: `(bool, [NonZeroU8; 0])` is such a type. -/
example : ∃ d, describe shiftedEnv 10 (.tuple [.scalar .bool, .array (.nonzero .u8) 0]) = some d ∧
    hasDefault d.graph 10 d.root = some false ∧
    defaultValue d.graph 10 d.root = some (some (.tuple [.scalar (.bool false), .list []])) :=
  ⟨_, rfl, rfl, rfl⟩

/-- C39 fails for arrays of length zero: the default of `[T; 0]` is the empty list, whatever `T`, but
`has_default_value` is `false` if `T` has no default. -/
theorem has_default_fails_empty_array (hD : DeclsOK E) {n u d} (hd : describe E n (.array u 0) = some d) :
    (∃ fuel, defaultValue d.graph fuel d.root = some (some (.list []))) ∧
    (¬ Defaultable E true u → ∀ fuel, hasDefault d.graph fuel d.root ≠ some true) := by
  have hG := describe_graphOK hD hd
  have hr : d.root = .array u 0 := (describe_good hD hd).1
  obtain ⟨m, hm⟩ := describe_root_node hD hd
  constructor
  · refine ⟨1, ?_⟩
    have h' := hG _ _ hm
    rw [hr] at hm h' ⊢
    have hd := h'.1
    cases hd
    simp [defaultValue, hm, defaultPos]
  · intro hu fuel h
    rw [hr] at h
    obtain ⟨_, us, hus, h⟩ := ((has_follows hG).true_iff (t := .array u 0)
      (root_node hD hd)).mp ⟨fuel, h⟩
    cases hus
    exact hu (h u (by simp))

/-- `[NonZeroU8; 0]`. -/
example : ∃ d, describe demoEnv 10 (.array (.nonzero .u8) 0) = some d ∧
    defaultValue d.graph 10 d.root = some (some (.list [])) ∧
    hasDefault d.graph 10 d.root = some false := ⟨_, rfl, rfl, rfl⟩

/-! ## C40 -/

theorem default_answers_iff {g : TypeGraph} {id : Ty} :
    (∃ fuel r, defaultValue g fuel id = some r) ↔
      ∃ fuel r, (defaultValue g fuel id).map (·.isSome) = some r := by
  refine exists_congr fun fuel => ?_
  rcases defaultValue g fuel id with _ | r
  · simp
  · simp

/-- When `default_value` returns: exactly if there is no infinite chain of types each asking for the default
of the next. -/
theorem default_value_terminates_iff (hD : DeclsOK E) {n t d} (hd : describe E n t = some d) :
    (∃ fuel r, defaultValue d.graph fuel d.root = some r) ↔ Acc (Asks E false) t := by
  rw [default_answers_iff, (describe_good hD hd).1]
  exact (default_follows (describe_graphOK hD hd)).answers_iff (root_node hD hd)

/-- The same for `has_default_value`. -/
theorem has_default_terminates_iff (hD : DeclsOK E) {n t d} (hd : describe E n t = some d) :
    (∃ fuel r, hasDefault d.graph fuel d.root = some r) ↔ Acc (Asks E true) t := by
  rw [(describe_good hD hd).1]
  exact (has_follows (describe_graphOK hD hd)).answers_iff (root_node hD hd)

theorem default_succ {g : TypeGraph} (hG : GraphOK E g) : ∀ fuel id node r, g.node id = some node →
    defaultValue g fuel id = some r → defaultValue g (fuel + 1) id = some r
  | 0, id, _, r, _, h => by cases h
  | fuel + 1, id, node, r, hn, h => by
    rcases default_shape hG hn with ⟨_, h'⟩ | ⟨us, _, hm, W, h'⟩
    · rw [h'] at h ⊢; exact h
    · rw [h'] at h ⊢
      obtain ⟨q, hq, rfl⟩ := Option.map_eq_some_iff.mp h
      rw [defaultPos_mono hq, Option.map_some]
      intro t ht r hr
      obtain ⟨u, hu, rfl⟩ := List.mem_map.mp ht
      obtain ⟨m, hm'⟩ := hm u hu
      exact default_succ hG fuel _ _ _ hm' hr

/-- The outcome of `default_value` does not depend on the depth bound. -/
theorem default_value_det (hD : DeclsOK E) {n t d} (hd : describe E n t = some d) {fuel fuel' : Nat} {r r'}
    (h : defaultValue d.graph fuel d.root = some r) (h' : defaultValue d.graph fuel' d.root = some r') :
    r = r' := by
  obtain ⟨m, hm⟩ := describe_root_node hD hd
  have mono : ∀ {a b : Nat} {r}, a ≤ b → defaultValue d.graph a d.root = some r →
      defaultValue d.graph b d.root = some r := by
    intro a b r hab ha
    induction hab with
    | refl => exact ha
    | step _ ih => exact default_succ (describe_graphOK hD hd) _ _ _ _ hm ih
  have := mono (Nat.le_max_left fuel fuel') h
  rw [mono (Nat.le_max_right fuel fuel') h'] at this
  exact (Option.some.inj this).symm

/-- The outcome of `has_default_value` does not depend on the depth bound. -/
theorem has_default_det (hD : DeclsOK E) {n t d} (hd : describe E n t = some d) {fuel fuel' : Nat} {r r'}
    (h : hasDefault d.graph fuel d.root = some r) (h' : hasDefault d.graph fuel' d.root = some r') :
    r = r' := by
  obtain ⟨m, hm⟩ := describe_root_node hD hd
  exact (has_follows (describe_graphOK hD hd)).det hm h h'

/-- C40 for types that do not contain themselves. Missing: recursive types, for which it can be false
(`default_value_diverges`); `default_value_terminates_iff` says exactly for which. -/
theorem default_value_terminates_partial (hD : DeclsOK E) {n t d} (hd : describe E n t = some d)
    (h : Acc (fun u v => u ∈ v.comps E) t) :
    (∃ fuel r, defaultValue d.graph fuel d.root = some r) ∧
    (∃ fuel r, hasDefault d.graph fuel d.root = some r) := by
  rw [default_value_terminates_iff hD hd, has_default_terminates_iff hD hd]
  have : ∀ all, Acc (Asks E all) t := by
    intro all
    clear hd
    induction h with
    | intro t _ ih => exact ⟨_, fun u hu => ih u (asks_comps hu)⟩
  exact ⟨this _, this _⟩

theorem acc_irrefl {α} {r : α → α → Prop} {a : α} (h : Acc r a) : ¬ r a a := by
  induction h with
  | intro a _ ih => exact fun h => ih a h h

/-- C40 fails: a type that asks, possibly through other types, for its own default never gets it. -/
theorem default_value_diverges (hD : DeclsOK E) {n t d} (hd : describe E n t = some d)
    (h : Relation.TransGen (Asks E false) t t) (fuel : Nat) :
    defaultValue d.graph fuel d.root = none := by
  cases hc : defaultValue d.graph fuel d.root with
  | none => rfl
  | some r =>
    exfalso
    have := ((default_value_terminates_iff hD hd).mp ⟨fuel, r, hc⟩).transGen
    exact acc_irrefl this h

/-- The same for `has_default_value`. -/
theorem has_default_diverges (hD : DeclsOK E) {n t d} (hd : describe E n t = some d)
    (h : Relation.TransGen (Asks E true) t t) (fuel : Nat) :
    hasDefault d.graph fuel d.root = none := by
  cases hc : hasDefault d.graph fuel d.root with
  | none => rfl
  | some r =>
    exfalso
    have := ((has_default_terminates_iff hD hd).mp ⟨fuel, r, hc⟩).transGen
    exact acc_irrefl this h

/-- `enum Expr { Neg(Operand), Lit(i32) }`, `struct Operand { expr: Box<Expr> }` and
`struct Nest { a: [Nest; 0] }`. -/
def exprEnv : Env := valueOrdEnv fun n =>
  if n = "Expr" then
    some ⟨.enum [.tuple "Neg" [⟨"", .named "Operand", false⟩], .tuple "Lit" [⟨"", .scalar (.int .i32), false⟩]],
      false⟩
  else if n = "Operand" then some ⟨.struct [⟨"expr", .box (.named "Expr"), false⟩], false⟩
  else if n = "Nest" then some ⟨.struct [⟨"a", .array (.named "Nest") 0, false⟩], false⟩
  else none

theorem expr_declsOK : DeclsOK exprEnv where
  struct_names n fds c h := by
    simp only [exprEnv, valueOrdEnv] at h
    split at h
    · simp at h
    · split at h
      · simp at h; simp [← h.1]
      · split at h
        · simp at h; simp [← h.1]
        · simp at h
  variant_names n vds c h := by
    simp only [exprEnv, valueOrdEnv] at h
    split at h
    · simp at h; simp [← h.1, VariantDef.name]
    · split at h
      · simp at h
      · split at h <;> simp at h
  variant_fields n vds c vn fds h hv := by
    simp only [exprEnv, valueOrdEnv] at h
    split at h
    · simp at h; simp [← h.1] at hv
    · split at h
      · simp at h
      · split at h <;> simp at h

/-- Both have descriptors, but `Expr` has no computable default. -/
theorem expr_diverges : ∃ d, describe exprEnv 20 (.named "Expr") = some d ∧
    ∀ fuel, defaultValue d.graph fuel d.root = none := by
  refine ⟨_, rfl, default_value_diverges (n := 20) (t := .named "Expr") expr_declsOK rfl ?_⟩
  have h1 : Asks exprEnv false (.named "Operand") (.named "Expr") := ⟨[], [], rfl, by simp⟩
  have h2 : Asks exprEnv false (.box (.named "Expr")) (.named "Operand") := ⟨[], [], rfl, by simp⟩
  have h3 : Asks exprEnv false (.named "Expr") (.box (.named "Expr")) := ⟨[], [], rfl, by simp⟩
  exact .tail (.tail (.single h3) h2) h1

/-- `Nest` has a default, but `has_default_value` never returns. -/
theorem nest_diverges : ∃ d, describe exprEnv 20 (.named "Nest") = some d ∧
    (∃ v, defaultValue d.graph 20 d.root = some (some v)) ∧
    ∀ fuel, hasDefault d.graph fuel d.root = none := by
  refine ⟨_, rfl, ⟨_, rfl⟩, has_default_diverges (n := 20) (t := .named "Nest") expr_declsOK rfl ?_⟩
  have h1 : Asks exprEnv true (.array (.named "Nest") 0) (.named "Nest") := ⟨[], [], rfl, by simp⟩
  have h2 : Asks exprEnv true (.named "Nest") (.array (.named "Nest") 0) := ⟨[], [], rfl, by simp⟩
  exact .tail (.single h2) h1

/-- A default in the demo universe. -/
example : ∃ d v, describe demoEnv 20 (.named "Point") = some d ∧
    defaultValue d.graph 20 d.root = some (some v) ∧ hasDefault d.graph 20 d.root = some true ∧
    ∃ y, fromReflect demoEnv (.named "Point") v.toObj = some y ∧ HasTy demoEnv (.named "Point") y ∧
      y.toValue = v := by
  refine ⟨_, _, rfl, rfl, rfl, ?_⟩
  exact default_value_converts_partial (n := 20) (fuel := 20) demo_declsOK demo_ordLaws demo_skipsLast rfl rfl

/-- An enum with a default. -/
example : ∃ d, describe demoEnv 20 (.named "Opt") = some d ∧
    ∃ v, defaultValue d.graph 20 d.root = some (some v) := by
  refine ⟨_, rfl, ?_⟩; exact ⟨_, rfl⟩

/-- `Point` does not contain itself and no empty arrays. -/
example : Acc (fun u v : Ty => u ∈ v.comps demoEnv) (Ty.named "Point") := by
  refine ⟨_, fun u hu => ?_⟩
  have : u = .scalar (.int .i32) ∨ u = .scalar .f32 := by
    simpa [Ty.comps, demoEnv, demoDecl, valueOrdEnv] using hu
  rcases this with rfl | rfl <;> exact ⟨_, fun w hw => by simp [Ty.comps] at hw⟩

example : NoEmptyArrays demoEnv (.named "Point") := by
  have : ∀ u, (Ty.named "Point").Reach demoEnv u →
      u = .named "Point" ∨ u = .scalar (.int .i32) ∨ u = .scalar .f32 := by
    intro u hu
    induction hu with
    | refl => simp
    | step a b _ hb ih =>
      rcases ih with rfl | rfl | rfl
      · have : b = .scalar (.int .i32) ∨ b = .scalar .f32 := by
          simpa [Ty.comps, demoEnv, demoDecl, valueOrdEnv] using hb
        exact .inr this
      · simp [Ty.comps] at hb
      · simp [Ty.comps] at hb
  intro u hu
  have := this _ hu
  simp at this

end Mirror
