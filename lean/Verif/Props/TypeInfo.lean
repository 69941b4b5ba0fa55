import Verif.Lemmas.TypeInfo
import Verif.Lemmas.Demo

set_option linter.unusedSimpArgs false

/-!
# Type descriptors (C33, C34, C35)

`describe E fuel t = some d`: computing the descriptor of `t` succeeds within a call depth of `fuel`, and
`d` is the descriptor.
-/

namespace Mirror

variable {E : Env}

/-! ## C33: descriptors are closed -/

/-- C33. Navigation never panics: every id that can be reached from the root of a descriptor, through
fields, variants, elements, keys and values, can be looked up. -/
theorem descriptor_closed (hD : DeclsOK E) {fuel t d} (h : describe E fuel t = some d) {i : Ty}
    (hi : Nav d.graph d.root i) : ∃ n, d.graph.node i = some n := by
  obtain ⟨hr, hp, _, hg⟩ := describe_good hD h
  have : d.graph i ≠ none := by
    induction hi with
    | root => exact hp
    | step i n j hi hn hj ih =>
      obtain ⟨_, _, m, hm, _, hc⟩ := hg i ih
      have : n = m := by simpa [TypeGraph.node, hm] using hn.symm
      subst this
      exact hc j hj
  obtain ⟨_, _, n, hn, _⟩ := hg i this
  exact ⟨n, by simp [TypeGraph.node, hn]⟩

/-- C33. The looked-up name of every struct field exists too (`fields.get(name).unwrap()`). -/
theorem descriptor_fields_closed (hD : DeclsOK E) {fuel t d} (h : describe E fuel t = some d) {i : Ty}
    (hi : Nav d.graph d.root i) {names fields} (hn : d.graph.node i = some (.struct names fields)) :
    ∀ p ∈ namedTypes names fields, p.2.isSome := by
  obtain ⟨hr, hp, _, hg⟩ := describe_good hD h
  have : d.graph i ≠ none := by
    intro he; simp [TypeGraph.node, he] at hn
  obtain ⟨_, _, m, hm, hd, _⟩ := hg i this
  have : m = .struct names fields := by simpa [TypeGraph.node, hm] using hn
  subst this
  cases hd with
  | struct n fds c _ _ _ hf _ _ =>
    intro p hp
    rw [hf] at hp
    obtain ⟨fd, _, rfl⟩ := List.mem_map.mp hp
    rfl

/-- The descriptor of the recursive `Tree` exists, and navigating `kids` and then the element leads back
to the root. -/
example : ∃ d, describe demoEnv 10 (.named "Tree") = some d ∧
    Nav d.graph d.root (.vec (.named "Tree")) ∧ Nav d.graph d.root (.named "Tree") := by
  refine ⟨_, rfl, ?_, ?_⟩
  · exact .step _ _ _ .root rfl (by decide)
  · exact .step _ (.list (.named "Tree")) _ (.step _ _ (.vec (.named "Tree")) .root rfl (by decide)) rfl
      (by decide)

/-! ## C35: descriptors describe the declaration -/

/-- C35. The node found by navigation to `i` is exactly the declaration of the type `i`, which is a
(boxed) component of the root. -/
theorem descriptor_describes (hD : DeclsOK E) {fuel t d} (h : describe E fuel t = some d) {i n}
    (hi : Nav d.graph d.root i) (hn : d.graph.node i = some n) :
    Describes E i n ∧ ∃ u, t.Reach E u ∧ i = u.unbox := by
  obtain ⟨hr, hp, _, hg⟩ := describe_good hD h
  have : d.graph i ≠ none := by intro he; simp [TypeGraph.node, he] at hn
  obtain ⟨hu, _, m, hm, hd, _⟩ := hg i this
  have : n = m := by simpa [TypeGraph.node, hm] using hn.symm
  subst this
  exact ⟨hd, hu⟩

/-- C35. The root is the described type. -/
theorem descriptor_root (hD : DeclsOK E) {fuel t d} (h : describe E fuel t = some d) :
    d.root = t.unbox := (describe_good hD h).1

/-- C35. Every component type of the root can be navigated to. -/
theorem descriptor_complete (hD : DeclsOK E) {fuel t d} (h : describe E fuel t = some d) {u : Ty}
    (hu : t.Reach E u) : Nav d.graph d.root u.unbox := by
  induction hu with
  | refl => rw [descriptor_root hD h]; exact .root
  | step u v hu' hv ih =>
    obtain ⟨n, hn⟩ := descriptor_closed hD h ih
    have hd := (descriptor_describes hD h ih hn).1
    by_cases hb : ∃ w, u = .box w
    · obtain ⟨w, rfl⟩ := hb
      simp [Ty.comps] at hv; subst hv
      exact ih
    · have hub : u.unbox = u := by rw [Ty.unbox]; exact fun w hw => hb ⟨w, hw⟩
      exact .step _ _ _ ih hn ((hub ▸ hd).ids_mem hv)

/-- C35. Independence of root, build order and depth: two descriptors that both know a type hold the same
node for it. -/
theorem descriptor_independent (hD : DeclsOK E) {fuel fuel' t t' d d'}
    (h : describe E fuel t = some d) (h' : describe E fuel' t' = some d') {i : Ty}
    (hi : Nav d.graph d.root i) (hi' : Nav d'.graph d'.root i) :
    d.graph.node i = d'.graph.node i := by
  obtain ⟨n, hn⟩ := descriptor_closed hD h hi
  obtain ⟨n', hn'⟩ := descriptor_closed hD h' hi'
  rw [hn, hn', (descriptor_describes hD h hi hn).1.unique hD (descriptor_describes hD h' hi' hn').1]

/-- C35. Two computations of the descriptor of one type agree entirely, whatever the available depth. -/
theorem descriptor_deterministic {fuel fuel' t d d'}
    (h : describe E fuel t = some d) (h' : describe E fuel' t = some d') : d = d' := by
  have a := describe_mono (Nat.le_max_left fuel fuel') h
  have b := describe_mono (Nat.le_max_right fuel fuel') h'
  rw [a] at b; exact Option.some.inj b

/-- The same `Tree` node, from the root `Tree` and from the root `(u8, Vec<Tree>)`. -/
example : ∃ d d', describe demoEnv 10 (.named "Tree") = some d ∧
    describe demoEnv 10 (.tuple [.scalar (.int .u8), .vec (.named "Tree")]) = some d' ∧
    Nav d.graph d.root (.named "Tree") ∧ Nav d'.graph d'.root (.named "Tree") := by
  refine ⟨_, _, rfl, rfl, .root, ?_⟩
  exact .step _ _ _ (.step _ (.tuple _) (.vec (.named "Tree")) .root rfl (by decide)) rfl (by decide)

/-! ## C34: describing a type terminates -/

/-- C34, exactly when it holds. For a type with finitely many component types, describing it terminates
(succeeds with enough call depth) if and only if no component has an infinite descent through tuple
structs, enums and boxes alone. -/
theorem describe_terminates_iff (hD : DeclsOK E) {t : Ty} (hF : Finite E t) :
    (∃ fuel d, describe E fuel t = some d) ↔ ∀ u, t.Reach E u → Acc (Ty.EagerComp E) u := by
  constructor
  · rintro ⟨fuel, d, h⟩ u hu
    obtain ⟨_, _, _, hg⟩ := describe_good hD h
    exact acc_unbox.mp (hg _ (describe_complete hD h hu)).2.1
  · intro ha
    obtain ⟨S, htS, hc, hdecl⟩ := hF
    have hreach : ∀ u, t.Reach E u → u ∈ S := by
      intro u hu
      induction hu with
      | refl => exact htS
      | step u v _ hv ih => exact hc u ih v hv
    -- restrict to the reachable part
    classical
    obtain ⟨fuel, r, h⟩ := build_terminates hD (S := S.filter fun u => decide (t.Reach E u))
      (by
        intro u hu v hv
        simp only [List.mem_filter, decide_eq_true_eq] at hu ⊢
        exact ⟨hc u hu.1 v hv, .step _ _ hu.2 hv⟩)
      (by
        intro n hn
        simp only [List.mem_filter, decide_eq_true_eq] at hn
        exact hdecl n hn.1)
      (by
        intro u hu
        simp only [List.mem_filter, decide_eq_true_eq] at hu
        exact ha u hu.2)
      _ t (by simp [htS]; exact .refl) .empty (Nat.le_refl _)
    exact ⟨fuel, _, by simp only [describe, h, Option.map_some]; rfl⟩

/-- C34, the part that holds. Describing a type with finitely many component types terminates if every
cycle among them passes through a struct, tuple, list, array or map. Missing: cycles made of tuple
structs, enums and boxes only, for which it never terminates (`describe_diverges`). -/
theorem describe_terminates_partial (hD : DeclsOK E) {t : Ty} (hF : Finite E t)
    (hA : ∀ u, t.Reach E u → Acc (Ty.EagerComp E) u) : ∃ fuel d, describe E fuel t = some d :=
  (describe_terminates_iff hD hF).mpr hA

/-- C34 fails. A type that contains itself through tuple structs, enums and boxes only is never
described: at every call depth the computation is still going, so `type_descriptor()` overflows the stack.
This holds for every such type. -/
theorem describe_diverges {t : Ty} (h : Relation.TransGen (Ty.EagerComp E) t t) (fuel : Nat) :
    describe E fuel t = none := by
  have : ¬ Acc (Ty.EagerComp E) t := by
    intro ha
    have ha' := ha.transGen
    induction ha' with
    | intro x _ ih => exact ih x h h ha
  simp [describe, build_diverges fuel _ t this]

/-- C34 fails for every type that contains such a type, too. -/
theorem describe_diverges_containing (hD : DeclsOK E) {t u : Ty} (hu : t.Reach E u)
    (h : Relation.TransGen (Ty.EagerComp E) u u) (fuel : Nat) : describe E fuel t = none := by
  cases hd : describe E fuel t with
  | none => rfl
  | some d =>
    obtain ⟨_, _, _, hg⟩ := describe_good hD hd
    have ha := acc_unbox.mp (hg _ (describe_complete hD hd hu)).2.1
    exfalso
    have ha' := ha.transGen
    clear hu hd
    induction ha' with
    | intro x _ ih => exact ih x h h ha

/-- `enum Shape { Circle { r: f32 }, Rect(i32, Box<Shape>), Empty }` contains itself through a box. -/
theorem shape_recursive : Relation.TransGen (Ty.EagerComp demoEnv) (.named "Shape") (.named "Shape") := by
  have h1 : Ty.EagerComp demoEnv (.named "Shape") (.box (.named "Shape")) := ⟨trivial, by decide⟩
  have h2 : Ty.EagerComp demoEnv (.box (.named "Shape")) (.named "Shape") :=
    ⟨.inr ⟨_, _, rfl⟩, by decide⟩
  exact .tail (.single h1) h2

/-- C34 fails: `Shape::type_descriptor()` and `Vec<Shape>::type_descriptor()` never return, although
`Vec<Shape>` has only five component types. -/
theorem describe_shape_diverges (fuel : Nat) :
    describe demoEnv fuel (.named "Shape") = none ∧ describe demoEnv fuel (.vec (.named "Shape")) = none ∧
    Finite demoEnv (.vec (.named "Shape")) := by
  refine ⟨describe_diverges shape_recursive fuel,
    describe_diverges_containing demo_declsOK (.step _ _ .refl (by decide)) shape_recursive fuel, ?_⟩
  refine ⟨[.vec (.named "Shape"), .named "Shape", .box (.named "Shape"), .scalar .f32,
    .scalar (.int .i32)], by decide, by decide, ?_⟩
  intro n hn
  have : n = "Shape" := by simpa using hn
  subst this; rfl

/-- The recursive struct `Tree` satisfies the hypotheses of `describe_terminates_partial`. -/
example : Finite demoEnv (.named "Tree") ∧
    ∀ u, (Ty.named "Tree").Reach demoEnv u → Acc (Ty.EagerComp demoEnv) u := by
  have hF : Finite demoEnv (.named "Tree") := by
    refine ⟨[.named "Tree", .nonzero .u8, .vec (.named "Tree"),
      .map (.scalar .string) (.scalar (.int .u8)), .scalar .string, .scalar (.int .u8)],
      by decide, by decide, ?_⟩
    intro n hn
    have : n = "Tree" := by simpa using hn
    subst this; rfl
  exact ⟨hF, (describe_terminates_iff demo_declsOK hF).mp ⟨10, _, rfl⟩⟩

end Mirror
