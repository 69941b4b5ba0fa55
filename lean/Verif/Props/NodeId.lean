import Mathlib.Data.Fintype.Card
import Mathlib.Data.Fintype.Option
import Mathlib.Data.Fintype.Pigeonhole
import Verif.Lemmas.NodeId
import Verif.Props.TypeInfo

set_option linter.unusedSimpArgs false

/-!
# Type descriptors whose nodes are identified by hashes (C62)
-/

namespace Mirror

variable {ι : Type} [DecidableEq ι] {E : Env} {h : Ty → ι}

/-- C62, the part that holds: if no two component types of `t` have the same hash, then describing `t`
succeeds whenever it would with distinct ids, and looking up any component type gives its declaration.
Missing: types with a collision among their components, for which it fails
(`C62_collision_wrong`). -/
theorem C62_right_partial (hD : DeclsOK E) {t : Ty} (hn : NoCollision E h t) {fuel d}
    (hd : describe E fuel t = some d) : ∃ D, describeH E h fuel t = some D ∧ D.Right E h t := by
  have hs := build_sim (E := E) (h := h) (P := fun i => ∃ u, t.Reach E u ∧ i = u.unbox)
    (by rintro i j ⟨u, hu, rfl⟩ ⟨v, hv, rfl⟩ hh; exact hn u v hu hv hh) fuel t
    (fun u hu => ⟨u, hu, rfl⟩) .empty .empty (fun _ _ => rfl)
  have hroot := descriptor_root hD hd
  have hb := hd
  unfold describe at hb
  cases h1 : build E fuel .empty t with
  | none => rw [h1] at hb; cases hb
  | some r =>
    obtain ⟨i, g⟩ := r
    rw [h1] at hb hs
    cases hb
    cases h2 : buildH E h fuel .empty t with
    | none => rw [h2] at hs; exact hs.elim
    | some r =>
      obtain ⟨j, G⟩ := r
      rw [h2] at hs
      obtain ⟨rfl, hsim⟩ := hs
      refine ⟨⟨h i, G⟩, by simp [describeH, h2], by simp only at hroot ⊢; rw [hroot], ?_⟩
      intro u hu
      have hnav := descriptor_complete hD hd hu
      obtain ⟨n, hnn⟩ := descriptor_closed hD hd hnav
      refine ⟨n, (descriptor_describes hD hd hnav hnn).1, ?_⟩
      have := hsim u.unbox ⟨u, hu, rfl⟩
      have hgu : g u.unbox = some (some n) := by
        unfold TypeGraph.node at hnn
        split at hnn
        · rename_i m hm; cases hnn; exact hm
        · cases hnn
      rw [hgu] at this
      simp [HGraph.node, this]

/-- C62, the part that holds: without collisions the descriptor of `t` is computed within a call depth
exactly when it is with distinct ids. -/
theorem C62_terminates_partial {t : Ty} (hn : NoCollision E h t) (fuel : Nat) :
    (describeH E h fuel t).isSome = (describe E fuel t).isSome := by
  have hs := build_sim (E := E) (h := h) (P := fun i => ∃ u, t.Reach E u ∧ i = u.unbox)
    (by rintro i j ⟨u, hu, rfl⟩ ⟨v, hv, rfl⟩ hh; exact hn u v hu hv hh) fuel t
    (fun u hu => ⟨u, hu, rfl⟩) .empty .empty (fun _ _ => rfl)
  unfold describe describeH
  cases h1 : build E fuel .empty t <;> cases h2 : buildH E h fuel .empty t <;> rw [h1, h2] at hs
  · rfl
  · exact hs.elim
  · exact hs.elim
  · rfl

/-- C62: with any hash, collisions or not, navigation in a descriptor never panics. -/
theorem C62_closed {fuel t D} (hd : describeH E h fuel t = some D) {i : ι} (hi : HNav D.graph D.root i) :
    ∃ n, D.graph.node i = some n := by
  unfold describeH at hd
  cases h1 : buildH E h fuel .empty t with
  | none => rw [h1] at hd; cases hd
  | some r =>
    obtain ⟨j, G⟩ := r
    rw [h1] at hd
    cases hd
    obtain ⟨⟨_, hp, hc⟩, hr⟩ := buildH_step _ _ _ _ _ h1
    have hcl : HClosed G := hc (fun k n hk => by cases hk)
    have hpres : G i ≠ none := by
      induction hi with
      | root => exact hr
      | step i n j hi hn hj ih =>
        unfold HGraph.node at hn
        split at hn
        · rename_i m hm; cases hn; exact hcl _ _ hm j hj
        · cases hn
    cases hG : G i with
    | none => exact absurd hG hpres
    | some e =>
      cases e with
      | none => have := hp i hG; cases this
      | some n => exact ⟨n, by simp [HGraph.node, hG]⟩

omit [DecidableEq ι] in
/-- C62 fails for every type with a collision: if two component types of `t` have the same hash and
different declarations, no descriptor at all is right about `t`. -/
theorem C62_collision_wrong (hD : DeclsOK E) {t u v : Ty} (hu : t.Reach E u) (hv : t.Reach E v)
    (hh : h u.unbox = h v.unbox) {n m} (hn : Describes E u.unbox n) (hm : Describes E v.unbox m)
    (hne : n.mapIds h ≠ m.mapIds h) (D : HDescriptor ι) : ¬ D.Right E h t := by
  rintro ⟨_, hr⟩
  obtain ⟨n', hn', h1⟩ := hr u hu
  obtain ⟨m', hm', h2⟩ := hr v hv
  rw [hn'.unique hD hn] at h1
  rw [hm'.unique hD hm, ← hh, h1] at h2
  exact hne (Option.some.inj h2)

/-- Describing a scalar or an array of scalars succeeds with any hash. -/
theorem buildH_array_some {k : ScalarKind} (fuel : Nat) (G : HGraph ι) {t : Ty}
    (ht : t = .scalar k ∨ ∃ n, t = .array (.scalar k) n) : ∃ r, buildH E h (fuel + 2) G t = some r := by
  have hs : ∀ fuel (G : HGraph ι), ∃ r, buildH E h (fuel + 1) G (.scalar k) = some r := by
    intro fuel G
    simp only [buildH, getOrBuildH]
    cases G (h (.scalar k)) with
    | some e => exact ⟨_, rfl⟩
    | none => exact ⟨_, rfl⟩
  rcases ht with rfl | ⟨n, rfl⟩
  · exact hs _ _
  · rw [buildH]
    unfold getOrBuildH
    cases G (h (.array (.scalar k) n)) with
    | some e => exact ⟨_, rfl⟩
    | none =>
      obtain ⟨r, hr⟩ := hs fuel (G.set (h (.array (.scalar k) n)) none)
      simp only [hr]
      exact ⟨_, rfl⟩

/-- Pigeonhole: `N + 1` things, `N` numbers. -/
theorem pigeon (N : Nat) (f : Option Nat → Fin N) : ∃ x y, x ≠ y ∧ (∀ n, x = some n → n < N) ∧
    (∀ n, y = some n → n < N) ∧ f x = f y := by
  obtain ⟨x, y, hxy, he⟩ := Fintype.exists_ne_map_eq_of_card_lt
    (fun x : Option (Fin N) => f (x.map Fin.val)) (by
      rw [Fintype.card_option, Fintype.card_fin]; exact Nat.lt_succ_self _)
  refine ⟨x.map Fin.val, y.map Fin.val, ?_, ?_, ?_, he⟩
  · intro hh
    apply hxy
    cases x <;> cases y <;> simp at hh ⊢
    exact Fin.ext hh
  · intro n hn
    cases x <;> simp at hn
    omega
  · intro n hn
    cases y <;> simp at hn
    omega

/-- C62 fails, whatever the hash: for every function from types to 64-bit numbers there are two types
among `u8` and the arrays `[u8; n]` such that `(T, U)::type_descriptor()` returns a descriptor that is
wrong about `T` or `U`. -/
theorem C62_every_hash_fails (hD : DeclsOK E) (h : Ty → BitVec 64) :
    ∃ T U, T ≠ U ∧
      (∀ X, X = T ∨ X = U → X = .scalar (.int .u8) ∨ ∃ n, n < 2 ^ 64 ∧ X = .array (.scalar (.int .u8)) n) ∧
      ∀ depth, ∃ D, describeH E h (depth + 3) (.tuple [T, U]) = some D ∧
        ¬ D.Right E h (.tuple [T, U]) := by
  let ty : Option Nat → Ty := fun x =>
    match x with
    | none => .scalar (.int .u8)
    | some n => .array (.scalar (.int .u8)) n
  obtain ⟨x, y, hxy, hx, hy, he⟩ := pigeon _ (fun x => (h (ty x)).toFin)
  have he : h (ty x) = h (ty y) := BitVec.toFin_inj.mp he
  have hform : ∀ x, ty x = .scalar (.int .u8) ∨ ∃ n, ty x = .array (.scalar (.int .u8)) n := by
    intro x; cases x with
    | none => exact .inl rfl
    | some n => exact .inr ⟨_, rfl⟩
  have hty : ty x ≠ ty y := by
    intro hh
    apply hxy
    cases x <;> cases y <;> simp [ty] at hh ⊢
    exact hh
  have hun : ∀ x, (ty x).unbox = ty x := by intro x; cases x <;> rfl
  have hsome : ∀ depth, ∃ D, describeH E h (depth + 3) (.tuple [ty x, ty y]) = some D := by
    intro depth
    unfold describeH
    rw [buildH]
    unfold getOrBuildH
    cases hE : (HGraph.empty : HGraph (BitVec 64)) (h (.tuple [ty x, ty y])) with
    | some e => exact ⟨_, rfl⟩
    | none =>
      obtain ⟨r, hr⟩ := buildH_array_some (E := E) (h := h) depth
        (HGraph.empty.set (h (.tuple [ty x, ty y])) none) (hform x)
      obtain ⟨r', hr'⟩ := buildH_array_some (E := E) (h := h) depth r.2 (hform y)
      obtain ⟨i, G⟩ := r
      simp only [buildListH, hr, hr', Option.map_some]
      exact ⟨_, rfl⟩
  refine ⟨ty x, ty y, hty, ?_, ?_⟩
  · have : ∀ x, (∀ n, x = some n → n < 2 ^ 64) →
        (ty x = .scalar (.int .u8) ∨ ∃ n, n < 2 ^ 64 ∧ ty x = .array (.scalar (.int .u8)) n) := by
      intro x hx
      cases x with
      | none => exact .inl rfl
      | some n => exact .inr ⟨n, hx n rfl, rfl⟩
    rintro X (rfl | rfl)
    · exact this x hx
    · exact this y hy
  · intro depth
    obtain ⟨D, hDD⟩ := hsome depth
    refine ⟨D, hDD, ?_⟩
    have hd : ∀ x, ∃ n, Describes E (ty x) n ∧
        n = (match x with | none => TypeNode.scalar (.int .u8) | some n => .array (.scalar (.int .u8)) n) := by
      intro x; cases x with
      | none => exact ⟨_, .scalar _, rfl⟩
      | some n => exact ⟨_, .array _ _, rfl⟩
    obtain ⟨n, hn, hn'⟩ := hd x
    obtain ⟨m, hm, hm'⟩ := hd y
    refine C62_collision_wrong hD (u := ty x) (v := ty y) (.step _ _ .refl (by simp [Ty.comps]))
      (.step _ _ .refl (by simp [Ty.comps])) (by rw [hun, hun]; exact he) (by rw [hun]; exact hn)
      (by rw [hun]; exact hm) ?_ D
    rw [hn', hm']
    cases x <;> cases y <;> simp [TypeNode.mapIds] at hxy ⊢
    exact hxy

/-! ## Concrete cases -/

/-- Numbers for the component types of `Tree` that do not collide. -/
def demoHash : Ty → Nat
  | .named _ => 1
  | .vec _ => 2
  | .map _ _ => 3
  | .nonzero _ => 4
  | .scalar .string => 5
  | .scalar _ => 6
  | _ => 7

/-- The recursive `Tree` has no collision with `demoHash`, and its descriptor exists. -/
example : NoCollision demoEnv demoHash (.named "Tree") ∧
    (describe demoEnv 10 (.named "Tree")).isSome := by
  have hS : ∀ u, (Ty.named "Tree").Reach demoEnv u → u ∈ ([.named "Tree", .nonzero .u8, .vec (.named "Tree"),
      .map (.scalar .string) (.scalar (.int .u8)), .scalar .string, .scalar (.int .u8)] : List Ty) := by
    intro u hu
    induction hu with
    | refl => simp
    | step u v _ hv ih =>
      have : ∀ u ∈ ([.named "Tree", .nonzero .u8, .vec (.named "Tree"),
        .map (.scalar .string) (.scalar (.int .u8)), .scalar .string, .scalar (.int .u8)] : List Ty),
        ∀ v ∈ u.comps demoEnv, v ∈ ([.named "Tree", .nonzero .u8, .vec (.named "Tree"),
        .map (.scalar .string) (.scalar (.int .u8)), .scalar .string, .scalar (.int .u8)] : List Ty) := by
        decide
      exact this u ih v hv
  refine ⟨fun u v hu hv => ?_, rfl⟩
  have : ∀ u ∈ ([.named "Tree", .nonzero .u8, .vec (.named "Tree"),
      .map (.scalar .string) (.scalar (.int .u8)), .scalar .string, .scalar (.int .u8)] : List Ty),
      ∀ v ∈ ([.named "Tree", .nonzero .u8, .vec (.named "Tree"),
      .map (.scalar .string) (.scalar (.int .u8)), .scalar .string, .scalar (.int .u8)] : List Ty),
      demoHash u.unbox = demoHash v.unbox → u.unbox = v.unbox := by decide
  exact this u (hS u hu) v (hS v hv)

/-- `demoHash` gives `u8` and `u16` the same number: `(u8, u16)::type_descriptor()` says that both
fields are `u8`. -/
example : ∃ D, describeH demoEnv demoHash 3 (.tuple [.scalar (.int .u8), .scalar (.int .u16)]) = some D ∧
    D.graph.node D.root = some (.tuple [6, 6]) ∧ D.graph.node 6 = some (.scalar (.int .u8)) :=
  ⟨_, rfl, rfl, rfl⟩

end Mirror
