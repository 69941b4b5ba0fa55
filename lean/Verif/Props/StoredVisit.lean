import Verif.Lemmas.RenameVisit
import Verif.Props.StoredType
import Verif.Props.Visit

/-!
# C95 for `try_visit`: visiting along a stored descriptor

A program that has read the descriptor of a type can visit a value along it. The visitor is called as it
would be with the type's own descriptor, in the same order and with the same end, panics included.
-/

namespace Mirror

variable {E : Env} {S : Facts}
variable (hD : DeclsOK E) (hS : S.Every Attrs.Parsed) (hi : ∀ u, S.id u < 2 ^ 64)
  (ha : S.Every fun a => ∀ p ∈ a.pairs, p.2.toValue.Storable) {t : Ty}
  (hl : ∀ u n, t.Reach E (.array u n) → n < 2 ^ 64) (hn : NoCollision E S.id t) {depth : Nat}
  {d : TypeDescriptor} {x : WireDescriptor} (hd : describe E depth t = some d)
  (hx : describeW E S depth t = some x)

include hD hS hi ha hl hn hd hx

/-- C95: visiting any value, of that type or not, along any type in a stored descriptor of `t` is visiting it
along the same type in the descriptor with distinct ids, with hashes in place of the types of opaque
leaves. -/
theorem C95_visit {σ ε : Type} (v : Visitor σ ε) {u : Ty} (hu : t.Reach E u) (o : Obj) (s : σ) :
    tryVisit x.nav.graph v (wireTy (S.id u.unbox)) o s =
      tryVisit d.graph (fun l => v (l.rename fun i => wireTy (S.id i))) u.unbox o s :=
  tryVisit_rename ((describeW_renames hD hS hn hd hx).2 (C94_storable hD hS hi ha hl hx)) v o _ s ⟨u, hu, rfl⟩

/-- C95: along a stored descriptor of its type, every leaf of a value is visited once, in declaration order,
until the visitor returns an error, unless somewhere inside a skipped position comes before a reflected
one. -/
theorem C95_visit_leaves {o : Obj} (ho : HasTy E t o) (hg : o.NoGaps) :
    ∃ l, Leaves E t o l ∧ ∀ (σ ε : Type) (v : Visitor σ ε) (s : σ),
      tryVisit x.nav.graph v x.nav.root o s =
        runVisit (fun a => v (a.rename fun i => wireTy (S.id i))) l s := by
  obtain ⟨l, h1, h2⟩ := C41_visits_leaves hD hd ho hg
  refine ⟨l, h1, fun σ ε v s => ?_⟩
  have hroot : x.nav.root = wireTy (S.id t.unbox) := by
    show wireTy x.root = _
    rw [(C94_nodes hD hS hx).1]
  rw [hroot, C95_visit hD hS hi ha hl hn hd hx v .refl o s, ← h2, descriptor_root hD hd]

/-- C95: otherwise a visitor that never fails runs into a panic, as with the type's own descriptor. -/
theorem C95_visit_panics_iff {o : Obj} (ho : HasTy E t o) :
    (∃ (σ ε : Type) (v : Visitor σ ε) (s s' : σ), tryVisit x.nav.graph v x.nav.root o s = .panic s') ↔
      ¬ o.NoGaps := by
  have hroot : x.nav.root = wireTy (S.id t.unbox) := by
    show wireTy x.root = _
    rw [(C94_nodes hD hS hx).1]
  constructor
  · rintro ⟨σ, ε, v, s, s', h⟩
    rw [hroot, C95_visit hD hS hi ha hl hn hd hx v .refl o s, ← descriptor_root hD hd] at h
    exact (C41_panics_iff hD hd ho).mp ⟨_, _, _, s, s', h⟩
  · intro hg
    obtain ⟨s', h⟩ := C41_gap_panics hD hd ho hg (σ := Unit) (ε := Empty) (fun _ s => (none, s)) (fun _ _ => rfl) ()
    refine ⟨Unit, Empty, fun _ s => (none, s), (), s', ?_⟩
    rw [hroot, C95_visit hD hS hi ha hl hn hd hx _ .refl o ()]
    rw [descriptor_root hD hd] at h
    exact h

omit hD hS hi ha hl hn hd hx

/-- Non-vacuity: a tree visited along the stored descriptor of `Tree`, counting the leaves: two `NonZeroU8`, and
two entries with a key and a value each. -/
example : ∃ l, Leaves demoEnv (.named "Tree") demoTree l ∧
    (∀ (σ ε : Type) (v : Visitor σ ε) (s : σ), tryVisit demoFull.nav.graph v demoFull.nav.root demoTree s =
      runVisit (fun a => v (a.rename fun i => wireTy (demoFacts.id i))) l s) ∧
    tryVisit (ε := Empty) demoFull.nav.graph (fun _ s => (none, s + 1)) demoFull.nav.root demoTree 0 = .ok 6 := by
  obtain ⟨d, hd⟩ := Option.isSome_iff_exists.mp
    ((C94_full demo_declsOK demoFacts_parsed demo_noCollision 10).1.symm.trans (by rw [demoFull_built]; rfl))
  obtain ⟨l, h1, h2⟩ := C95_visit_leaves demo_declsOK demoFacts_parsed demoFacts_id demoFacts_storable
    (fun u n h => absurd h (demo_arrays u n)) demo_noCollision hd demoFull_built demoTree_hasTy
    (demoTree_hasTy.noGaps demo_skipsLast)
  exact ⟨l, h1, h2, by cbv⟩

end Mirror
