import Verif.Lemmas.TypeEqUse
import Verif.Props.SerdeType

set_option linter.unusedSimpArgs false

/-!
# C93: comparing and hashing type descriptors

`==` and `hash` of `TypeDescriptor` and `Type`.
-/

namespace Mirror

/-- C93: two descriptors are equal exactly if they are the same but for the values in their metadata and
in their defaults of opaque types, which are compared with `==`. -/
theorem C93_eq_iff (x y : WireDescriptor) : WireDescriptor.eh.eq x y = true ↔ x.Same y :=
  Splits.descriptor.iff x y

/-- C93: `==` is an equivalence relation, also for metadata with NaNs in it. -/
theorem C93_equivalence : Equivalence fun x y : WireDescriptor => WireDescriptor.eh.eq x y = true := by
  refine ⟨fun x => ?_, fun {x y} h => ?_, fun {x y z} h h' => ?_⟩
  · exact (C93_eq_iff x x).mpr ⟨rfl, List.forall₂_same.mpr fun a _ => beq'_refl a⟩
  · obtain ⟨h1, h2⟩ := (C93_eq_iff x y).mp h
    exact (C93_eq_iff y x).mpr ⟨h1.symm, h2.flip.imp fun a b hab => beq'_symm hab⟩
  · obtain ⟨h1, h2⟩ := (C93_eq_iff x y).mp h
    obtain ⟨h3, h4⟩ := (C93_eq_iff y z).mp h'
    refine (C93_eq_iff x z).mpr ⟨h1.trans h3, ?_⟩
    generalize x.values = a at h2
    generalize y.values = b at h2 h4
    generalize z.values = c at h4
    clear h1 h3 h h'
    induction h2 generalizing c with
    | nil => cases h4; exact .nil
    | cons hab _ ih => cases h4 with | cons hbc ht => exact .cons (beq'_trans hab hbc) (ih _ ht)

/-- C93: descriptors write the same to a hasher exactly if they are equal, and no descriptor writes the
beginning of what a different one writes: what is written after it cannot make up for a difference. -/
theorem C93_hash_iff (x y : WireDescriptor) (r s : List HTok) :
    WireDescriptor.eh.hash x ++ r = WireDescriptor.eh.hash y ++ s ↔
      WireDescriptor.eh.eq x y = true ∧ r = s :=
  Splits.descriptor.free x y r s

/-- C93: the same for `Value`. -/
theorem C93_value_hash_iff (a b : Value) (r s : List HTok) :
    a.hashFeed ++ r = b.hashFeed ++ s ↔ Value.beq a b = true ∧ r = s :=
  Splits.value.free a b r s

/-- C93: equal descriptors describe the same type: navigating them shows the same. -/
theorem C93_same_types {x y : WireDescriptor} (h : WireDescriptor.eh.eq x y = true) : x.nav = y.nav :=
  nav_same h

/-- C93: from equal descriptors `default_value` and `has_default_value` come to the same end for every
type in them, with defaults that are equal. -/
theorem C93_same_defaults {x y : WireDescriptor} (h : WireDescriptor.eh.eq x y = true) (cap fuel : Nat)
    (i : WireId) :
    SameAnswer (fun a b => Value.beq a b = true) (wireDefault cap x fuel i) (wireDefault cap y fuel i) ∧
    wireHas x fuel i = wireHas y fuel i :=
  ⟨default_same cap (descriptor_eq_iff.mp h).2 fuel i, has_same (descriptor_eq_iff.mp h).2 fuel i⟩

/-- C93: what was written with serde and read back is equal to what it was. -/
theorem C93_read_back (m : VariantId) {x y : WireDescriptor} (h : x.Storable)
    (hy : (WireDescriptor.codec m).de ((WireDescriptor.codec m).ser x) = some y) :
    WireDescriptor.eh.eq x y = true := by
  rw [C67_roundtrip m h, Option.some.injEq] at hy
  subst hy
  exact C93_equivalence.refl x

/-! ## Views -/

theorem node_refl (n : WireNode) : WireNode.eh.eq n n = true :=
  (Splits.node.iff n n).mpr ⟨rfl, List.forall₂_same.mpr fun a _ => beq'_refl a⟩

/-- C93: views of types are equal exactly if they are views of the same scalar type, or neither is of a
scalar type, their ids are the same and the graphs they were found in are equal - all of the graphs, not
just what can be reached from the types. -/
theorem C93_view_iff {x y : WireDescriptor} {i j : WireId} {v w : WireView}
    (hv : WireView.new x i = some v) (hw : WireView.new y j = some w) :
    WireView.eh.eq v w = true ↔
      (∃ k, x.node i = some (.scalar k) ∧ y.node j = some (.scalar k)) ∨
      ((∀ k, x.node i ≠ some (.scalar k)) ∧ (∀ k, y.node j ≠ some (.scalar k)) ∧
        WireDescriptor.eh.eq ⟨i, x.graph⟩ ⟨j, y.graph⟩ = true) := by
  have shape : ∀ {x : WireDescriptor} {i : WireId} {v : WireView}, WireView.new x i = some v →
      (∃ k, x.node i = some (.scalar k) ∧ v = .scalar k) ∨
      ((∀ k, x.node i ≠ some (.scalar k)) ∧ ∃ n, x.node i = some n ∧ v = .other i n x.graph) := by
    intro x i v h
    unfold WireView.new at h
    cases hn : x.node i with
    | none => rw [hn] at h; cases h
    | some n =>
      rw [hn] at h
      cases n <;> simp only [Option.some.injEq] at h <;> subst h <;> simp
  rcases shape hv with ⟨k, hk, rfl⟩ | ⟨hk, n, hn, rfl⟩ <;>
    rcases shape hw with ⟨l, hl, rfl⟩ | ⟨hl, m, hm, rfl⟩
  · simp [WireView.eh, scalarEh, hk, hl]
    exact eq_comm
  · simp [WireView.eh, hk]
    exact hl k
  · simp [WireView.eh, hl]
    exact hk l
  · have hno : ¬ ∃ k, x.node i = some (.scalar k) ∧ y.node j = some (.scalar k) := fun ⟨k, h, _⟩ => hk k h
    rw [or_iff_right hno, descriptor_eq_iff]
    simp only [and_iff_right hk, and_iff_right hl]
    simp only [WireView.eh, EqHash.nat, Bool.and_eq_true, beq_iff_eq, and_assoc]
    refine ⟨fun ⟨h1, _, h3⟩ => ⟨h1, h3⟩, fun ⟨h1, h3⟩ => ⟨h1, ?_, h3⟩⟩
    have := node_same h3 i
    rw [hn, h1, hm] at this
    simpa [EqHash.option] using this

/-- C93: views of types write the same to a hasher exactly if they are equal. -/
theorem C93_view_hash_iff {x y : WireDescriptor} {i j : WireId} {v w : WireView}
    (hv : WireView.new x i = some v) (hw : WireView.new y j = some w) :
    WireView.eh.hash v = WireView.eh.hash w ↔ WireView.eh.eq v w = true := by
  have head : ∀ n : WireNode, (∀ k, n ≠ .scalar k) → ∃ d l, WireNode.eh.hash n = .disc d :: l ∧ d ≠ 7 := by
    intro n hn
    cases n <;> simp [WireNode.eh] at hn ⊢
  have notScalar : ∀ {x : WireDescriptor} {i j : WireId} {n : WireNode} {g}, WireView.new x i = some (.other j n g) →
      ∀ k, n ≠ .scalar k := by
    intro x i j n g h k
    unfold WireView.new at h
    cases hn : x.node i with
    | none => rw [hn] at h; cases h
    | some m =>
      rw [hn] at h
      cases m <;> simp only [Option.some.injEq, WireView.other.injEq, reduceCtorEq] at h <;>
        (obtain ⟨-, rfl, -⟩ := h; simp)
  cases v with
  | scalar k =>
    cases w with
    | scalar l =>
      have := Splits.scalar.free k l [] []
      simpa [WireView.eh] using this
    | other j n g =>
      obtain ⟨d, l, hd, h7⟩ := head n (notScalar hw)
      simp [WireView.eh, hd, Ne.symm h7]
  | other i n g =>
    obtain ⟨d, l, hd, h7⟩ := head n (notScalar hv)
    cases w with
    | scalar k => simp [WireView.eh, hd, h7]
    | other j m h =>
      obtain ⟨d', l', hd', -⟩ := head m (notScalar hw)
      have hN := Splits.node.free n m (wireGraphEh.hash g) (wireGraphEh.hash h)
      have hG := Splits.graph.free g h [] []
      have hI : (i : Int) = (j : Int) ↔ i = j := Int.natCast_inj
      simp only [List.append_nil, and_true] at hG
      rw [hG] at hN
      simp only [hd, hd', List.cons_append, List.cons.injEq, HTok.disc.injEq] at hN
      simp only [WireView.eh, hd, hd', EqHash.nat, List.take_succ_cons, List.take_zero, List.drop_succ_cons,
        List.drop_zero, List.cons_append, List.nil_append, List.append_assoc, List.cons.injEq, HTok.disc.injEq,
        HTok.num.injEq, hI, Bool.and_eq_true, beq_iff_eq, and_assoc]
      constructor
      · rintro ⟨h1, h2, h3⟩
        exact ⟨h2, hN.mp ⟨h1, h3⟩⟩
      · rintro ⟨h2, h3, h4⟩
        obtain ⟨h1, h5⟩ := hN.mpr ⟨h3, h4⟩
        exact ⟨h1, h2, h5⟩

/-! ## Cases -/

/-- An opaque type with a number in its metadata. -/
def wireZero (b : BitVec 64) : WireDescriptor :=
  ⟨1, [(1, some (.opaque ⟨"T", [("scale", .scalar (.f64 b))], none⟩))]⟩

theorem wireZero_storable (b : BitVec 64) : (wireZero b).Storable := by
  refine ⟨by simp [Fits64, wireZero], by simp [wireZero], ?_⟩
  intro p hp
  simp only [wireZero, List.mem_cons, List.not_mem_nil, or_false] at hp
  subst hp
  refine ⟨by simp [Fits64], ?_⟩
  rintro n hn
  cases hn
  refine ⟨⟨?_, ?_⟩, by simp⟩
  · exact List.pairwise_singleton _ _
  · intro p hp
    simp at hp
    subst hp
    exact .scalar _ trivial

/-- C93: equal descriptors need not be written alike: `0.0` and `-0.0` are equal. -/
theorem C93_not_bits (m : VariantId) :
    WireDescriptor.eh.eq (wireZero 0) (wireZero 0x8000000000000000) = true ∧
    (WireDescriptor.codec m).ser (wireZero 0) ≠ (WireDescriptor.codec m).ser (wireZero 0x8000000000000000) := by
  refine ⟨by cbv, fun h => ?_⟩
  have := C67_injective m (wireZero_storable _) (wireZero_storable _) h
  simp only [wireZero, WireDescriptor.mk.injEq, List.cons.injEq, Prod.mk.injEq, Option.some.injEq,
    WireNode.opaque.injEq, WireOpaque.mk.injEq, Value.scalar.injEq, Scalar.f64.injEq] at this
  exact absurd this.2.1.2.2.1.1.2 (by simp)

/-- The hypotheses are met by descriptors with metadata that differ in their bits (NaNs, zeros), and
changing one doc comment makes a descriptor different. -/
example : WireDescriptor.eh.eq (wireZero 0x7FF8000000000000) (wireZero 0xFFF8000000000001) = true ∧
    WireDescriptor.eh.hash (wireZero 0x7FF8000000000000) = WireDescriptor.eh.hash (wireZero 0xFFF8000000000001) ∧
    WireDescriptor.eh.eq (wireZero 0) (wireZero 1) = false ∧
    WireDescriptor.eh.eq wireTree wireTree = true ∧
    WireDescriptor.eh.eq wireTree
      ⟨7, [(3, some (.list ⟨"Vec<Tree>", 7⟩)),
        (7, some (.struct ⟨"Tree", [("children", ⟨"children", 3, [("k", .enumU "V")], ["docs"]⟩)],
          ["children"], [], []⟩))]⟩ = false := by
  refine ⟨by cbv, by cbv, by cbv, by cbv, by cbv⟩

/-- The same list type found in two descriptors: its views are different if one of the graphs holds a type
the other does not. -/
example : ∃ v w, WireView.new ⟨1, [(1, some (.list ⟨"Vec<bool>", 2⟩)), (2, some (.scalar .bool))]⟩ 1 = some v ∧
    WireView.new ⟨0, [(0, some (.list ⟨"Vec<Vec<bool>>", 1⟩)), (1, some (.list ⟨"Vec<bool>", 2⟩)),
      (2, some (.scalar .bool))]⟩ 1 = some w ∧ WireView.eh.eq v w = false :=
  ⟨_, _, rfl, rfl, by cbv⟩

end Mirror
