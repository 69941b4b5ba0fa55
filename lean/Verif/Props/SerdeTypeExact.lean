import Verif.Lemmas.SerdeTypeExact
import Verif.Props.SerdeType

set_option linter.unusedSimpArgs false

/-!
# C87: exactly the data that denote a type descriptor are read, and as that descriptor
-/

namespace Mirror

/-- C87: a `TypeDescriptor` is read from some data exactly if the data denote it. -/
theorem C87_reads_iff (m : VariantId) (d : Data) (x : WireDescriptor) :
    (WireDescriptor.codec m).de d = some x ↔ DenotesDescriptor m d x := codecReads_descriptor m d x

/-- C87: the same for a single node of the graph. -/
theorem C87_node_iff (m : VariantId) (d : Data) (x : WireNode) :
    (WireNode.codec m).de d = some x ↔ DenotesNode m d x := codecReads_node m d x

/-- C87: what is written denotes the descriptor it was written from, and no data denote two. -/
theorem C87_unambiguous (m : VariantId) {x y : WireDescriptor} :
    (x.Storable → DenotesDescriptor m ((WireDescriptor.codec m).ser x) x) ∧
    ∀ d, DenotesDescriptor m d x → DenotesDescriptor m d y → x = y :=
  ⟨fun h => (C87_reads_iff m _ _).mp (C67_roundtrip m h), fun d h h' => by
    rw [← C87_reads_iff] at h h'
    exact Option.some.inj (h.symm.trans h')⟩

/-- C87: of what a struct of an opaque type may have, only the default may be left out. -/
theorem C87_required (m : VariantId) {fs : List (String × Data)} {x : WireOpaque}
    (h : (WireOpaque.codec m).de (.struct fs) = some x) :
    (fs.map (·.1)).count "type_name" = 1 ∧ (fs.map (·.1)).count "metadata" = 1 ∧
    (fs.map (·.1)).count "default_value" ≤ 1 ∧
    ("default_value" ∉ fs.map (·.1) → x.defaultValue = none) := by
  rcases (codecReads_opaqueNode m _ _).mp h with
    ⟨_, _, ⟨_, h0, hg⟩ | ⟨h0, _⟩, _, _⟩ | ⟨_, _, h0, hn, ⟨_, h0', hg⟩ | ⟨h0', _⟩, _, h2⟩
  · cases h0
    cases hg with
    | cons g1 hg =>
      cases hg with
      | cons g2 hg =>
        cases hg with
        | cons g3 _ =>
          exact ⟨g1.2, g2.2, g3.2.le, fun hn => absurd (List.mem_map_of_mem (f := (·.1)) g3.1) hn⟩
  · cases h0
  · cases h0
    cases h0'
    cases hg with
    | cons g1 hg =>
      cases hg with
      | cons g2 _ =>
        exact ⟨g1.2, g2.2, by rw [List.count_eq_zero.mpr hn]; exact Nat.zero_le _, fun _ => h2⟩
  · cases h0'

/-- Not vacuous: a descriptor of `Vec<u8>` with the fields of its list in another order, one of them
unknown, the id of the element type in another width, the nodes out of order and one of them twice. -/
example : (WireDescriptor.codec .byName).de (.struct [
      ("graph", .seq [.map [
        (.int .u8 7, .some (.newtype 4 "List" (.struct [("field_type_id", .int .u8 3), ("version", .str "2"),
          ("type_name", .str "Vec<u8>")]))),
        (.int .u64 3, .none),
        (.int .u64 3, .some (.newtype 7 "Scalar" (.unit 1 "u8")))]]),
      ("root", .int .u16 7)]) =
    some ⟨7, [(3, some (.scalar (.int .u8))), (7, some (.list ⟨"Vec<u8>", 3⟩))]⟩ := by
  have hr : (2 : Nat) < 2 ^ 64 ∧ (3 : Nat) < 2 ^ 64 ∧ (7 : Nat) < 2 ^ 64 := by decide
  rw [C87_reads_iff]
  refine ⟨_, _, _, .inl ⟨_, rfl, .cons ⟨.tail _ (.head _), by decide⟩ (.cons ⟨.head _, by decide⟩ .nil)⟩,
    ⟨hr.2.2, _, rfl⟩, .inr ⟨rfl, rfl⟩, _, [(7, some (.list ⟨"Vec<u8>", 3⟩)), (3, none), (3, some (.scalar (.int .u8)))],
    rfl, ?_, ?_⟩
  · refine .cons ⟨⟨hr.2.2, _, rfl⟩, ?_⟩ (.cons ⟨⟨hr.2.1, _, rfl⟩, trivial⟩ (.cons ⟨⟨hr.2.1, _, rfl⟩, ?_⟩ .nil))
    · exact .list _ _ _ _ (by simp [VariantId.Means, nodeForms]) ⟨_, .inl ⟨_, rfl, .cons ⟨.tail _ (.tail _ (.head _)), by decide⟩
        (.cons ⟨.head _, by decide⟩ .nil)⟩, hr.2.1, _, rfl⟩
    · exact .scalar _ _ _ _ _ (by simp [VariantId.Means, nodeForms])
        (by simp [VariantId.Means, scalarForms, ScalarKind.rust, IntKind.rust])
  · exact (gathered_iff natCmpOn).mpr rfl

/-- Nor is the refusal: a list without the type of its elements, and a scalar type that does not exist. -/
example : (WireNode.codec .byName).de (.newtype 4 "List" (.struct [("type_name", .str "Vec<u8>")])) = none ∧
    (WireNode.codec .byName).de (.newtype 7 "Scalar" (.unit 0 "u24")) = none := ⟨rfl, rfl⟩

end Mirror
