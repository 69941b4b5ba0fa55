import Verif.Lemmas.SpeedyExact
import Verif.Props.Speedy

set_option linter.unusedSimpArgs false

/-!
# C88: exactly the bytes that spell something are read

`Spells F u v` (Spec/SpeedyExact) says, from the declarations of the types alone, that the bytes `u`
spell the value `v`. The theorems hold of every layout `F` of the primitives that is lawful (C75) and
reads each primitive from the bytes it uses up; little endian is one.
-/

namespace Mirror

section
variable {α : Type} {F : Speedy} {bs rest : List UInt8}

theorem RExact.iff {r : List UInt8 → Option (α × List UInt8)} {R : List UInt8 → α → Prop}
    (h : ∀ n, RExact n r R) {a : α} : r bs = some (a, rest) ↔ ∃ used, bs = used ++ rest ∧ R used a := by
  constructor
  · exact (h 0).sound bs a rest
  · rintro ⟨u, rfl, hu⟩
    exact (h (u.length + 1)).complete u a rest (by omega) hu

/-- C88: a value is read, with these bytes left, exactly if the bytes before them spell it. -/
theorem C88_value_iff (hF : F.Lawful) (hL : F.Local) {v : Value} :
    F.value.r bs = some (v, rest) ↔ ∃ used, bs = used ++ rest ∧ Spells F used v :=
  RExact.iff fun _ => value_exact hF hL

/-- C88: key paths. -/
theorem C88_key_path_iff (hF : F.Lawful) (hL : F.Local) {p : KeyPath} :
    F.keyPath.r bs = some (p, rest) ↔ ∃ used, bs = used ++ rest ∧ SpellsPath F used p :=
  RExact.iff fun _ => keyPath_exact hF hL

/-- C88: type descriptors. -/
theorem C88_descriptor_iff (hF : F.Lawful) (hL : F.Local) {x : WireDescriptor} :
    F.descriptor.r bs = some (x, rest) ↔ ∃ used, bs = used ++ rest ∧ SpellsDescriptor F used x :=
  RExact.iff fun _ => descriptor_exact hF hL

/-- C88: kinds of scalars. -/
theorem C88_scalar_type_iff (hF : F.Lawful) (hL : F.Local) {k : ScalarKind} :
    F.kind.r bs = some (k, rest) ↔ ∃ used, bs = used ++ rest ∧ F.Tag scalarForms used k.rust :=
  RExact.iff fun _ => kind_exact hF hL

/-- C88: owned scalars: laid out as the same scalar is as a value. -/
theorem C88_scalar_iff (hF : F.Lawful) (hL : F.Local) {s : Scalar} :
    F.scalar.r bs = some (s, rest) ↔ ∃ used, bs = used ++ rest ∧ Spells F used (.scalar s) := by
  rw [← C88_value_iff hF hL]
  have hv : F.value.r bs = (F.tag.r bs).bind fun p => F.rvalue (Value.br F bs.length) p.1 p.2 := rfl
  have hs : F.scalar.r bs = (F.tag.r bs).bind fun p => match ScalarKind.ofIdx p.1 with
      | some k => F.rscalar k p.2
      | none => none := rfl
  rw [hv, hs]
  cases F.tag.r bs with
  | none => simp
  | some p =>
    obtain ⟨i, bs'⟩ := p
    simp only [Option.bind_some]
    cases hi : ScalarKind.ofIdx i with
    | some k =>
      have : i = k.idx := by
        unfold ScalarKind.ofIdx at hi
        split at hi <;> cases hi <;> rfl
      subst this
      rw [rvalue_scalar]
      simp only [Option.map_eq_some_iff, Prod.mk.injEq, Value.scalar.injEq, Prod.exists]
      constructor
      · intro h; exact ⟨_, _, h, rfl, rfl⟩
      · rintro ⟨_, _, h, rfl, rfl⟩; exact h
    | none =>
      simp only [reduceCtorEq, false_iff]
      intro h
      have h2 := (rvalue_exact (n := 0) hF hL (br_exact hF hL bs.length |>.mono (Nat.zero_le _)) i).sound _ _ _ h
      obtain ⟨u, _, hu⟩ := h2
      unfold RValueArm at hu
      split at hu
      · obtain ⟨_, _, e⟩ := hu; cases e
      · obtain ⟨_, _, _, _, _, _, _, j, _, _, hu⟩ := hu
        unfold RKindArm at hu
        split at hu
        · obtain ⟨_, _, e⟩ := hu; cases e
        · obtain ⟨_, _, e⟩ := hu; cases e
        · cases hu.2
        · exact hu
      · obtain ⟨_, _, e⟩ := hu; cases e
      · obtain ⟨_, _, e⟩ := hu; cases e
      · obtain ⟨_, _, e⟩ := hu; cases e
      · obtain ⟨_, _, e⟩ := hu; cases e
      · obtain ⟨k, e, _⟩ := hu
        rw [hi] at e; cases e

/-- C88: what is written spells the value. -/
theorem C88_written (hF : F.Lawful) (hL : F.Local) {v : Value} (hv : v.Storable) {u : List UInt8}
    (h : F.value.w v = some u) : Spells F u v := by
  obtain ⟨used, e, hu⟩ := (C88_value_iff hF hL).mp (hF.value.back v u [] hv h)
  simp only [List.append_nil] at e
  exact e ▸ hu

/-- C88: what is written of a key path spells it. -/
theorem C88_key_path_written (hF : F.Lawful) (hL : F.Local) {p : KeyPath} (hp : p.Storable) {u : List UInt8}
    (h : F.keyPath.w p = some u) : SpellsPath F u p := by
  obtain ⟨used, e, hu⟩ := (C88_key_path_iff hF hL).mp (hF.keyPath.back p u [] hp h)
  simp only [List.append_nil] at e
  exact e ▸ hu

/-- C88: what is written of a descriptor spells it. -/
theorem C88_descriptor_written (hF : F.Lawful) (hL : F.Local) {x : WireDescriptor} (hx : x.Storable)
    {u : List UInt8} (h : F.descriptor.w x = some u) : SpellsDescriptor F u x := by
  obtain ⟨used, e, hu⟩ := (C88_descriptor_iff hF hL).mp (hF.descriptor.back x u [] hx h)
  simp only [List.append_nil] at e
  exact e ▸ hu

/-- C88: bytes begin with the spelling of at most one value, which is of one length. -/
theorem C88_unambiguous (hF : F.Lawful) (hL : F.Local) {v w : Value} {x y r s : List UInt8}
    (hv : Spells F x v) (hw : Spells F y w) (h : x ++ r = y ++ s) : v = w ∧ x = y ∧ r = s := by
  have h1 := (C88_value_iff hF hL (rest := r)).mpr ⟨x, rfl, hv⟩
  have h2 := (C88_value_iff hF hL (rest := s)).mpr ⟨y, rfl, hw⟩
  rw [h, h2] at h1
  cases h1
  exact ⟨rfl, List.append_cancel_right h, rfl⟩

/-- C88: the same for descriptors. -/
theorem C88_descriptor_unambiguous (hF : F.Lawful) (hL : F.Local) {v w : WireDescriptor} {x y r s : List UInt8}
    (hv : SpellsDescriptor F x v) (hw : SpellsDescriptor F y w) (h : x ++ r = y ++ s) : v = w ∧ x = y ∧ r = s := by
  have h1 := (C88_descriptor_iff hF hL (rest := r)).mpr ⟨x, rfl, hv⟩
  have h2 := (C88_descriptor_iff hF hL (rest := s)).mpr ⟨y, rfl, hw⟩
  rw [h, h2] at h1
  cases h1
  exact ⟨rfl, List.append_cancel_right h, rfl⟩

/-- C88: nothing shorter is read: if the bytes end within a spelling, reading fails. -/
theorem C88_cut_short (hF : F.Lawful) (hL : F.Local) {v : Value} {x y : List UInt8} (hy : y ≠ [])
    (hv : Spells F (x ++ y) v) : F.value.r x = none := by
  cases h : F.value.r x with
  | none => rfl
  | some p =>
    obtain ⟨w, rest⟩ := p
    obtain ⟨used, rfl, hu⟩ := (C88_value_iff hF hL).mp h
    obtain ⟨_, e, _⟩ := C88_unambiguous hF hL hu hv (r := rest ++ y) (s := []) (by simp)
    have := congrArg List.length e
    simp only [List.length_append] at this
    exact absurd (List.length_eq_zero_iff.mp (by omega)) hy

/-- C88: little endian reads each primitive from the bytes it uses up, so the above hold of it. -/
theorem C88_little_endian : Speedy.le.Local := le_local

end

/-- Three entries, out of order and two with the same key: of those the last counts. -/
private theorem c88_map : Spells Speedy.le
    ([21, 0, 0, 0] ++ ([3, 0, 0, 0] ++ [[1, 0, 0, 0, 2] ++ [11, 0, 0, 0, 1], [1, 0, 0, 0, 1] ++ [11, 0, 0, 0, 0],
      [1, 0, 0, 0, 2] ++ [11, 0, 0, 0, 0]].flatten))
    (.map [(.scalar (.int .u8 1), .scalar (.bool false)), (.scalar (.int .u8 2), .scalar (.bool false))]) := by
  have t : ∀ {u n i}, u.length = 4 → valueForms[i]? = some n → leNat u = i → Speedy.le.Tag valueForms u n :=
    fun h1 h2 h3 => ⟨_, h2, leBin_spells h1 h3⟩
  have k1 : Spells Speedy.le [1, 0, 0, 0, 1] (.scalar (.int .u8 1)) :=
    .scalar [1, 0, 0, 0] [1] (.int .u8 1) (t rfl (i := 1) rfl rfl) (leInt_spells rfl (by decide))
  have k2 : Spells Speedy.le [1, 0, 0, 0, 2] (.scalar (.int .u8 2)) :=
    .scalar [1, 0, 0, 0] [2] (.int .u8 2) (t rfl (i := 1) rfl rfl) (leInt_spells rfl (by decide))
  have b0 : Spells Speedy.le [11, 0, 0, 0, 0] (.scalar (.bool false)) :=
    .scalar [11, 0, 0, 0] [0] (.bool false) (t rfl (i := 11) rfl rfl) (fun _ => rfl)
  have b1 : Spells Speedy.le [11, 0, 0, 0, 1] (.scalar (.bool true)) :=
    .scalar [11, 0, 0, 0] [1] (.bool true) (t rfl (i := 11) rfl rfl) (fun _ => rfl)
  refine .map [21, 0, 0, 0] [3, 0, 0, 0] [([1, 0, 0, 0, 2], [11, 0, 0, 0, 1]), ([1, 0, 0, 0, 1], [11, 0, 0, 0, 0]),
      ([1, 0, 0, 0, 2], [11, 0, 0, 0, 0])]
    [(.scalar (.int .u8 2), .scalar (.bool true)), (.scalar (.int .u8 1), .scalar (.bool false)),
      (.scalar (.int .u8 2), .scalar (.bool false))] _ (t rfl (i := 21) rfl rfl) (leBin_spells rfl rfl) rfl ?_ ?_ ?_
  · simp [k1, k2]
  · simp [b0, b1]
  · exact (collected_iff valueCmpOn).mpr (by simp [bmCollect, bmPut, Value.cmp, Scalar.cmp, ScalarKind.idx, Scalar.kind, compare, compareOfLessAndEq])

/-- The theorem applies: these bytes are read, the ones after them are left. -/
example (rest : List UInt8) : Speedy.le.value.r ([21, 0, 0, 0, 3, 0, 0, 0, 1, 0, 0, 0, 2, 11, 0, 0, 0, 1,
      1, 0, 0, 0, 1, 11, 0, 0, 0, 0, 1, 0, 0, 0, 2, 11, 0, 0, 0, 0] ++ rest) =
    some (.map [(.scalar (.int .u8 1), .scalar (.bool false)), (.scalar (.int .u8 2), .scalar (.bool false))], rest) :=
  (C88_value_iff C75_little_endian C88_little_endian).mpr ⟨_, rfl, c88_map⟩

/-- And without the last byte they are not. -/
example : Speedy.le.value.r [21, 0, 0, 0, 3, 0, 0, 0, 1, 0, 0, 0, 2, 11, 0, 0, 0, 1,
      1, 0, 0, 0, 1, 11, 0, 0, 0, 0, 1, 0, 0, 0, 2, 11, 0, 0, 0] = none :=
  C88_cut_short C75_little_endian C88_little_endian (y := [0]) (by simp) c88_map

/-- The descriptor of `u8`: the root, one entry, its id, that there is a node, a scalar, the second of the
scalar types. -/
example (rest : List UInt8) : Speedy.le.descriptor.r ([5, 0, 0, 0, 0, 0, 0, 0] ++ ([1, 0, 0, 0] ++
      [[5, 0, 0, 0, 0, 0, 0, 0] ++ ([1] ++ ([7, 0, 0, 0] ++ [1, 0, 0, 0]))].flatten) ++ rest) =
    some (⟨5, [(5, some (.scalar (.int .u8)))]⟩, rest) := by
  refine (C88_descriptor_iff C75_little_endian C88_little_endian).mpr ⟨_, rfl, _, _, rfl,
    leInt_spells rfl (by decide), [1, 0, 0, 0], [([5, 0, 0, 0, 0, 0, 0, 0], [1] ++ ([7, 0, 0, 0] ++ [1, 0, 0, 0]))],
    [(5, some (.scalar (.int .u8)))], rfl, leBin_spells rfl rfl, .cons ⟨leInt_spells rfl (by decide), ?_⟩ .nil,
    (collected_iff natCmpOn).mpr rfl⟩
  exact ⟨[1], _, rfl, fun _ => rfl, .scalar [7, 0, 0, 0] [1, 0, 0, 0] (.int .u8) ⟨7, rfl, leBin_spells rfl rfl⟩
    ⟨1, rfl, leBin_spells rfl rfl⟩⟩

/-- The path `.3[true]`. -/
example (rest : List UInt8) : Speedy.le.keyPath.r ([2, 0, 0, 0] ++ [[0, 0, 0, 0] ++ ([1, 0, 0, 0] ++
      [3, 0, 0, 0, 0, 0, 0, 0]), [1, 0, 0, 0] ++ ([11, 0, 0, 0] ++ [1])].flatten ++ rest) =
    some ([.numbered 3, .get (.scalar (.bool true))], rest) := by
  refine (C88_key_path_iff C75_little_endian C88_little_endian).mpr ⟨_, rfl, _, _, rfl, leBin_spells rfl rfl,
    .cons ?_ (.cons ?_ .nil)⟩
  · exact .numbered _ _ _ 3 ⟨0, rfl, leBin_spells rfl rfl⟩ ⟨1, rfl, leBin_spells rfl rfl⟩ (leInt_spells rfl (by decide))
  · exact .get _ _ _ ⟨1, rfl, leBin_spells rfl rfl⟩ (.scalar _ _ (.bool true) ⟨11, rfl, leBin_spells rfl rfl⟩ fun _ => rfl)


end Mirror
