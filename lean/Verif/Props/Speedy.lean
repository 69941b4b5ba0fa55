import Verif.Lemmas.SpeedyLe
import Verif.Props.SerdeType

set_option linter.unusedSimpArgs false

/-!
# C75: binary serialisation

`Value`, `KeyPath`, `ScalarOwned`, `ScalarType` and `TypeDescriptor` written with speedy and read back,
for every layout of the primitives that is lawful; little endian is one.
-/

namespace Mirror

/-- C75: values. Every value that the Rust type can hold is written, unless a string, list or map in it
is too long; it is read back unchanged whatever follows; and bytes of any origin only ever read as such
a value. -/
theorem C75_value {F : Speedy} (hF : F.Lawful) : F.value.Faithful Value.Storable Value.Short :=
  hF.value

/-- C75: key paths. -/
theorem C75_key_path {F : Speedy} (hF : F.Lawful) : F.keyPath.Faithful KeyPath.Storable KeyPath.Short :=
  hF.keyPath

/-- C75: type descriptors. -/
theorem C75_descriptor {F : Speedy} (hF : F.Lawful) :
    F.descriptor.Faithful WireDescriptor.Storable WireDescriptor.Short :=
  hF.descriptor

/-- C75: owned scalars. -/
theorem C75_scalar {F : Speedy} (hF : F.Lawful) : F.scalar.Faithful Scalar.Fits Scalar.Short :=
  hF.scalar

/-- C75: kinds of scalars. -/
theorem C75_scalar_type {F : Speedy} (hF : F.Lawful) :
    F.kind.Faithful (fun _ => True) fun _ => True :=
  hF.kind

/-- C75: little endian is lawful, so the above hold of it. -/
theorem C75_little_endian : Speedy.le.Lawful := le_lawful

/-- C75, for any faithful format: no two different things are written alike, not even up to what
follows. -/
theorem C75_prefix_free {α : Type} {c : Bin α} {held fits : α → Prop} (h : c.Faithful held fits)
    {a b : α} {x y r s : List UInt8} (ha : held a) (hb : held b) (hx : c.w a = some x)
    (hy : c.w b = some y) (he : x ++ r = y ++ s) : a = b ∧ x = y ∧ r = s := by
  have h1 := h.back a x r ha hx
  have h2 := h.back b y s hb hy
  rw [he, h2] at h1
  cases h1
  rw [hx] at hy
  cases hy
  exact ⟨rfl, rfl, rfl⟩

/-- C75, for any faithful format: what reading can give is exactly what the type can hold and fits the
format. -/
theorem C75_read_iff {α : Type} {c : Bin α} {held fits : α → Prop} (h : c.Faithful held fits) (a : α) :
    (∃ bs rest, c.r bs = some (a, rest)) ↔ held a ∧ fits a := by
  constructor
  · rintro ⟨bs, rest, hr⟩
    exact ⟨(h.only _ _ _ hr).1, (h.only _ _ _ hr).2.1⟩
  · rintro ⟨h1, h2⟩
    obtain ⟨bs, hbs⟩ := (h.writes a h1).2 h2
    exact ⟨bs ++ [], [], h.back a bs [] h1 hbs⟩

/-- C75: a value that was read can be written and read again: this gives the same value. (The bytes
need not be the same: a map may have been given with its entries in another order.) -/
theorem C75_read_write_read {F : Speedy} (hF : F.Lawful) {bs rest : List UInt8} {v : Value}
    (h : F.value.r bs = some (v, rest)) :
    ∃ bs', F.value.w v = some bs' ∧ ∀ rest', F.value.r (bs' ++ rest') = some (v, rest') := by
  obtain ⟨h1, h2, _⟩ := (C75_value hF).only _ _ _ h
  obtain ⟨bs', hbs⟩ := ((C75_value hF).writes v h1).2 h2
  exact ⟨bs', hbs, fun rest' => (C75_value hF).back v bs' rest' h1 hbs⟩

/-- C75: reading a value recurses at most as deep as there are bytes: any larger bound on the depth
gives the same, so the bound in the model is none. -/
theorem C75_fuel {F : Speedy} (hF : F.Lawful) (bs : List UInt8) {f : Nat} (h : bs.length < f) :
    Value.br F f bs = F.value.r bs :=
  br_agree hF bs.length f (bs.length + 1) h (by omega) bs (Nat.le_refl _)

/-- C75: a map that comes with several entries for equal keys keeps the last of them, key and value. -/
theorem C75_last_entry_wins {F : Speedy} (hF : F.Lawful) {k k' v v' : Value} {bs rest : List UInt8}
    {a b c d n : List UInt8} (hk : k.Storable) (hk' : k'.Storable) (hv : v.Storable) (hv' : v'.Storable)
    (he : Value.cmp k' k = .eq) (h1 : F.value.w k = some a) (h2 : F.value.w v = some b)
    (h3 : F.value.w k' = some c) (h4 : F.value.w v' = some d) (h5 : F.len.w 2 = some n)
    (h6 : F.tag.w 21 = some bs) :
    F.value.r (bs ++ (n ++ (a ++ (b ++ (c ++ (d ++ rest)))))) = some (.map [(k', v')], rest) := by
  have hb : ∀ {x : Value} {y : List UInt8}, x.Storable → F.value.w x = some y →
      ∃ e, ∀ f, e ≤ f → ∀ z, Value.br F f (y ++ z) = some (x, z) := by
    intro x y hx hy
    obtain ⟨e, he⟩ := br_back hF hx
    exact ⟨e, fun f hf z => he f hf y z hy⟩
  obtain ⟨e1, b1⟩ := hb hk h1
  obtain ⟨e2, b2⟩ := hb hv h2
  obtain ⟨e3, b3⟩ := hb hk' h3
  obtain ⟨e4, b4⟩ := hb hv' h4
  generalize hz : bs ++ (n ++ (a ++ (b ++ (c ++ (d ++ rest))))) = z
  rw [← C75_fuel hF z (f := max e1 (max e2 (max e3 (max e4 z.length))) + 1) (by omega), ← hz, Value.br,
    hF.tag.back 21 bs _ (fits32_small (by decide)) h6]
  simp only [Option.bind_some, Speedy.rvalue, Speedy.rbtree, Speedy.rvec,
    hF.len.back 2 n _ trivial h5, rmany, rpair]
  rw [b1 _ (by omega)]
  simp only [Option.bind_some]
  rw [b2 _ (by omega)]
  simp only [Option.bind_some, Option.map_some]
  rw [b3 _ (by omega)]
  simp only [Option.bind_some]
  rw [b4 _ (by omega)]
  simp [bmCollect, bmPut, he]

/-! ## Cases -/

/-- Non-vacuity of C75: a value with a map, nested structs and strings is written and read back. -/
example : ∃ bs, Speedy.le.value.w (.map [(.scalar (.string "a"), .enumS "V" ["x"] [("x", .scalar (.int .i8 (-1)))])]) = some bs ∧
    Speedy.le.value.r (bs ++ [7]) =
      some (.map [(.scalar (.string "a"), .enumS "V" ["x"] [("x", .scalar (.int .i8 (-1)))])], [7]) := by
  have hs : Value.Storable (.map [(.scalar (.string "a"), .enumS "V" ["x"] [("x", .scalar (.int .i8 (-1)))])]) := by
    refine .map _ (by simp [BMSorted]) ?_ ?_
    · simp only [List.mem_singleton, forall_eq]
      exact .scalar _ trivial
    · simp only [List.mem_singleton, forall_eq]
      refine .enumS _ _ _ (by simp [BMSorted]) ?_
      simp only [List.mem_singleton, forall_eq]
      exact .scalar _ (by simp [Scalar.Fits, IntKind.InRange, IntKind.signed, IntKind.bits])
  have hsh : Value.Short (.map [(.scalar (.string "a"), .enumS "V" ["x"] [("x", .scalar (.int .i8 (-1)))])]) := by
    have h1 : ShortStr "x" := by unfold ShortStr Fits32; decide
    refine .map _ (by simp [Fits32]) ?_ ?_
    · simp only [List.mem_singleton, forall_eq]
      exact .scalar _ (by show ShortStr "a"; unfold ShortStr Fits32; decide)
    · simp only [List.mem_singleton, forall_eq]
      refine .enumS _ _ _ (by unfold ShortStr Fits32; decide) ⟨by simp [Fits32], by simpa using h1⟩
        (by simp [Fits32]) (by simpa using h1) ?_
      simp only [List.mem_singleton, forall_eq]
      exact .scalar _ trivial
  obtain ⟨bs, hbs⟩ := ((C75_value le_lawful).writes _ hs).2 hsh
  exact ⟨bs, hbs, (C75_value le_lawful).back _ bs [7] hs hbs⟩

/-- The bytes of `Value::List(vec![Value::u16(258)])`: tag 20, length 1, tag 2, and 258. -/
example : Speedy.le.value.w (.list [.scalar (.int .u16 258)]) =
    some [20, 0, 0, 0, 1, 0, 0, 0, 2, 0, 0, 0, 2, 1] := by
  rfl

/-- Non-vacuity of C75 for descriptors: a recursive type with docs and metadata. -/
example : ∃ bs, Speedy.le.descriptor.w wireTree = some bs ∧
    Speedy.le.descriptor.r (bs ++ []) = some (wireTree, []) := by
  have h1 : ∀ s : String, s.utf8ByteSize < 100 → ShortStr s := fun s h => Nat.lt_trans h (by decide)
  have hsh : wireTree.Short := by
    refine ⟨by simp [Fits32, wireTree], ?_⟩
    intro p hp n hn
    simp only [wireTree, List.mem_cons, List.not_mem_nil, or_false] at hp
    rcases hp with rfl | rfl
    · cases hn
      exact h1 _ (by decide)
    · cases hn
      refine ⟨h1 _ (by decide), ⟨by simp [Fits32], ?_⟩, ⟨by simp [Fits32], ?_⟩, by simp [MetaShort, Fits32],
        by simp [ShortStrs, Fits32]⟩
      · simp only [List.mem_singleton, forall_eq]
        refine ⟨h1 _ (by decide), h1 _ (by decide), ⟨by simp [Fits32], ?_⟩, by simp [Fits32], ?_⟩
        · simp only [List.mem_singleton, forall_eq]
          exact ⟨h1 _ (by decide), .enumU _ (h1 _ (by decide))⟩
        · simp only [List.mem_singleton, forall_eq]
          exact h1 _ (by decide)
      · simp only [List.mem_singleton, forall_eq]
        exact h1 _ (by decide)
  obtain ⟨bs, hbs⟩ := ((C75_descriptor le_lawful).writes _ wireTree_storable).2 hsh
  exact ⟨bs, hbs, (C75_descriptor le_lawful).back _ bs [] wireTree_storable hbs⟩

/-- Non-vacuity of `C75_last_entry_wins`: `0.0` and `-0.0` are equal keys but different values. -/
example : Value.cmp (.scalar (.f32 0x80000000#32)) (.scalar (.f32 0#32)) = .eq := by
  simp only [Value.cmp]; decide

end Mirror
