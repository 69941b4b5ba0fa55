import Verif.Lemmas.SerdeExact

set_option linter.unusedSimpArgs false

/-!
# C86: exactly the data that denote a value are read, and as that value
-/

namespace Mirror

/-- C86: a `Value` is read from some data exactly if the data denote it. -/
theorem C86_reads_iff (m : VariantId) (d : Data) (v : Value) : Value.de m d = some v ↔ Denotes m d v := de_iff

/-- C86: a key path is read from some data exactly if the data denote it. -/
theorem C86_path_iff (m : VariantId) (d : Data) (p : KeyPath) : KeyPath.de m d = some p ↔ DenotesPath m d p :=
  pathDe_iff

/-- C86: the same for a single key of a path. -/
theorem C86_key_iff (m : VariantId) (d : Data) (k : Key) : Key.de m d = some k ↔ DenotesKey m d k := keyDe_iff

/-- C86: what is written denotes the value it was written from, and no data denote two values. -/
theorem C86_unambiguous (m : VariantId) {v w : Value} :
    (v.Storable → Denotes m v.ser v) ∧ ∀ d, Denotes m d v → Denotes m d w → v = w :=
  ⟨fun h => de_iff.mp (de_ser h), fun _ h h' => by
    rw [← de_iff] at h h'
    exact Option.some.inj (h.symm.trans h')⟩

/-- C86: the order of the fields of a struct and the widths of integers do not matter, at any depth. -/
theorem C86_rearranged (m : VariantId) {d e : Data} (h : d.Rearranged e) : Value.de m d = Value.de m e := by
  refine Option.ext fun v => ?_
  rw [de_iff, de_iff]
  exact ⟨fun hd => rearr_denotes hd h, fun he => rearr_denotes he (rearranged_symm h)⟩

/-- C86: nor does the order of the entries of a map, if no two of its keys compare equal. -/
theorem C86_entry_order (m : VariantId) {i : Nat} {n : String} {ds es : List (Data × Data)} {v : Value}
    (hk : ds.Pairwise fun a b => ∀ x y, Value.de m a.1 = some x → Value.de m b.1 = some y → Value.cmp y x ≠ .eq)
    (hp : ds.Perm es) (h : Value.de m (.newtype i n (.map ds)) = some v) :
    Value.de m (.newtype i n (.map es)) = some v := by
  rw [de_iff] at h ⊢
  generalize hd : Data.newtype i n (.map ds) = d at h
  cases h with
  | map i' n' ds' l kvs hm hl h1 h2 hg =>
    cases hd
    have hF : List.Forall₂ (fun (a : Data × Data) (b : Value × Value) => Denotes m a.1 b.1 ∧ Denotes m a.2 b.2) ds l :=
      forall₂_of_zip (R := fun p : (Data × Data) × (Value × Value) => Denotes m p.1.1 p.2.1 ∧ Denotes m p.1.2 p.2.2)
        hl fun p hp => ⟨h1 p hp, h2 p hp⟩
    obtain ⟨l', h3, h4⟩ := List.perm_comp_forall₂ hp.symm hF
    have h5 := zip_of_forall₂ (R := fun p : (Data × Data) × (Value × Value) =>
      Denotes m p.1.1 p.2.1 ∧ Denotes m p.1.2 p.2.2) h3
    refine .map _ _ _ l' _ hm h5.1 (fun p hp => (h5.2 p hp).1) (fun p hp => (h5.2 p hp).2) ?_
    have hpw : l.Pairwise fun p q => Value.cmp q.1 p.1 ≠ .eq := by
      clear hg h3 h4 h5 hp h1 h2 hl
      induction hF with
      | nil => exact .nil
      | cons ha hr ih =>
        have hk' := List.pairwise_cons.mp hk
        refine .cons ?_ (ih hk'.2)
        intro q hq
        obtain ⟨a, haq, hab⟩ := forall₂_mem_right hr hq
        exact hk'.1 a haq _ _ (de_iff.mpr ha.1) (de_iff.mpr hab.1)
    rw [gathered_iff valueCmpOn] at hg ⊢
    rw [hg]
    have hs : BMSorted Value.cmp (bmOfList Value.cmp l) := bmOfList_sorted valueCmpOn (by simp)
    have h6 := bmOfList_perm hpw
    exact (bmOfList_eq_of_perm valueCmpOn (fun _ _ => trivial) hs (h4.trans h6.symm)).symm
  | scalar _ _ _ _ _ _ hs => cases hd; cases hs
  | struct _ _ _ _ _ _ _ _ hr => cases hd; rcases hr with ⟨_, h, _⟩ | ⟨h, _⟩ <;> cases h
  | enumS _ _ _ _ _ _ _ _ _ _ _ _ hr => cases hd; rcases hr with ⟨_, h, _⟩ | ⟨h, _⟩ <;> cases h
  | enumT _ _ _ _ _ _ _ _ _ _ hr => cases hd; rcases hr with ⟨_, h, _⟩ | ⟨h, _⟩ <;> cases h
  | enumU _ _ _ _ _ _ _ hr => cases hd; rcases hr with ⟨_, h, _⟩ | ⟨h, _⟩ <;> cases h
  | tupleStruct _ _ _ _ _ _ _ hr => cases hd; rcases hr with ⟨_, h, _⟩ | ⟨h, _⟩ <;> cases h
  | tuple _ _ _ _ _ _ hr => cases hd; rcases hr with ⟨_, h, _⟩ | ⟨h, _⟩ <;> cases h
  | list => cases hd

/-- Non-vacuity: an enum whose `kind` comes before its `name`, with a field nobody knows and its
number written in another width, is read like the one that is written; without the `name` it is not
read; with the name of another variant it is not read. -/
example :
    let kind : Data := .newtype 1 "Tuple" (.struct [("fields", .seq [.newtype 1 "u8" (.int .i64 7)])])
    let kind' : Data := .newtype 1 "Tuple" (.struct [("fields", .seq [.newtype 1 "u8" (.int .u8 7)])])
    let d : Data := .newtype 17 "EnumValue" (.struct [("x", .none), ("kind", kind), ("name", .str "A")])
    let d' : Data := .newtype 17 "EnumValue" (.struct [("name", .str "A"), ("x", .none), ("kind", kind')])
    d.Rearranged d' ∧ Denotes .byName d (.enumT "A" [.scalar (.int .u8 7)]) ∧
      Value.de .byName (.newtype 17 "EnumValue" (.struct [("x", .none), ("kind", kind)])) = none ∧
      Value.de .byName (.newtype 17 "TupleValue" (.struct [("kind", kind), ("name", .str "A")])) = none := by
  intro kind kind' d d'
  have hkind : kind.Rearranged kind' := by
    refine .newtype _ _ _ _ (.struct _ [("fields", .seq [.newtype 1 "u8" (.int .u8 7)])] _ rfl ?_ (.refl _))
    simp only [List.zip_cons_cons, List.zip_nil_right, List.mem_singleton, forall_eq]
    refine .seq _ _ rfl ?_
    simp only [List.zip_cons_cons, List.zip_nil_right, List.mem_singleton, forall_eq]
    exact .newtype _ _ _ _ (.int _ _ _)
  refine ⟨.newtype _ _ _ _ (.struct _ [("x", .none), ("kind", kind'), ("name", .str "A")] _ rfl ?_ ?_), ?_, ?_, ?_⟩
  · simp only [List.zip_cons_cons, List.zip_nil_right, List.mem_cons, List.not_mem_nil, or_false]
    rintro p (rfl | rfl | rfl)
    · exact .refl _
    · exact hkind
    · exact .refl _
  · exact List.perm_append_comm (l₁ := [("x", .none), ("kind", kind')]) (l₂ := [("name", .str "A")])
  · refine .enumT 17 "EnumValue" _ "A" 1 "Tuple" (.struct [("fields", .seq [.newtype 1 "u8" (.int .i64 7)])]) [.newtype 1 "u8" (.int .i64 7)] _ rfl ?_ rfl ?_ rfl ?_
    · exact .inl ⟨_, rfl, .cons ⟨by simp, by decide⟩ (.cons ⟨by simp [kind], by decide⟩ .nil)⟩
    · exact .inl ⟨_, rfl, .cons ⟨by simp, by decide⟩ .nil⟩
    · simp only [List.zip_cons_cons, List.zip_nil_right, List.mem_singleton, forall_eq]
      exact .scalar 1 "u8" "u8" _ _ rfl (.int .u8 .i64 7 (by simp [IntKind.InRange, IntKind.signed, IntKind.bits]))
  · rw [value_means (m := .byName) 17 rfl rfl, deVariant, deEnumValue]; simp [deStruct, deFieldsOf, deField]
  · rw [value_means (m := .byName) 19 rfl rfl, deVariant, deTupleValue]; simp [deStruct, deFieldsOf, deField]

/-- Non-vacuity: a key whose inner variant is unknown is no key, nor is one without its payload. -/
example : Key.de .byName (.newtype 0 "Field" (.newtype 0 "Index" (.str "a"))) = none ∧
    Key.de .byName (.unit 0 "Field") = none ∧
    DenotesKey .byName (.newtype 7 "Field" (.newtype 9 "Named" (.str "a"))) (.named "a") :=
  ⟨rfl, rfl, .named _ _ _ _ _ rfl rfl⟩

end Mirror
