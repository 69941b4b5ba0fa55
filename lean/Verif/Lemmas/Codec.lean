import Verif.Spec.SerdeType
import Verif.Lemmas.Serde
import Verif.Lemmas.FromReflect

set_option linter.unusedSimpArgs false

/-!
# Lemmas on reading back what was written

`Codec.Exact c P`: exactly the values satisfying `P` come out of reading, and each of them comes
out of reading what it is written as.
-/

namespace Mirror

structure Codec.Exact {α} (c : Codec α) (P : α → Prop) : Prop where
  back : ∀ a, P a → c.de (c.ser a) = some a
  only : ∀ d a, c.de d = some a → P a

structure Fields.Exact {α} (f : Fields α) (P : α → Prop) : Prop where
  keys : ∀ a, (f.ser a).map (·.1) = f.names
  back : ∀ a, P a → ∀ pre : List (String × Data), (∀ p ∈ pre, p.1 ∉ f.names) →
    f.deNamed (pre ++ f.ser a) = some a
  named : ∀ d a, f.deNamed d = some a → P a
  pos : ∀ d a, f.dePos d = some a → P a

theorem Codec.Exact.congr {α} {c : Codec α} {P Q : α → Prop} (h : c.Exact P) (hPQ : ∀ a, P a ↔ Q a) :
    c.Exact Q :=
  ⟨fun a ha => h.back a ((hPQ a).2 ha), fun d a hd => (hPQ a).1 (h.only d a hd)⟩

theorem Codec.str_exact : Codec.str.Exact fun _ => True :=
  ⟨fun _ _ => rfl, fun _ _ _ => trivial⟩

theorem u64_inRange {i : Int} : IntKind.InRange .u64 i ↔ 0 ≤ i ∧ Fits64 i.toNat := by
  unfold Fits64
  simp only [IntKind.InRange, IntKind.signed, IntKind.bits]
  simp only [Bool.false_eq_true, if_false]
  constructor
  · rintro ⟨h1, h2⟩
    refine ⟨h1, ?_⟩
    rw [Int.toNat_lt h1]
    exact_mod_cast h2
  · rintro ⟨h1, h2⟩
    refine ⟨h1, ?_⟩
    rw [Int.toNat_lt h1] at h2
    exact_mod_cast h2

theorem de_u64 {d : Data} {s : Scalar} (h : Scalar.de (.int .u64) d = some s) :
    ∃ i : Int, s = .int .u64 i ∧ IntKind.InRange .u64 i := by
  unfold Scalar.de at h
  split at h
  · next hk =>
    cases hk
    split at h
    · next hr => cases h; exact ⟨_, rfl, hr⟩
    · cases h
  all_goals first | (next hk => cases hk) | cases h

theorem u64_de {a : Nat} (ha : Fits64 a) : Scalar.de (.int .u64) (.int .u64 a) = some (.int .u64 a) := by
  unfold Scalar.de
  exact if_pos (u64_inRange.2 ⟨Int.natCast_nonneg a, by rw [Int.toNat_natCast]; exact ha⟩)

theorem nat64_back {a : Nat} (ha : Fits64 a) : Codec.nat64.de (Codec.nat64.ser a) = some a := by
  have key : ∀ d : Data, Scalar.de (.int .u64) d = some (.int .u64 a) → Codec.nat64.de d = some a := by
    intro d h
    unfold Codec.nat64
    simp only [h, Int.toNat_natCast]
  exact key _ (u64_de ha)

theorem nat64_only {a : Nat} {d} (h : Codec.nat64.de d = some a) : Fits64 a := by
  unfold Codec.nat64 at h
  simp only at h
  split at h
  · next i hs =>
    obtain ⟨j, hj, hi⟩ := de_u64 hs
    cases hj
    cases h
    exact (u64_inRange.1 hi).2
  · cases h

theorem Codec.nat64_exact : Codec.nat64.Exact Fits64 :=
  ⟨fun _ => nat64_back, fun _ _ => nat64_only⟩

theorem Codec.value_exact (m : VariantId) : (Codec.value m).Exact Value.Storable :=
  ⟨fun _ h => de_ser h, fun _ _ h => de_storable h⟩

theorem optAll_map_back {α β} {f : α → Option β} {g : β → α} {l : List β}
    (h : ∀ b ∈ l, f (g b) = some b) : optAll ((l.map g).map f) = some l := by
  rw [optAll_eq_some, List.map_map]
  exact List.map_congr_left h

theorem optAll_map_only {α β} {f : α → Option β} {P : β → Prop} (hf : ∀ a b, f a = some b → P b)
    {ds : List α} {l : List β} (h : optAll (ds.map f) = some l) : ∀ b ∈ l, P b := by
  rw [optAll_eq_some] at h
  intro b hb
  have : some b ∈ ds.map f := by rw [h]; exact List.mem_map_of_mem hb
  obtain ⟨d, _, hd⟩ := List.mem_map.1 this
  exact hf d b hd

theorem Codec.Exact.vec {α} {c : Codec α} {P : α → Prop} (h : c.Exact P) :
    c.vec.Exact fun l => ∀ a ∈ l, P a := by
  constructor
  · intro l hl
    simp only [Codec.vec, deSeq, Option.bind_some]
    exact optAll_map_back fun b hb => h.back b (hl b hb)
  · intro d l hd
    simp only [Codec.vec] at hd
    obtain ⟨ds, _, hds⟩ := Option.bind_eq_some_iff.1 hd
    exact optAll_map_only h.only hds

theorem Codec.Exact.btree {κ α} {cmp : κ → κ → Ordering} (hc : CmpOn (fun _ : κ => True) cmp)
    {k : Codec κ} {c : Codec α} {P : κ → Prop} {Q : α → Prop} (hk : k.Exact P) (h : c.Exact Q) :
    (Codec.btree cmp k c).Exact fun l => BMSorted cmp l ∧ (∀ p ∈ l, P p.1) ∧ ∀ p ∈ l, Q p.2 := by
  constructor
  · rintro l ⟨hs, h1, h2⟩
    simp only [Codec.btree, deMap, Option.bind_some]
    rw [optAll_map_back (g := fun p : κ × α => (k.ser p.1, c.ser p.2)) (l := l)]
    · simp [bmOfList_self hc (by simp) hs]
    · intro p hp
      simp [hk.back _ (h1 p hp), h.back _ (h2 p hp)]
  · intro d l hd
    simp only [Codec.btree] at hd
    obtain ⟨ds, _, hds⟩ := Option.bind_eq_some_iff.1 hd
    obtain ⟨l', hl', rfl⟩ := Option.map_eq_some_iff.1 hds
    have : ∀ p ∈ l', P p.1 ∧ Q p.2 := by
      refine optAll_map_only (P := fun p => P p.1 ∧ Q p.2) ?_ hl'
      intro q p hq
      obtain ⟨a, ha, hb⟩ := Option.bind_eq_some_iff.1 hq
      obtain ⟨b, hb', rfl⟩ := Option.map_eq_some_iff.1 hb
      exact ⟨hk.only _ _ ha, h.only _ _ hb'⟩
    exact ⟨bmOfList_sorted hc (by simp), bmOfList_keys (CmpOn.all hc) fun p hp => (this p hp).1,
      bmOfList_vals fun p hp => (this p hp).2⟩

theorem Codec.Exact.option {α} {c : Codec α} {P : α → Prop} (h : c.Exact P) :
    c.option.Exact fun o => ∀ a, o = some a → P a := by
  constructor
  · rintro (_ | a) ha
    · rfl
    · simp [Codec.option, h.back a (ha a rfl)]
  · intro d o hd a ha
    subst ha
    simp only [Codec.option] at hd
    split at hd
    · cases hd
    · obtain ⟨b, hb, hb'⟩ := Option.map_eq_some_iff.1 hd
      cases hb'
      exact h.only _ _ hb
    · cases hd

theorem deField_mid {n : String} {d : Data} {pre post : List (String × Data)}
    (h1 : ∀ p ∈ pre, p.1 ≠ n) (h2 : ∀ p ∈ post, p.1 ≠ n) :
    deField n (pre ++ (n, d) :: post) = some d := by
  have h1' : pre.filter (fun p => p.1 == n) = [] := by
    rw [List.filter_eq_nil_iff]; intro p hp; simp [h1 p hp]
  have h2' : post.filter (fun p => p.1 == n) = [] := by
    rw [List.filter_eq_nil_iff]; intro p hp; simp [h2 p hp]
  simp [deField, List.filter_append, List.filter_cons, h1', h2']

theorem Fields.one_exact {α} {n : String} {c : Codec α} {P : α → Prop} (h : c.Exact P) :
    (Fields.one n c).Exact P := by
  refine ⟨fun _ => rfl, ?_, ?_, ?_⟩
  · intro a ha pre hpre
    have := deField_mid (n := n) (d := c.ser a) (pre := pre) (post := [])
      (fun p hp he => hpre p hp (by simp [Fields.one, he])) (by simp)
    simp [Fields.one, this, h.back a ha]
  · intro d a hd
    obtain ⟨x, _, hx⟩ := Option.bind_eq_some_iff.1 hd
    exact h.only _ _ hx
  · intro d a hd
    simp only [Fields.one] at hd
    split at hd
    · exact h.only _ _ hd
    · cases hd

theorem Fields.oneOption_exact {α} {n : String} {c : Codec α} {P : α → Prop} (h : c.Exact P) :
    (Fields.oneOption n c).Exact fun o => ∀ a, o = some a → P a := by
  have ho := h.option
  refine ⟨fun _ => rfl, ?_, ?_, ?_⟩
  · intro a ha pre hpre
    have := deField_mid (n := n) (d := c.option.ser a) (pre := pre) (post := [])
      (fun p hp he => hpre p hp (by simp [Fields.oneOption, he])) (by simp)
    simp only [Fields.oneOption, this]
    rw [if_neg (by simp)]
    simp [ho.back a ha]
  · intro d a hd
    simp only [Fields.oneOption] at hd
    split at hd
    · cases hd; simp
    · obtain ⟨x, _, hx⟩ := Option.bind_eq_some_iff.1 hd
      exact ho.only _ _ hx
  · intro d a hd
    simp only [Fields.oneOption] at hd
    split at hd
    · exact ho.only _ _ hd
    · cases hd

theorem Fields.Exact.cons {α β} {n : String} {c : Codec α} {f : Fields β} {P : α → Prop}
    {Q : β → Prop} (hf : f.Exact Q) (hc : c.Exact P) (hn : n ∉ f.names) :
    (f.cons n c).Exact fun p => P p.1 ∧ Q p.2 := by
  refine ⟨fun a => by simp [Fields.cons, hf.keys], ?_, ?_, ?_⟩
  · rintro ⟨a, b⟩ ⟨ha, hb⟩ pre hpre
    have h1 := deField_mid (n := n) (d := c.ser a) (pre := pre) (post := f.ser b)
      (fun p hp he => hpre p hp (by simp [Fields.cons, he]))
      (fun p hp he => hn (by rw [← hf.keys b, ← he]; exact List.mem_map_of_mem hp))
    have h2 := hf.back b hb (pre ++ [(n, c.ser a)]) (by
      intro p hp
      rcases List.mem_append.1 hp with hp | hp
      · intro hm; exact hpre p hp (by simp [Fields.cons, hm])
      · simp at hp; subst hp; exact hn)
    rw [List.append_assoc, List.singleton_append] at h2
    simp [Fields.cons, h1, h2, hc.back a ha]
  · rintro d ⟨a, b⟩ hd
    simp only [Fields.cons] at hd
    obtain ⟨a', h1, h2⟩ := Option.bind_eq_some_iff.1 hd
    obtain ⟨b', h3, h4⟩ := Option.map_eq_some_iff.1 h2
    cases h4
    obtain ⟨x, _, hx⟩ := Option.bind_eq_some_iff.1 h1
    exact ⟨hc.only _ _ hx, hf.named _ _ h3⟩
  · rintro d ⟨a, b⟩ hd
    simp only [Fields.cons] at hd
    split at hd
    · cases hd
    · obtain ⟨a', h1, h2⟩ := Option.bind_eq_some_iff.1 hd
      obtain ⟨b', h3, h4⟩ := Option.map_eq_some_iff.1 h2
      cases h4
      exact ⟨hc.only _ _ h1, hf.pos _ _ h3⟩

theorem Fields.Exact.struct {α β} {f : Fields α} {P : α → Prop} (hf : f.Exact P) {mk : α → β}
    {un : β → α} (h1 : ∀ b, mk (un b) = b) (h2 : ∀ a, un (mk a) = a) :
    (f.struct mk un).Exact fun b => P (un b) := by
  constructor
  · intro b hb
    have := hf.back _ hb [] (by simp)
    simp only [List.nil_append] at this
    simp [Fields.struct, this, h1]
  · intro d b hd
    simp only [Fields.struct] at hd
    split at hd
    · obtain ⟨a, ha, rfl⟩ := Option.map_eq_some_iff.1 hd
      rw [h2]; exact hf.named _ _ ha
    · obtain ⟨a, ha, rfl⟩ := Option.map_eq_some_iff.1 hd
      rw [h2]; exact hf.pos _ _ ha
    · cases hd

/-! ## The nodes -/

theorem Codec.strs_exact : Codec.strs.Exact fun _ => True :=
  Codec.str_exact.vec.congr fun _ => by simp

theorem Codec.metadata_exact (m : VariantId) : (Codec.metadata m).Exact MetaStorable :=
  (Codec.str_exact.btree strCmpOn (Codec.value_exact m)).congr fun _ => by simp [MetaStorable]

theorem WireNamed.codec_exact (m : VariantId) : (WireNamed.codec m).Exact WireNamed.Storable := by
  refine (((((Fields.one_exact Codec.strs_exact).cons (Codec.metadata_exact m) (by simp [Fields.cons, Fields.one, Fields.oneOption])).cons
    Codec.nat64_exact (by simp [Fields.cons, Fields.one, Fields.oneOption])).cons Codec.str_exact (by simp [Fields.cons, Fields.one, Fields.oneOption])).struct ?_ ?_).congr ?_
  · intro b; rfl
  · intro b; rfl
  · intro b; simp [WireNamed.Storable]

theorem WireUnnamed.codec_exact (m : VariantId) : (WireUnnamed.codec m).Exact WireUnnamed.Storable := by
  refine ((((Fields.one_exact Codec.strs_exact).cons (Codec.metadata_exact m) (by simp [Fields.cons, Fields.one, Fields.oneOption])).cons
    Codec.nat64_exact (by simp [Fields.cons, Fields.one, Fields.oneOption])).struct ?_ ?_).congr ?_
  · intro b; rfl
  · intro b; rfl
  · intro b; simp [WireUnnamed.Storable]

theorem Codec.namedFields_exact (m : VariantId) : (Codec.namedFields m).Exact NamedStorable :=
  (Codec.str_exact.btree strCmpOn (WireNamed.codec_exact m)).congr fun _ => by simp [NamedStorable]

theorem WireStruct.codec_exact (m : VariantId) : (WireStruct.codec m).Exact WireStruct.Storable := by
  refine ((((((Fields.one_exact Codec.strs_exact).cons (Codec.metadata_exact m) (by simp [Fields.cons, Fields.one, Fields.oneOption])).cons
    Codec.strs_exact (by simp [Fields.cons, Fields.one, Fields.oneOption])).cons (Codec.namedFields_exact m) (by simp [Fields.cons, Fields.one, Fields.oneOption])).cons
    Codec.str_exact (by simp [Fields.cons, Fields.one, Fields.oneOption])).struct ?_ ?_).congr ?_
  · intro b; rfl
  · intro b; rfl
  · intro b; simp [WireStruct.Storable]

theorem WireTuple.codec_exact (m : VariantId) : (WireTuple.codec m).Exact WireTuple.Storable := by
  refine (((((Fields.one_exact Codec.strs_exact).cons (Codec.metadata_exact m) (by simp [Fields.cons, Fields.one, Fields.oneOption])).cons
    (WireUnnamed.codec_exact m).vec (by simp [Fields.cons, Fields.one, Fields.oneOption])).cons
    Codec.str_exact (by simp [Fields.cons, Fields.one, Fields.oneOption])).struct ?_ ?_).congr ?_
  · intro b; rfl
  · intro b; rfl
  · intro b; simp [WireTuple.Storable]

theorem WireStructVariant.codec_exact (m : VariantId) :
    (WireStructVariant.codec m).Exact fun v => (WireVariant.struct v).Storable := by
  refine ((((((Fields.one_exact Codec.strs_exact).cons (Codec.metadata_exact m) (by simp [Fields.cons, Fields.one, Fields.oneOption])).cons
    Codec.strs_exact (by simp [Fields.cons, Fields.one, Fields.oneOption])).cons (Codec.namedFields_exact m) (by simp [Fields.cons, Fields.one, Fields.oneOption])).cons
    Codec.str_exact (by simp [Fields.cons, Fields.one, Fields.oneOption])).struct ?_ ?_).congr ?_
  · intro b; rfl
  · intro b; rfl
  · intro b; simp [WireVariant.Storable]

theorem WireTupleVariant.codec_exact (m : VariantId) :
    (WireTupleVariant.codec m).Exact fun v => (WireVariant.tuple v).Storable := by
  refine (((((Fields.one_exact Codec.strs_exact).cons (Codec.metadata_exact m) (by simp [Fields.cons, Fields.one, Fields.oneOption])).cons
    (WireUnnamed.codec_exact m).vec (by simp [Fields.cons, Fields.one, Fields.oneOption])).cons
    Codec.str_exact (by simp [Fields.cons, Fields.one, Fields.oneOption])).struct ?_ ?_).congr ?_
  · intro b; rfl
  · intro b; rfl
  · intro b; simp [WireVariant.Storable]

theorem WireUnitVariant.codec_exact (m : VariantId) :
    (WireUnitVariant.codec m).Exact fun v => (WireVariant.unit v).Storable := by
  refine ((((Fields.one_exact Codec.strs_exact).cons (Codec.metadata_exact m) (by simp [Fields.cons, Fields.one, Fields.oneOption])).cons
    Codec.str_exact (by simp [Fields.cons, Fields.one, Fields.oneOption])).struct ?_ ?_).congr ?_
  · intro b; rfl
  · intro b; rfl
  · intro b; simp [WireVariant.Storable]

theorem deEnum_variant (m : VariantId) (d : Data) :
    deEnum m ["Struct", "Tuple", "Unit"] (.newtype 0 "Struct" d) = some (0, some d) ∧
    deEnum m ["Struct", "Tuple", "Unit"] (.newtype 1 "Tuple" d) = some (1, some d) ∧
    deEnum m ["Struct", "Tuple", "Unit"] (.newtype 2 "Unit" d) = some (2, some d) := by
  cases m <;> exact ⟨rfl, rfl, rfl⟩

theorem WireVariant.codec_exact (m : VariantId) : (WireVariant.codec m).Exact WireVariant.Storable := by
  constructor
  · intro v hv
    cases v with
    | struct v =>
      simp only [WireVariant.codec, (deEnum_variant m _).1, (WireStructVariant.codec_exact m).back v hv]; rfl
    | tuple v =>
      simp only [WireVariant.codec, (deEnum_variant m _).2.1, (WireTupleVariant.codec_exact m).back v hv]; rfl
    | unit v =>
      simp only [WireVariant.codec, (deEnum_variant m _).2.2, (WireUnitVariant.codec_exact m).back v hv]; rfl
  · intro d v h
    simp only [WireVariant.codec] at h
    split at h
    · obtain ⟨a, ha, rfl⟩ := Option.map_eq_some_iff.1 h
      exact (WireStructVariant.codec_exact m).only _ _ ha
    · obtain ⟨a, ha, rfl⟩ := Option.map_eq_some_iff.1 h
      exact (WireTupleVariant.codec_exact m).only _ _ ha
    · obtain ⟨a, ha, rfl⟩ := Option.map_eq_some_iff.1 h
      exact (WireUnitVariant.codec_exact m).only _ _ ha
    · cases h

theorem WireEnum.codec_exact (m : VariantId) :
    (WireEnum.codec m).Exact fun n => (WireNode.enum n).Storable := by
  refine (((((Fields.one_exact Codec.strs_exact).cons (Codec.metadata_exact m) (by simp [Fields.cons, Fields.one, Fields.oneOption])).cons
    (WireVariant.codec_exact m).vec (by simp [Fields.cons, Fields.one, Fields.oneOption])).cons
    Codec.str_exact (by simp [Fields.cons, Fields.one, Fields.oneOption])).struct ?_ ?_).congr ?_
  · intro b; rfl
  · intro b; rfl
  · intro b; simp [WireNode.Storable]

theorem WireArray.codec_exact : WireArray.codec.Exact fun n => (WireNode.array n).Storable := by
  refine ((((Fields.one_exact Codec.nat64_exact).cons Codec.nat64_exact (by simp [Fields.cons, Fields.one, Fields.oneOption])).cons
    Codec.str_exact (by simp [Fields.cons, Fields.one, Fields.oneOption])).struct ?_ ?_).congr ?_
  · intro b; rfl
  · intro b; rfl
  · intro b; simp [WireNode.Storable]

theorem WireList.codec_exact : WireList.codec.Exact fun n => (WireNode.list n).Storable := by
  refine (((Fields.one_exact Codec.nat64_exact).cons
    Codec.str_exact (by simp [Fields.cons, Fields.one, Fields.oneOption])).struct ?_ ?_).congr ?_
  · intro b; rfl
  · intro b; rfl
  · intro b; simp [WireNode.Storable]

theorem WireMap.codec_exact : WireMap.codec.Exact fun n => (WireNode.map n).Storable := by
  refine ((((Fields.one_exact Codec.nat64_exact).cons Codec.nat64_exact (by simp [Fields.cons, Fields.one, Fields.oneOption])).cons
    Codec.str_exact (by simp [Fields.cons, Fields.one, Fields.oneOption])).struct ?_ ?_).congr ?_
  · intro b; rfl
  · intro b; rfl
  · intro b; simp [WireNode.Storable]

theorem WireOpaque.codec_exact (m : VariantId) :
    (WireOpaque.codec m).Exact fun n => (WireNode.opaque n).Storable := by
  refine ((((Fields.oneOption_exact (Codec.value_exact m)).cons (Codec.metadata_exact m)
    (by simp [Fields.cons, Fields.one, Fields.oneOption])).cons Codec.str_exact (by simp [Fields.cons, Fields.one, Fields.oneOption])).struct ?_ ?_).congr ?_
  · intro b; rfl
  · intro b; rfl
  · intro b; simp [WireNode.Storable]

theorem scalarCodec_exact (m : VariantId) : (scalarCodec m).Exact fun _ => True := by
  refine ⟨?_, fun _ _ _ => trivial⟩
  intro k _
  cases k with
  | int k => cases k <;> cases m <;> rfl
  | _ => cases m <;> rfl

theorem WireNode.codec_exact (m : VariantId) : (WireNode.codec m).Exact WireNode.Storable := by
  constructor
  · intro n hn
    cases n with
    | struct n =>
      have h : ∀ d, deEnum m typeNodeVariants (.newtype 0 "Struct" d) = some (0, some d) := by
        intro d; cases m <;> rfl
      simp only [WireNode.codec, h, (WireStruct.codec_exact m).back n hn]; rfl
    | tupleStruct n =>
      have h : ∀ d, deEnum m typeNodeVariants (.newtype 1 "TupleStruct" d) = some (1, some d) := by
        intro d; cases m <;> rfl
      simp only [WireNode.codec, h, (WireTuple.codec_exact m).back n hn]; rfl
    | tuple n =>
      have h : ∀ d, deEnum m typeNodeVariants (.newtype 2 "Tuple" d) = some (2, some d) := by
        intro d; cases m <;> rfl
      simp only [WireNode.codec, h, (WireTuple.codec_exact m).back n hn]; rfl
    | enum n =>
      have h : ∀ d, deEnum m typeNodeVariants (.newtype 3 "Enum" d) = some (3, some d) := by
        intro d; cases m <;> rfl
      simp only [WireNode.codec, h, (WireEnum.codec_exact m).back n hn]; rfl
    | list n =>
      have h : ∀ d, deEnum m typeNodeVariants (.newtype 4 "List" d) = some (4, some d) := by
        intro d; cases m <;> rfl
      simp only [WireNode.codec, h, WireList.codec_exact.back n hn]; rfl
    | array n =>
      have h : ∀ d, deEnum m typeNodeVariants (.newtype 5 "Array" d) = some (5, some d) := by
        intro d; cases m <;> rfl
      simp only [WireNode.codec, h, WireArray.codec_exact.back n hn]; rfl
    | map n =>
      have h : ∀ d, deEnum m typeNodeVariants (.newtype 6 "Map" d) = some (6, some d) := by
        intro d; cases m <;> rfl
      simp only [WireNode.codec, h, WireMap.codec_exact.back n hn]; rfl
    | scalar k =>
      have h : ∀ d, deEnum m typeNodeVariants (.newtype 7 "Scalar" d) = some (7, some d) := by
        intro d; cases m <;> rfl
      simp only [WireNode.codec, h, (scalarCodec_exact m).back k trivial]; rfl
    | «opaque» n =>
      have h : ∀ d, deEnum m typeNodeVariants (.newtype 8 "Opaque" d) = some (8, some d) := by
        intro d; cases m <;> rfl
      simp only [WireNode.codec, h, (WireOpaque.codec_exact m).back n hn]; rfl
  · intro d v h
    simp only [WireNode.codec] at h
    split at h
    · obtain ⟨a, ha, rfl⟩ := Option.map_eq_some_iff.1 h
      exact (WireStruct.codec_exact m).only _ _ ha
    · obtain ⟨a, ha, rfl⟩ := Option.map_eq_some_iff.1 h
      exact (WireTuple.codec_exact m).only _ _ ha
    · obtain ⟨a, ha, rfl⟩ := Option.map_eq_some_iff.1 h
      exact (WireTuple.codec_exact m).only _ _ ha
    · obtain ⟨a, ha, rfl⟩ := Option.map_eq_some_iff.1 h
      exact (WireEnum.codec_exact m).only _ _ ha
    · obtain ⟨a, ha, rfl⟩ := Option.map_eq_some_iff.1 h
      exact WireList.codec_exact.only _ _ ha
    · obtain ⟨a, ha, rfl⟩ := Option.map_eq_some_iff.1 h
      exact WireArray.codec_exact.only _ _ ha
    · obtain ⟨a, ha, rfl⟩ := Option.map_eq_some_iff.1 h
      exact WireMap.codec_exact.only _ _ ha
    · obtain ⟨a, ha, rfl⟩ := Option.map_eq_some_iff.1 h
      exact trivial
    · obtain ⟨a, ha, rfl⟩ := Option.map_eq_some_iff.1 h
      exact (WireOpaque.codec_exact m).only _ _ ha
    · cases h

theorem natCmpOn : CmpOn (fun _ : Nat => True) compare where
  refl a _ := by simp
  swap a b _ _ := by rw [Nat.compare_swap]
  lt_trans a b c _ _ _ h1 h2 := by rw [Nat.compare_eq_lt] at *; omega
  eq_trans a b c _ _ _ h := by rw [Nat.compare_eq_eq] at h; rw [h]

theorem WireDescriptor.codec_exact (m : VariantId) :
    (WireDescriptor.codec m).Exact WireDescriptor.Storable := by
  have hg : (wireGraphCodec m).Exact _ :=
    (Fields.one_exact (Codec.nat64_exact.btree natCmpOn (WireNode.codec_exact m).option)).struct
      (fun _ => rfl) (fun _ => rfl)
  refine (((Fields.one_exact hg).cons Codec.nat64_exact (by simp [Fields.cons, Fields.one, Fields.oneOption])).struct ?_ ?_).congr ?_
  · intro b; rfl
  · intro b; rfl
  · intro b
    simp only [WireDescriptor.Storable, id, BMSorted, Nat.compare_eq_lt]
    constructor
    · rintro ⟨h1, h2, h3, h4⟩; exact ⟨h1, h2, fun p hp => ⟨h3 p hp, h4 p hp⟩⟩
    · rintro ⟨h1, h2, h3⟩; exact ⟨h1, h2, fun p hp => (h3 p hp).1, fun p hp => (h3 p hp).2⟩

end Mirror
