import Verif.Spec.SerdeTypeExact
import Verif.Lemmas.SerdeExact
import Verif.Lemmas.Codec

set_option linter.unusedSimpArgs false

namespace Mirror

/-- The data a codec reads are those the relation relates. -/
def Codec.Reads {α : Type} (c : Codec α) (R : Data → α → Prop) : Prop := ∀ d a, c.de d = some a ↔ R d a

theorem optAll_forall₂ {α β : Type} {f : α → Option β} : ∀ {xs : List α} {ys : List β},
    optAll (xs.map f) = some ys ↔ List.Forall₂ (fun x y => f x = some y) xs ys := by
  intro xs ys
  rw [optAll_eq_some]
  induction xs generalizing ys with
  | nil =>
    constructor
    · intro h
      cases ys with
      | nil => exact .nil
      | cons _ _ => cases h
    · intro h; cases h; rfl
  | cons x xs ih =>
    constructor
    · intro h
      cases ys with
      | nil => cases h
      | cons y ys =>
        simp only [List.map_cons, List.cons.injEq] at h
        exact .cons h.1 (ih.mp h.2)
    · intro h
      cases h with
      | cons h1 h2 => rw [List.map_cons, List.map_cons, h1, ih.mpr h2]

theorem codecReads_str : Codec.str.Reads (fun d s => d = .str s) := fun _ _ => deStr_iff

theorem u64_read {d : Data} {k : IntKind} {y : Int} :
    Scalar.de (.int .u64) d = some (.int k y) ↔ ∃ (w : IntKind) (x : Nat), d = .int w x ∧ x < 2 ^ 64 ∧ k = .u64 ∧ y = x := by
  have hir : ∀ {i : Nat}, i < 2 ^ 64 → IntKind.InRange .u64 i := by
    intro i h
    simp only [IntKind.InRange, IntKind.signed, IntKind.bits]
    simp only [Bool.false_eq_true, if_false]
    exact ⟨Int.natCast_nonneg i, by exact_mod_cast h⟩
  constructor
  · intro h
    cases d with
    | int w n =>
      rw [Scalar.de] at h
      split at h
      · next hr =>
        cases h
        simp only [IntKind.InRange, IntKind.signed, IntKind.bits] at hr
        simp only [Bool.false_eq_true, if_false] at hr
        obtain ⟨x, rfl⟩ := Int.eq_ofNat_of_zero_le hr.1
        exact ⟨w, x, rfl, by exact_mod_cast hr.2, rfl, rfl⟩
      · cases h
    | _ => cases h
  · rintro ⟨w, x, rfl, hx, rfl, rfl⟩
    rw [Scalar.de]
    exact if_pos (hir hx)

theorem codecReads_nat : Codec.nat64.Reads Data.IsNat := by
  intro d n
  simp only [Codec.nat64, Data.IsNat]
  constructor
  · intro h
    split at h
    · next k i h1 =>
      obtain ⟨w, x, rfl, hx, rfl, rfl⟩ := u64_read.mp h1
      rw [Int.toNat_natCast] at h
      cases h
      exact ⟨hx, w, rfl⟩
    · cases h
  · rintro ⟨hx, w, rfl⟩
    simp only [u64_read.mpr ⟨w, n, rfl, hx, rfl, rfl⟩, Int.toNat_natCast]

theorem codecReads_value (m : VariantId) : (Codec.value m).Reads (Denotes m) := fun _ _ => de_iff

theorem codecReads_vec {α : Type} {c : Codec α} {R : Data → α → Prop} (h : c.Reads R) : c.vec.Reads (Data.IsSeq R) := by
  intro d xs
  simp only [Codec.vec, Data.IsSeq, Option.bind_eq_some_iff, deSeq_iff, optAll_forall₂]
  constructor
  · rintro ⟨ds, rfl, h1⟩; exact ⟨ds, rfl, h1.imp fun _ _ h2 => (h _ _).mp h2⟩
  · rintro ⟨ds, rfl, h1⟩; exact ⟨ds, rfl, h1.imp fun _ _ h2 => (h _ _).mpr h2⟩

theorem codecReads_btree {κ α : Type} {cmp : κ → κ → Ordering} (hc : CmpOn (fun _ : κ => True) cmp) {k : Codec κ}
    {c : Codec α} {K : Data → κ → Prop} {R : Data → α → Prop} (hk : k.Reads K) (h : c.Reads R) :
    (Codec.btree cmp k c).Reads (Data.IsMap cmp K R) := by
  intro d xs
  simp only [Codec.btree, Data.IsMap, Option.bind_eq_some_iff, Option.map_eq_some_iff, deMap_iff, optAll_forall₂]
  constructor
  · rintro ⟨ds, rfl, l, h1, rfl⟩
    refine ⟨ds, l, rfl, h1.imp ?_, (gathered_iff hc).mpr rfl⟩
    rintro p q ⟨a, ha, b, hb, rfl⟩
    exact ⟨(hk _ _).mp ha, (h _ _).mp hb⟩
  · rintro ⟨ds, l, rfl, h1, h2⟩
    refine ⟨ds, rfl, l, h1.imp ?_, ((gathered_iff hc).mp h2).symm⟩
    rintro p q ⟨ha, hb⟩
    exact ⟨_, (hk _ _).mpr ha, _, (h _ _).mpr hb, rfl⟩

theorem codecReads_option {α : Type} {c : Codec α} {R : Data → α → Prop} (h : c.Reads R) :
    c.option.Reads (Data.IsOption R) := by
  intro d a
  cases d with
  | none => cases a <;> simp [Codec.option, Data.IsOption]
  | some d => cases a <;> simp [Codec.option, Data.IsOption, h d]
  | _ => cases a <;> simp [Codec.option, Data.IsOption]

/-- The field is in the named data, once. -/
def Sole (fs : List (String × Data)) (n : String) (x : Data) : Prop :=
  (n, x) ∈ fs ∧ (fs.map (·.1)).count n = 1

/-- The data a list of fields is read from. -/
def Fields.Reads {α : Type} (f : Fields α) (R : List Data → α → Prop) : Prop :=
  (∀ fs a, f.deNamed fs = some a ↔ ∃ ds, List.Forall₂ (Sole fs) f.names ds ∧ R ds a) ∧
  ∀ ds a, f.dePos ds = some a ↔ ds.length = f.names.length ∧ R ds a

theorem codecReads_one {α : Type} {n : String} {c : Codec α} {R : Data → α → Prop} (h : c.Reads R) :
    (Fields.one n c).Reads fun ds a => ∃ d, ds = [d] ∧ R d a := by
  constructor
  · intro fs a
    simp only [Fields.one, Option.bind_eq_some_iff, deField_iff]
    constructor
    · rintro ⟨d, h1, h2⟩; exact ⟨[d], .cons h1 .nil, d, rfl, (h _ _).mp h2⟩
    · rintro ⟨_, h1, d, rfl, h2⟩
      cases h1 with
      | cons h1 _ => exact ⟨d, h1, (h _ _).mpr h2⟩
  · intro ds a
    match ds with
    | [] => simp [Fields.one]
    | [d] => simp [Fields.one, h d a]
    | _ :: _ :: _ => simp [Fields.one]

theorem codecReads_cons {α β : Type} {n : String} {c : Codec α} {f : Fields β} {R : Data → α → Prop}
    {S : List Data → β → Prop} (h : c.Reads R) (hf : f.Reads S) :
    (f.cons n c).Reads fun ds p => ∃ d r, ds = d :: r ∧ R d p.1 ∧ S r p.2 := by
  constructor
  · intro fs a
    simp only [Fields.cons, Option.bind_eq_some_iff, Option.map_eq_some_iff, deField_iff]
    constructor
    · rintro ⟨x, ⟨d, h1, h2⟩, b, h3, rfl⟩
      obtain ⟨r, h4, h5⟩ := (hf.1 _ _).mp h3
      exact ⟨d :: r, .cons h1 h4, d, r, rfl, (h _ _).mp h2, h5⟩
    · rintro ⟨_, h1, d, r, rfl, h2, h3⟩
      cases h1 with
      | cons h1 h4 => exact ⟨a.1, ⟨d, h1, (h _ _).mpr h2⟩, a.2, (hf.1 _ _).mpr ⟨r, h4, h3⟩, rfl⟩
  · intro ds a
    cases ds with
    | nil => simp [Fields.cons]
    | cons d r =>
      simp only [Fields.cons, Option.bind_eq_some_iff, Option.map_eq_some_iff, List.length_cons, Nat.add_right_cancel_iff]
      constructor
      · rintro ⟨x, h1, b, h2, rfl⟩
        obtain ⟨h3, h4⟩ := (hf.2 _ _).mp h2
        exact ⟨h3, d, r, rfl, (h _ _).mp h1, h4⟩
      · rintro ⟨h1, _, _, h2, h3, h4⟩
        cases h2
        exact ⟨a.1, (h _ _).mpr h3, a.2, (hf.2 _ _).mpr ⟨h1, h4⟩, rfl⟩

theorem codecReads_struct {α β : Type} {f : Fields α} {S : List Data → α → Prop} (hf : f.Reads S) {mk : α → β} {un : β → α}
    (d : Data) (b : β) : (f.struct mk un).de d = some b ↔ ∃ ds a, d.Gives f.names ds ∧ S ds a ∧ mk a = b := by
  cases d with
  | struct fs =>
    simp only [Fields.struct, Option.map_eq_some_iff]
    constructor
    · rintro ⟨a, h1, rfl⟩
      obtain ⟨ds, h2, h3⟩ := (hf.1 _ _).mp h1
      exact ⟨ds, a, .inl ⟨fs, rfl, h2⟩, h3, rfl⟩
    · rintro ⟨ds, a, ⟨_, h1, h2⟩ | ⟨h1, _⟩, h3, rfl⟩
      · cases h1; exact ⟨a, (hf.1 _ _).mpr ⟨ds, h2, h3⟩, rfl⟩
      · cases h1
  | seq xs =>
    simp only [Fields.struct, Option.map_eq_some_iff]
    constructor
    · rintro ⟨a, h1, rfl⟩
      obtain ⟨h2, h3⟩ := (hf.2 _ _).mp h1
      exact ⟨xs, a, .inr ⟨rfl, h2⟩, h3, rfl⟩
    · rintro ⟨ds, a, ⟨_, h1, h2⟩ | ⟨h1, h2⟩, h3, rfl⟩
      · cases h1
      · cases h1; exact ⟨a, (hf.2 _ _).mpr ⟨h2, h3⟩, rfl⟩
  | _ =>
    simp only [Fields.struct]
    constructor
    · intro h; cases h
    · rintro ⟨ds, a, ⟨_, h1, h2⟩ | ⟨h1, h2⟩, h3, rfl⟩ <;> cases h1

theorem codecReads_strs : Codec.strs.Reads Data.IsStrs := by
  intro d ss
  rw [Codec.strs, codecReads_vec codecReads_str]
  simp only [Data.IsSeq, Data.IsStrs]
  constructor
  · rintro ⟨ds, rfl, h⟩
    congr 1
    induction h with
    | nil => rfl
    | cons h _ ih => rw [h, ih]; rfl
  · rintro rfl
    refine ⟨_, rfl, ?_⟩
    induction ss with
    | nil => exact .nil
    | cons s ss ih => exact .cons rfl ih

theorem codecReads_metadata (m : VariantId) : (Codec.metadata m).Reads (DenotesMeta m) :=
  codecReads_btree strCmpOn codecReads_str (codecReads_value m)

theorem codecReads_named (m : VariantId) : (WireNamed.codec m).Reads (DenotesNamed m) := by
  intro d x
  rw [WireNamed.codec, codecReads_struct (codecReads_cons codecReads_str (codecReads_cons codecReads_nat (codecReads_cons (codecReads_metadata m)
    (codecReads_one codecReads_strs))))]
  constructor
  · rintro ⟨_, _, hg, ⟨_, _, rfl, rfl, i, _, rfl, h1, md, _, rfl, h2, ds, rfl, h3⟩, rfl⟩
    exact ⟨i, md, ds, hg, h1, h2, h3⟩
  · rintro ⟨i, md, ds, hg, h1, h2, h3⟩
    exact ⟨_, (x.name, x.id, x.metadata, x.docs), hg, ⟨_, _, rfl, rfl, i, _, rfl, h1, md, _, rfl, h2, ds, rfl, h3⟩, rfl⟩

theorem codecReads_unnamed (m : VariantId) : (WireUnnamed.codec m).Reads (DenotesUnnamed m) := by
  intro d x
  rw [WireUnnamed.codec, codecReads_struct (codecReads_cons codecReads_nat (codecReads_cons (codecReads_metadata m)
    (codecReads_one codecReads_strs)))]
  constructor
  · rintro ⟨_, _, hg, ⟨i, _, rfl, h1, md, _, rfl, h2, ds, rfl, h3⟩, rfl⟩
    exact ⟨i, md, ds, hg, h1, h2, h3⟩
  · rintro ⟨i, md, ds, hg, h1, h2, h3⟩
    exact ⟨_, (x.id, x.metadata, x.docs), hg, ⟨i, _, rfl, h1, md, _, rfl, h2, ds, rfl, h3⟩, rfl⟩

theorem codecReads_fields (m : VariantId) : (Codec.namedFields m).Reads (DenotesFields m) :=
  codecReads_btree strCmpOn codecReads_str (codecReads_named m)

theorem codecReads_structNode (m : VariantId) : (WireStruct.codec m).Reads (DenotesStruct m) := by
  intro d x
  rw [WireStruct.codec, codecReads_struct (codecReads_cons codecReads_str (codecReads_cons (codecReads_fields m) (codecReads_cons codecReads_strs
    (codecReads_cons (codecReads_metadata m) (codecReads_one codecReads_strs)))))]
  constructor
  · rintro ⟨_, _, hg, ⟨_, _, rfl, rfl, fs, _, rfl, h1, ns, _, rfl, h2, md, _, rfl, h3, ds, rfl, h4⟩, rfl⟩
    exact ⟨fs, ns, md, ds, hg, h1, h2, h3, h4⟩
  · rintro ⟨fs, ns, md, ds, hg, h1, h2, h3, h4⟩
    exact ⟨_, (x.typeName, x.fields, x.fieldNames, x.metadata, x.docs), hg,
      ⟨_, _, rfl, rfl, fs, _, rfl, h1, ns, _, rfl, h2, md, _, rfl, h3, ds, rfl, h4⟩, rfl⟩

theorem codecReads_structVariant (m : VariantId) : (WireStructVariant.codec m).Reads (DenotesStructVariant m) := by
  intro d x
  rw [WireStructVariant.codec, codecReads_struct (codecReads_cons codecReads_str (codecReads_cons (codecReads_fields m) (codecReads_cons codecReads_strs
    (codecReads_cons (codecReads_metadata m) (codecReads_one codecReads_strs)))))]
  constructor
  · rintro ⟨_, _, hg, ⟨_, _, rfl, rfl, fs, _, rfl, h1, ns, _, rfl, h2, md, _, rfl, h3, ds, rfl, h4⟩, rfl⟩
    exact ⟨fs, ns, md, ds, hg, h1, h2, h3, h4⟩
  · rintro ⟨fs, ns, md, ds, hg, h1, h2, h3, h4⟩
    exact ⟨_, (x.name, x.fields, x.fieldNames, x.metadata, x.docs), hg,
      ⟨_, _, rfl, rfl, fs, _, rfl, h1, ns, _, rfl, h2, md, _, rfl, h3, ds, rfl, h4⟩, rfl⟩

theorem codecReads_tupleNode (m : VariantId) : (WireTuple.codec m).Reads (DenotesTuple m) := by
  intro d x
  rw [WireTuple.codec, codecReads_struct (codecReads_cons codecReads_str (codecReads_cons (codecReads_vec (codecReads_unnamed m))
    (codecReads_cons (codecReads_metadata m) (codecReads_one codecReads_strs))))]
  constructor
  · rintro ⟨_, _, hg, ⟨_, _, rfl, rfl, fs, _, rfl, h1, md, _, rfl, h2, ds, rfl, h3⟩, rfl⟩
    exact ⟨fs, md, ds, hg, h1, h2, h3⟩
  · rintro ⟨fs, md, ds, hg, h1, h2, h3⟩
    exact ⟨_, (x.typeName, x.fields, x.metadata, x.docs), hg,
      ⟨_, _, rfl, rfl, fs, _, rfl, h1, md, _, rfl, h2, ds, rfl, h3⟩, rfl⟩

theorem codecReads_tupleVariant (m : VariantId) : (WireTupleVariant.codec m).Reads (DenotesTupleVariant m) := by
  intro d x
  rw [WireTupleVariant.codec, codecReads_struct (codecReads_cons codecReads_str (codecReads_cons (codecReads_vec (codecReads_unnamed m))
    (codecReads_cons (codecReads_metadata m) (codecReads_one codecReads_strs))))]
  constructor
  · rintro ⟨_, _, hg, ⟨_, _, rfl, rfl, fs, _, rfl, h1, md, _, rfl, h2, ds, rfl, h3⟩, rfl⟩
    exact ⟨fs, md, ds, hg, h1, h2, h3⟩
  · rintro ⟨fs, md, ds, hg, h1, h2, h3⟩
    exact ⟨_, (x.name, x.fields, x.metadata, x.docs), hg,
      ⟨_, _, rfl, rfl, fs, _, rfl, h1, md, _, rfl, h2, ds, rfl, h3⟩, rfl⟩

theorem codecReads_unitVariant (m : VariantId) : (WireUnitVariant.codec m).Reads (DenotesUnitVariant m) := by
  intro d x
  rw [WireUnitVariant.codec, codecReads_struct (codecReads_cons codecReads_str (codecReads_cons (codecReads_metadata m)
    (codecReads_one codecReads_strs)))]
  constructor
  · rintro ⟨_, _, hg, ⟨_, _, rfl, rfl, md, _, rfl, h2, ds, rfl, h3⟩, rfl⟩
    exact ⟨md, ds, hg, h2, h3⟩
  · rintro ⟨md, ds, hg, h2, h3⟩
    exact ⟨_, (x.name, x.metadata, x.docs), hg, ⟨_, _, rfl, rfl, md, _, rfl, h2, ds, rfl, h3⟩, rfl⟩

theorem codecReads_variant (m : VariantId) : (WireVariant.codec m).Reads (DenotesVariant m) := by
  have hn : ["Struct", "Tuple", "Unit"].Nodup := by decide
  intro d x
  simp only [WireVariant.codec]
  constructor
  · intro h
    split at h
    · next c h0 =>
      obtain ⟨i, n, rfl, hm⟩ := (deEnum_newtype_iff hn (by rfl)).mp h0
      obtain ⟨v, h1, rfl⟩ := Option.map_eq_some_iff.mp h
      exact .struct _ _ _ _ hm ((codecReads_structVariant m _ _).mp h1)
    · next c h0 =>
      obtain ⟨i, n, rfl, hm⟩ := (deEnum_newtype_iff hn (by rfl)).mp h0
      obtain ⟨v, h1, rfl⟩ := Option.map_eq_some_iff.mp h
      exact .tuple _ _ _ _ hm ((codecReads_tupleVariant m _ _).mp h1)
    · next c h0 =>
      obtain ⟨i, n, rfl, hm⟩ := (deEnum_newtype_iff hn (by rfl)).mp h0
      obtain ⟨v, h1, rfl⟩ := Option.map_eq_some_iff.mp h
      exact .unit _ _ _ _ hm ((codecReads_unitVariant m _ _).mp h1)
    · cases h
  · intro h
    cases h with
    | struct i n c v hm h =>
      rw [(deEnum_newtype_iff hn (j := 0) rfl).mpr ⟨i, n, rfl, hm⟩]
      simp only [(codecReads_structVariant m _ _).mpr h, Option.map_some]
    | tuple i n c v hm h =>
      rw [(deEnum_newtype_iff hn (j := 1) rfl).mpr ⟨i, n, rfl, hm⟩]
      simp only [(codecReads_tupleVariant m _ _).mpr h, Option.map_some]
    | unit i n c v hm h =>
      rw [(deEnum_newtype_iff hn (j := 2) rfl).mpr ⟨i, n, rfl, hm⟩]
      simp only [(codecReads_unitVariant m _ _).mpr h, Option.map_some]

theorem codecReads_enumNode (m : VariantId) : (WireEnum.codec m).Reads (DenotesEnum m) := by
  intro d x
  rw [WireEnum.codec, codecReads_struct (codecReads_cons codecReads_str (codecReads_cons (codecReads_vec (codecReads_variant m))
    (codecReads_cons (codecReads_metadata m) (codecReads_one codecReads_strs))))]
  constructor
  · rintro ⟨_, _, hg, ⟨_, _, rfl, rfl, fs, _, rfl, h1, md, _, rfl, h2, ds, rfl, h3⟩, rfl⟩
    exact ⟨fs, md, ds, hg, h1, h2, h3⟩
  · rintro ⟨fs, md, ds, hg, h1, h2, h3⟩
    exact ⟨_, (x.typeName, x.variants, x.metadata, x.docs), hg,
      ⟨_, _, rfl, rfl, fs, _, rfl, h1, md, _, rfl, h2, ds, rfl, h3⟩, rfl⟩

theorem codecReads_arrayNode : WireArray.codec.Reads DenotesArray := by
  intro d x
  rw [WireArray.codec, codecReads_struct (codecReads_cons codecReads_str (codecReads_cons codecReads_nat (codecReads_one codecReads_nat)))]
  constructor
  · rintro ⟨_, _, hg, ⟨_, _, rfl, rfl, e, _, rfl, h1, l, rfl, h2⟩, rfl⟩
    exact ⟨e, l, hg, h1, h2⟩
  · rintro ⟨e, l, hg, h1, h2⟩
    exact ⟨_, (x.typeName, x.elem, x.len), hg, ⟨_, _, rfl, rfl, e, _, rfl, h1, l, rfl, h2⟩, rfl⟩

theorem codecReads_listNode : WireList.codec.Reads DenotesList := by
  intro d x
  rw [WireList.codec, codecReads_struct (codecReads_cons codecReads_str (codecReads_one codecReads_nat))]
  constructor
  · rintro ⟨_, _, hg, ⟨_, _, rfl, rfl, e, rfl, h1⟩, rfl⟩
    exact ⟨e, hg, h1⟩
  · rintro ⟨e, hg, h1⟩
    exact ⟨_, (x.typeName, x.elem), hg, ⟨_, _, rfl, rfl, e, rfl, h1⟩, rfl⟩

theorem codecReads_mapNode : WireMap.codec.Reads DenotesMap := by
  intro d x
  rw [WireMap.codec, codecReads_struct (codecReads_cons codecReads_str (codecReads_cons codecReads_nat (codecReads_one codecReads_nat)))]
  constructor
  · rintro ⟨_, _, hg, ⟨_, _, rfl, rfl, e, _, rfl, h1, l, rfl, h2⟩, rfl⟩
    exact ⟨e, l, hg, h1, h2⟩
  · rintro ⟨e, l, hg, h1, h2⟩
    exact ⟨_, (x.typeName, x.key, x.val), hg, ⟨_, _, rfl, rfl, e, _, rfl, h1, l, rfl, h2⟩, rfl⟩

theorem codecReads_opaqueNode (m : VariantId) : (WireOpaque.codec m).Reads (DenotesOpaque m) := by
  have hO : ∀ (n : String) ds (a : Option Value), (Fields.oneOption n (.value m)).dePos ds = some a ↔
      ∃ d, ds = [d] ∧ d.IsOption (Denotes m) a := by
    intro n ds a
    match ds with
    | [] => simp [Fields.oneOption]
    | [d] =>
      have := codecReads_option (codecReads_value m) d a
      simp [Fields.oneOption, this]
    | _ :: _ :: _ => simp [Fields.oneOption]
  have hN : ∀ (n : String) fs (a : Option Value), (Fields.oneOption n (.value m)).deNamed fs = some a ↔
      (n ∉ fs.map (·.1) ∧ a = none) ∨ ∃ d, Sole fs n d ∧ d.IsOption (Denotes m) a := by
    intro n fs a
    simp only [Fields.oneOption]
    have hall : (fs.all fun p => p.1 != n) = true ↔ n ∉ fs.map (·.1) := by
      simp only [List.all_eq_true, bne_iff_ne, List.mem_map, not_exists, not_and]
    by_cases hn : n ∉ fs.map (·.1)
    · rw [if_pos (hall.mpr hn)]
      constructor
      · intro h; cases h; exact .inl ⟨hn, rfl⟩
      · rintro (⟨_, rfl⟩ | ⟨d, h1, _⟩)
        · rfl
        · exact absurd (List.mem_map_of_mem (f := (·.1)) h1.1) hn
    · rw [if_neg (fun h => hn (hall.mp h)), Option.bind_eq_some_iff]
      constructor
      · rintro ⟨d, h1, h2⟩
        exact .inr ⟨d, deField_iff.mp h1, (codecReads_option (codecReads_value m) _ _).mp h2⟩
      · rintro (⟨h, _⟩ | ⟨d, h1, h2⟩)
        · exact absurd h hn
        · exact ⟨d, deField_iff.mpr h1, (codecReads_option (codecReads_value m) _ _).mpr h2⟩
  intro d x
  unfold DenotesOpaque
  cases d with
  | struct fs =>
    simp only [WireOpaque.codec, Fields.struct, Fields.cons, Option.map_eq_some_iff, Option.bind_eq_some_iff,
      deField_iff, hN]
    constructor
    · rintro ⟨_, ⟨tn, ⟨d1, h1, h2⟩, _, ⟨md, ⟨d2, h3, h4⟩, dv, h5, rfl⟩, rfl⟩, rfl⟩
      have h2' : d1 = .str tn := deStr_iff.mp h2
      subst h2'
      rcases h5 with ⟨h5, rfl⟩ | ⟨d3, h5, h6⟩
      · exact .inr ⟨fs, d2, rfl, h5, .inl ⟨fs, rfl, .cons h1 (.cons h3 .nil)⟩, (codecReads_metadata m _ _).mp h4, rfl⟩
      · exact .inl ⟨d2, d3, .inl ⟨fs, rfl, .cons h1 (.cons h3 (.cons h5 .nil))⟩, (codecReads_metadata m _ _).mp h4, h6⟩
    · rintro (⟨d2, d3, ⟨_, h0, hg⟩ | ⟨h0, _⟩, h1, h2⟩ | ⟨_, d2, h0, hn, ⟨_, h0', hg⟩ | ⟨h0', _⟩, h1, h2⟩)
      · cases h0
        cases hg with
        | cons g1 hg =>
          cases hg with
          | cons g2 hg =>
            cases hg with
            | cons g3 _ =>
              exact ⟨(x.typeName, x.metadata, x.defaultValue), ⟨_, ⟨_, g1, rfl⟩, _, ⟨_, ⟨d2, g2,
                (codecReads_metadata m _ _).mpr h1⟩, _, .inr ⟨d3, g3, h2⟩, rfl⟩, rfl⟩, rfl⟩
      · cases h0
      · cases h0
        cases h0'
        cases hg with
        | cons g1 hg =>
          cases hg with
          | cons g2 hg =>
            exact ⟨(x.typeName, x.metadata, none), ⟨_, ⟨_, g1, rfl⟩, _, ⟨_, ⟨d2, g2,
                (codecReads_metadata m _ _).mpr h1⟩, _, .inl ⟨hn, rfl⟩, rfl⟩, rfl⟩, by cases x; simp_all⟩
      · cases h0'
  | seq xs =>
    simp only [WireOpaque.codec, Fields.struct, Option.map_eq_some_iff]
    match xs with
    | [] =>
      simp only [Fields.cons]
      constructor
      · rintro ⟨_, h, _⟩; cases h
      · rintro (⟨d2, d3, ⟨_, h0, hg⟩ | ⟨h0, _⟩, h1, h2⟩ | ⟨_, d2, h0, _⟩)
        · cases h0
        · cases h0
        · cases h0
    | [a] =>
      simp only [Fields.cons]
      constructor
      · rintro ⟨_, h, _⟩; simp at h
      · rintro (⟨d2, d3, ⟨_, h0, hg⟩ | ⟨h0, _⟩, h1, h2⟩ | ⟨_, d2, h0, _⟩)
        · cases h0
        · cases h0
        · cases h0
    | a :: b :: r =>
      simp only [Fields.cons, Option.bind_eq_some_iff, Option.map_eq_some_iff, hO]
      constructor
      · rintro ⟨_, ⟨tn, h2, _, ⟨md, h4, dv, ⟨d3, rfl, h6⟩, rfl⟩, rfl⟩, rfl⟩
        have h2' : a = .str tn := deStr_iff.mp h2
        subst h2'
        exact .inl ⟨b, d3, .inr ⟨rfl, rfl⟩, (codecReads_metadata m _ _).mp h4, h6⟩
      · rintro (⟨d2, d3, ⟨_, h0, hg⟩ | ⟨h0, _⟩, h1, h2⟩ | ⟨_, d2, h0, _⟩)
        · cases h0
        · cases h0
          exact ⟨(x.typeName, x.metadata, x.defaultValue), ⟨_, rfl, _, ⟨_, (codecReads_metadata m _ _).mpr h1, _,
            ⟨d3, rfl, h2⟩, rfl⟩, rfl⟩, rfl⟩
        · cases h0
  | _ =>
    simp only [WireOpaque.codec, Fields.struct]
    constructor
    · intro h; cases h
    · rintro (⟨d2, d3, ⟨_, h0, hg⟩ | ⟨h0, _⟩, h1, h2⟩ | ⟨_, d2, h0, _⟩) <;> cases h0

theorem codecReads_node (m : VariantId) : (WireNode.codec m).Reads (DenotesNode m) := by
  have hn : typeNodeVariants.Nodup := by decide
  have hs : scalarNodeVariants.Nodup := by decide
  intro d x
  simp only [WireNode.codec]
  constructor
  · intro h
    split at h
    · next c h0 =>
      obtain ⟨i, n, rfl, hm⟩ := (deEnum_newtype_iff hn (by rfl)).mp h0
      obtain ⟨v, h1, rfl⟩ := Option.map_eq_some_iff.mp h
      exact .struct _ _ _ _ hm ((codecReads_structNode m _ _).mp h1)
    · next c h0 =>
      obtain ⟨i, n, rfl, hm⟩ := (deEnum_newtype_iff hn (by rfl)).mp h0
      obtain ⟨v, h1, rfl⟩ := Option.map_eq_some_iff.mp h
      exact .tupleStruct _ _ _ _ hm ((codecReads_tupleNode m _ _).mp h1)
    · next c h0 =>
      obtain ⟨i, n, rfl, hm⟩ := (deEnum_newtype_iff hn (by rfl)).mp h0
      obtain ⟨v, h1, rfl⟩ := Option.map_eq_some_iff.mp h
      exact .tuple _ _ _ _ hm ((codecReads_tupleNode m _ _).mp h1)
    · next c h0 =>
      obtain ⟨i, n, rfl, hm⟩ := (deEnum_newtype_iff hn (by rfl)).mp h0
      obtain ⟨v, h1, rfl⟩ := Option.map_eq_some_iff.mp h
      exact .enum _ _ _ _ hm ((codecReads_enumNode m _ _).mp h1)
    · next c h0 =>
      obtain ⟨i, n, rfl, hm⟩ := (deEnum_newtype_iff hn (by rfl)).mp h0
      obtain ⟨v, h1, rfl⟩ := Option.map_eq_some_iff.mp h
      exact .list _ _ _ _ hm ((codecReads_listNode _ _).mp h1)
    · next c h0 =>
      obtain ⟨i, n, rfl, hm⟩ := (deEnum_newtype_iff hn (by rfl)).mp h0
      obtain ⟨v, h1, rfl⟩ := Option.map_eq_some_iff.mp h
      exact .array _ _ _ _ hm ((codecReads_arrayNode _ _).mp h1)
    · next c h0 =>
      obtain ⟨i, n, rfl, hm⟩ := (deEnum_newtype_iff hn (by rfl)).mp h0
      obtain ⟨v, h1, rfl⟩ := Option.map_eq_some_iff.mp h
      exact .map _ _ _ _ hm ((codecReads_mapNode _ _).mp h1)
    · next c h0 =>
      obtain ⟨i, n, rfl, hm⟩ := (deEnum_newtype_iff hn (by rfl)).mp h0
      obtain ⟨k, h1, rfl⟩ := Option.map_eq_some_iff.mp h
      simp only [scalarCodec] at h1
      split at h1
      · next j h2 =>
        have := ofIdx_idx h1
        subst this
        have hk : scalarNodeVariants[k.idx]? = some k.rust := by
          cases k with
          | int k => cases k <;> rfl
          | _ => rfl
        obtain ⟨j', w, rfl, hm'⟩ := (deEnum_unit_iff hs hk).mp h2
        exact .scalar _ _ _ _ _ hm hm'
      · cases h1
    · next c h0 =>
      obtain ⟨i, n, rfl, hm⟩ := (deEnum_newtype_iff hn (by rfl)).mp h0
      obtain ⟨v, h1, rfl⟩ := Option.map_eq_some_iff.mp h
      exact .opaque _ _ _ _ hm ((codecReads_opaqueNode m _ _).mp h1)
    · cases h
  · intro h
    cases h with
    | struct i n c v hm h =>
      rw [(deEnum_newtype_iff hn (j := 0) rfl).mpr ⟨i, n, rfl, hm⟩]
      simp only [(codecReads_structNode m _ _).mpr h, Option.map_some]
    | tupleStruct i n c v hm h =>
      rw [(deEnum_newtype_iff hn (j := 1) rfl).mpr ⟨i, n, rfl, hm⟩]
      simp only [(codecReads_tupleNode m _ _).mpr h, Option.map_some]
    | tuple i n c v hm h =>
      rw [(deEnum_newtype_iff hn (j := 2) rfl).mpr ⟨i, n, rfl, hm⟩]
      simp only [(codecReads_tupleNode m _ _).mpr h, Option.map_some]
    | enum i n c v hm h =>
      rw [(deEnum_newtype_iff hn (j := 3) rfl).mpr ⟨i, n, rfl, hm⟩]
      simp only [(codecReads_enumNode m _ _).mpr h, Option.map_some]
    | list i n c v hm h =>
      rw [(deEnum_newtype_iff hn (j := 4) rfl).mpr ⟨i, n, rfl, hm⟩]
      simp only [(codecReads_listNode _ _).mpr h, Option.map_some]
    | array i n c v hm h =>
      rw [(deEnum_newtype_iff hn (j := 5) rfl).mpr ⟨i, n, rfl, hm⟩]
      simp only [(codecReads_arrayNode _ _).mpr h, Option.map_some]
    | map i n c v hm h =>
      rw [(deEnum_newtype_iff hn (j := 6) rfl).mpr ⟨i, n, rfl, hm⟩]
      simp only [(codecReads_mapNode _ _).mpr h, Option.map_some]
    | scalar i n j w k hm hm' =>
      rw [(deEnum_newtype_iff hn (j := 7) rfl).mpr ⟨i, n, rfl, hm⟩]
      have hk : scalarNodeVariants[k.idx]? = some k.rust := by
        cases k with
        | int k => cases k <;> rfl
        | _ => rfl
      have hk' : ScalarKind.ofIdx k.idx = some k := by
        cases k with
        | int k => cases k <;> rfl
        | _ => rfl
      simp only [scalarCodec]
      rw [(deEnum_unit_iff hs hk).mpr ⟨j, w, rfl, hm'⟩]
      simp only [hk', Option.map_some]
    | «opaque» i n c v hm h =>
      rw [(deEnum_newtype_iff hn (j := 8) rfl).mpr ⟨i, n, rfl, hm⟩]
      simp only [(codecReads_opaqueNode m _ _).mpr h, Option.map_some]

theorem codecReads_graph (m : VariantId) (d : Data) (g : List (WireId × Option WireNode)) :
    (wireGraphCodec m).de d = some g ↔ ∃ mp, d.Gives ["map"] [mp] ∧
      mp.IsMap compare Data.IsNat (Data.IsOption (DenotesNode m)) g := by
  rw [wireGraphCodec, codecReads_struct (codecReads_one (codecReads_btree natCmpOn codecReads_nat (codecReads_option (codecReads_node m))))]
  constructor
  · rintro ⟨_, _, hg, ⟨mp, rfl, h1⟩, rfl⟩
    exact ⟨mp, hg, h1⟩
  · rintro ⟨mp, hg, h1⟩
    exact ⟨_, g, hg, ⟨mp, rfl, h1⟩, rfl⟩

theorem codecReads_descriptor (m : VariantId) : (WireDescriptor.codec m).Reads (DenotesDescriptor m) := by
  intro d x
  rw [WireDescriptor.codec, codecReads_struct (codecReads_cons codecReads_nat (codecReads_one (codecReads_graph m)))]
  constructor
  · rintro ⟨_, _, hg, ⟨r, _, rfl, h1, g, rfl, mp, h2, h3⟩, rfl⟩
    exact ⟨r, g, mp, hg, h1, h2, h3⟩
  · rintro ⟨r, g, mp, hg, h1, h2, h3⟩
    exact ⟨_, (x.root, x.graph), hg, ⟨r, _, rfl, h1, g, rfl, mp, h2, h3⟩, rfl⟩

end Mirror
