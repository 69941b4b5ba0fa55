import Verif.Spec.TypeEq
import Verif.Lemmas.HashFree

/-! # Equality and hashes of type descriptors -/

set_option linter.unusedSimpArgs false

namespace Mirror

/-- `==` on values, as a relation. -/
abbrev BEq' (a b : Value) : Prop := Value.beq a b = true

theorem beq'_refl (a : Value) : BEq' a a := (Value.beq_enc a a).mpr rfl
theorem beq'_symm {a b : Value} (h : BEq' a b) : BEq' b a :=
  (Value.beq_enc b a).mpr ((Value.beq_enc a b).mp h).symm
theorem beq'_trans {a b c : Value} (h : BEq' a b) (h' : BEq' b c) : BEq' a c :=
  (Value.beq_enc a c).mpr (((Value.beq_enc a b).mp h).trans ((Value.beq_enc b c).mp h'))

/-- What is compared comes apart into an outline and values, and the hash tells exactly that. -/
structure Splits {α β : Type} (e : EqHash α) (out : α → β) (vals : α → List Value) : Prop where
  iff : ∀ a b, e.eq a b = true ↔ out a = out b ∧ List.Forall₂ BEq' (vals a) (vals b)
  len : ∀ a b, out a = out b → (vals a).length = (vals b).length
  free : ∀ a b r s, e.hash a ++ r = e.hash b ++ s ↔ e.eq a b = true ∧ r = s

theorem forall₂_append_iff {α β : Type} {R : α → β → Prop} {a c : List α} {b d : List β}
    (h : a.length = b.length) :
    List.Forall₂ R (a ++ c) (b ++ d) ↔ List.Forall₂ R a b ∧ List.Forall₂ R c d := by
  induction a generalizing b with
  | nil => cases b <;> simp_all
  | cons x xs ih =>
    cases b with
    | nil => simp at h
    | cons y ys =>
      simp at h
      simp [ih h, and_assoc]

theorem Splits.str : Splits .str (fun a => a) (fun _ => []) where
  iff a b := by simp [EqHash.str]
  len _ _ _ := rfl
  free a b r s := by simp [EqHash.str]

theorem Splits.nat : Splits .nat (fun a => a) (fun _ => []) where
  iff a b := by simp [EqHash.nat]
  len _ _ _ := rfl
  free a b r s := by
    simp only [EqHash.nat, List.cons_append, List.nil_append, List.cons.injEq, HTok.num.injEq, beq_iff_eq]
    constructor <;> rintro ⟨h, rfl⟩ <;> exact ⟨by omega, rfl⟩

theorem Splits.value : Splits .value (fun _ => blank) (fun a => [a]) where
  iff a b := by simp [EqHash.value]
  len _ _ _ := rfl
  free a b r s := by
    constructor
    · exact Value.feed_free a b r s
    · rintro ⟨h, rfl⟩
      show a.hashFeed ++ r = b.hashFeed ++ r
      rw [Value.hash_of_beq a b h]

theorem Splits.scalar : Splits scalarEh (fun a => a) (fun _ => []) where
  iff a b := by simp [scalarEh]
  len _ _ _ := rfl
  free a b r s := by
    have : a.idx = b.idx ↔ a = b := by
      constructor
      · revert a b; intro a b
        cases a <;> cases b <;> simp [ScalarKind.idx] <;> rename_i k <;>
          first
          | (cases k <;> simp [IntKind.idx]; done)
          | (rename_i l; cases k <;> cases l <;> simp [IntKind.idx]; done)
      · rintro rfl; rfl
    simp [scalarEh, this]

theorem Splits.option {α β : Type} {e : EqHash α} {out : α → β} {vals : α → List Value}
    (h : Splits e out vals) : Splits e.option (Option.map out) (fun o => o.toList.flatMap vals) where
  iff a b := by cases a <;> cases b <;> simp [EqHash.option, h.iff]
  len a b := by
    cases a <;> cases b <;> simp
    exact h.len _ _
  free a b r s := by
    cases a <;> cases b <;> simp [EqHash.option]
    rw [h.free]

theorem Splits.and {α β γ δ : Type} {e : EqHash α} {out : α → β} {vals : α → List Value}
    {f : EqHash γ} {out' : γ → δ} {vals' : γ → List Value} (h : Splits e out vals)
    (h' : Splits f out' vals') :
    Splits (e.and f) (fun p => (out p.1, out' p.2)) (fun p => vals p.1 ++ vals' p.2) where
  iff a b := by
    simp only [EqHash.and, Bool.and_eq_true, h.iff, h'.iff, Prod.mk.injEq]
    constructor
    · rintro ⟨⟨h1, h2⟩, h3, h4⟩
      exact ⟨⟨h1, h3⟩, (forall₂_append_iff (h.len _ _ h1)).mpr ⟨h2, h4⟩⟩
    · rintro ⟨⟨h1, h3⟩, h5⟩
      obtain ⟨h2, h4⟩ := (forall₂_append_iff (h.len _ _ h1)).mp h5
      exact ⟨⟨h1, h2⟩, h3, h4⟩
  len a b hab := by
    simp only [Prod.mk.injEq] at hab
    simp [h.len _ _ hab.1, h'.len _ _ hab.2]
  free a b r s := by
    simp only [EqHash.and, List.append_assoc, h.free, h'.free, Bool.and_eq_true, and_assoc]

theorem Splits.vec {α β : Type} {e : EqHash α} {out : α → β} {vals : α → List Value}
    (h : Splits e out vals) : Splits e.vec (List.map out) (List.flatMap vals) where
  iff a b := by
    induction a generalizing b with
    | nil => cases b <;> simp [EqHash.vec, sliceEq]
    | cons x xs ih =>
      cases b with
      | nil => simp [EqHash.vec, sliceEq]
      | cons y ys =>
        have := ih ys
        simp only [EqHash.vec] at this
        simp only [EqHash.vec, sliceEq, Bool.and_eq_true, h.iff, this, List.map_cons, List.cons.injEq,
          List.flatMap_cons]
        constructor
        · rintro ⟨⟨h1, h2⟩, h3, h4⟩
          exact ⟨⟨h1, h3⟩, (forall₂_append_iff (h.len _ _ h1)).mpr ⟨h2, h4⟩⟩
        · rintro ⟨⟨h1, h3⟩, h5⟩
          obtain ⟨h2, h4⟩ := (forall₂_append_iff (h.len _ _ h1)).mp h5
          exact ⟨⟨h1, h2⟩, h3, h4⟩
  len a b hab := by
    induction a generalizing b with
    | nil => cases b <;> simp at hab ⊢
    | cons x xs ih =>
      cases b with
      | nil => simp at hab
      | cons y ys =>
        simp at hab
        have := ih ys (by simpa using hab.2)
        simp only [List.flatMap_cons, List.length_append, h.len _ _ hab.1, this]
  free a b r s := by
    have key : ∀ a b : List α, a.length = b.length → ((a.map e.hash).flatten ++ r =
        (b.map e.hash).flatten ++ s ↔ sliceEq e.eq a b = true ∧ r = s) := by
      intro a
      induction a with
      | nil => intro b hl; cases b <;> simp_all [sliceEq]
      | cons x xs ih =>
        intro b hl
        cases b with
        | nil => simp at hl
        | cons y ys =>
          simp at hl
          simp only [List.map_cons, List.flatten_cons, List.append_assoc, h.free, sliceEq, ih ys hl,
            Bool.and_eq_true, and_assoc]
    have hlen : ∀ a b : List α, sliceEq e.eq a b = true → a.length = b.length := by
      intro a
      induction a with
      | nil => intro b hb; cases b <;> simp_all [sliceEq]
      | cons x xs ih =>
        intro b hb
        cases b with
        | nil => simp [sliceEq] at hb
        | cons y ys => simp [sliceEq] at hb; simp [ih ys hb.2]
    simp only [EqHash.vec, List.cons_append, List.cons.injEq, HTok.len.injEq]
    constructor
    · rintro ⟨h1, h2⟩; exact (key a b h1).mp h2
    · rintro ⟨h1, h2⟩; exact ⟨hlen _ _ h1, (key a b (hlen _ _ h1)).mpr ⟨h1, h2⟩⟩

theorem Splits.of {α β γ δ : Type} {e : EqHash β} {out : β → γ} {vals : β → List Value}
    (h : Splits e out vals) {un : α → β} {out' : α → δ} {vals' : α → List Value}
    (ho : ∀ a b, out' a = out' b ↔ out (un a) = out (un b)) (hv : ∀ a, vals' a = vals (un a)) :
    Splits (e.of un) out' vals' where
  iff a b := by simp only [EqHash.of, h.iff, ho, hv]
  len a b hab := by rw [hv, hv]; exact h.len _ _ ((ho a b).mp hab)
  free a b r s := by simp only [EqHash.of, h.free]

theorem Splits.congr {α β γ : Type} {e : EqHash α} {out : α → β} {vals : α → List Value}
    (h : Splits e out vals) {out' : α → γ} {vals' : α → List Value}
    (ho : ∀ a b, out' a = out' b ↔ out a = out b) (hv : ∀ a, vals' a = vals a) :
    Splits e out' vals' where
  iff a b := by simp only [h.iff, ho, hv]
  len a b hab := by rw [hv, hv]; exact h.len _ _ ((ho a b).mp hab)
  free := h.free

/-! ## The nodes -/

theorem Splits.metadata : Splits .metadata metaOutline metaValues :=
  (Splits.str.and .value).vec.congr (fun a b => by simp [metaOutline])
    (fun a => by induction a <;> simp_all [metaValues])

theorem Splits.strs : Splits .strs (fun a => a) (fun _ => []) :=
  Splits.str.vec.congr (fun a b => by simp) (fun a => by simp)

theorem Splits.named : Splits WireNamed.eh WireNamed.outline (fun x => metaValues x.metadata) :=
  (Splits.str.and (Splits.nat.and (Splits.metadata.and .strs))).of
    (fun a b => by simp [WireNamed.outline]) (fun a => by simp)

theorem Splits.unnamed : Splits WireUnnamed.eh WireUnnamed.outline (fun x => metaValues x.metadata) :=
  (Splits.nat.and (Splits.metadata.and .strs)).of
    (fun a b => by simp [WireUnnamed.outline]) (fun a => by simp)

theorem Splits.namedFields : Splits .namedFields namedOutline namedValues :=
  (Splits.str.and .named).vec.congr (fun a b => by simp [namedOutline]) (fun a => by simp [namedValues])

theorem Splits.unnamedFields : Splits WireUnnamed.eh.vec (List.map WireUnnamed.outline) unnamedValues :=
  Splits.unnamed.vec

theorem Splits.struct : Splits WireStruct.eh (fun n => WireNode.outline (.struct n))
    (fun n => WireNode.values (.struct n)) :=
  (Splits.str.and (Splits.namedFields.and (Splits.strs.and (Splits.metadata.and .strs)))).of
    (fun a b => by simp [WireNode.outline]) (fun a => by simp [WireNode.values])

theorem Splits.tuple : Splits WireTuple.eh (fun n => WireNode.outline (.tuple n))
    (fun n => WireNode.values (.tuple n)) :=
  (Splits.str.and (Splits.unnamedFields.and (Splits.metadata.and .strs))).of
    (fun a b => by simp [WireNode.outline]) (fun a => by simp [WireNode.values])

theorem Splits.structVariant : Splits WireStructVariant.eh (fun n => WireVariant.outline (.struct n))
    (fun n => WireVariant.values (.struct n)) :=
  (Splits.str.and (Splits.namedFields.and (Splits.strs.and (Splits.metadata.and .strs)))).of
    (fun a b => by simp [WireVariant.outline]) (fun a => by simp [WireVariant.values])

theorem Splits.tupleVariant : Splits WireTupleVariant.eh (fun n => WireVariant.outline (.tuple n))
    (fun n => WireVariant.values (.tuple n)) :=
  (Splits.str.and (Splits.unnamedFields.and (Splits.metadata.and .strs))).of
    (fun a b => by simp [WireVariant.outline]) (fun a => by simp [WireVariant.values])

theorem Splits.unitVariant : Splits WireUnitVariant.eh (fun n => WireVariant.outline (.unit n))
    (fun n => WireVariant.values (.unit n)) :=
  (Splits.str.and (Splits.metadata.and .strs)).of
    (fun a b => by simp [WireVariant.outline]) (fun a => by simp [WireVariant.values])

theorem Splits.variant : Splits WireVariant.eh WireVariant.outline WireVariant.values where
  iff a b := by
    cases a <;> cases b
    case struct.struct => exact Splits.structVariant.iff _ _
    case tuple.tuple => exact Splits.tupleVariant.iff _ _
    case unit.unit => exact Splits.unitVariant.iff _ _
    all_goals simp [WireVariant.eh, WireVariant.outline]
  len a b := by
    cases a <;> cases b
    case struct.struct => exact Splits.structVariant.len _ _
    case tuple.tuple => exact Splits.tupleVariant.len _ _
    case unit.unit => exact Splits.unitVariant.len _ _
    all_goals simp [WireVariant.outline]
  free a b r s := by
    cases a <;> cases b <;>
      simp [WireVariant.eh, Splits.structVariant.free, Splits.tupleVariant.free, Splits.unitVariant.free]

theorem Splits.enum : Splits WireEnum.eh (fun n => WireNode.outline (.enum n))
    (fun n => WireNode.values (.enum n)) :=
  (Splits.str.and (Splits.variant.vec.and (Splits.metadata.and .strs))).of
    (fun a b => by simp [WireNode.outline]) (fun a => by simp [WireNode.values])

theorem Splits.list : Splits WireList.eh (fun n => WireNode.outline (.list n))
    (fun n => WireNode.values (.list n)) :=
  (Splits.str.and .nat).of (fun a b => by cases a; cases b; simp [WireNode.outline])
    (fun a => by simp [WireNode.values])

theorem Splits.array : Splits WireArray.eh (fun n => WireNode.outline (.array n))
    (fun n => WireNode.values (.array n)) :=
  (Splits.str.and (Splits.nat.and .nat)).of (fun a b => by cases a; cases b; simp [WireNode.outline])
    (fun a => by simp [WireNode.values])

theorem Splits.map : Splits WireMap.eh (fun n => WireNode.outline (.map n))
    (fun n => WireNode.values (.map n)) :=
  (Splits.str.and (Splits.nat.and .nat)).of (fun a b => by cases a; cases b; simp [WireNode.outline])
    (fun a => by simp [WireNode.values])

theorem Splits.opaque : Splits WireOpaque.eh (fun n => WireNode.outline (.opaque n))
    (fun n => WireNode.values (.opaque n)) :=
  (Splits.str.and (Splits.metadata.and Splits.value.option)).of
    (fun a b => by simp [WireNode.outline]) (fun a => by simp [WireNode.values])

theorem Splits.node : Splits WireNode.eh WireNode.outline WireNode.values where
  iff a b := by
    cases a <;> cases b
    case struct.struct => exact Splits.struct.iff _ _
    case tupleStruct.tupleStruct a b =>
      have := Splits.tuple.iff a b
      simpa [WireNode.eh, WireNode.outline, WireNode.values] using this
    case tuple.tuple => exact Splits.tuple.iff _ _
    case enum.enum => exact Splits.enum.iff _ _
    case list.list => exact Splits.list.iff _ _
    case array.array => exact Splits.array.iff _ _
    case map.map => exact Splits.map.iff _ _
    case scalar.scalar a b =>
      have := Splits.scalar.iff a b
      simpa [WireNode.eh, WireNode.outline, WireNode.values] using this
    case opaque.opaque => exact Splits.opaque.iff _ _
    all_goals simp [WireNode.eh, WireNode.outline]
  len a b := by
    cases a <;> cases b
    case struct.struct => exact Splits.struct.len _ _
    case tupleStruct.tupleStruct a b =>
      have := Splits.tuple.len a b
      simpa [WireNode.outline, WireNode.values] using this
    case tuple.tuple => exact Splits.tuple.len _ _
    case enum.enum => exact Splits.enum.len _ _
    case opaque.opaque => exact Splits.opaque.len _ _
    all_goals simp [WireNode.outline, WireNode.values]
  free a b r s := by
    cases a <;> cases b <;>
      simp [WireNode.eh, Splits.struct.free, Splits.tuple.free, Splits.enum.free, Splits.list.free,
        Splits.array.free, Splits.map.free, Splits.scalar.free, Splits.opaque.free]

theorem Splits.graph : Splits wireGraphEh graphOutline graphValues :=
  (Splits.nat.and Splits.node.option).vec.congr (fun a b => by simp [graphOutline])
    (fun a => by simp [graphValues])

theorem Splits.descriptor : Splits WireDescriptor.eh WireDescriptor.outline WireDescriptor.values :=
  (Splits.nat.and .graph).of (fun a b => by simp [WireDescriptor.outline])
    (fun a => by simp [WireDescriptor.values])

end Mirror
