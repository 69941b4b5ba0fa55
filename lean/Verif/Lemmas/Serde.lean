import Verif.Spec.Serde
import Verif.Lemmas.BTree

set_option linter.unusedSimpArgs false

namespace Mirror

theorem Value.WF.storable {v : Value} (h : v.WF) (hf : v.Fits) : v.Storable := by
  induction h with
  | scalar s => cases hf; exact .scalar _ ‹_›
  | struct ns fs _ hs _ ih => cases hf with | struct _ _ hf => exact .struct _ _ hs fun p hp => ih p hp (hf p hp)
  | enumS v ns fs _ hs _ ih => cases hf with | enumS _ _ _ hf => exact .enumS _ _ _ hs fun p hp => ih p hp (hf p hp)
  | enumT v fs _ ih => cases hf with | enumT _ _ hf => exact .enumT _ _ fun p hp => ih p hp (hf p hp)
  | enumU v => exact .enumU _
  | tupleStruct fs _ ih => cases hf with | tupleStruct _ hf => exact .tupleStruct _ fun p hp => ih p hp (hf p hp)
  | tuple fs _ ih => cases hf with | tuple _ hf => exact .tuple _ fun p hp => ih p hp (hf p hp)
  | list fs _ ih => cases hf with | list _ hf => exact .list _ fun p hp => ih p hp (hf p hp)
  | map kvs hs _ _ ihk ihv =>
    cases hf with | map _ hk hv => exact .map _ hs (fun p hp => ihk p hp (hk p hp)) fun p hp => ihv p hp (hv p hp)

theorem deValues_ser {m : VariantId} : ∀ {fs : List Value}, (∀ x ∈ fs, Value.de m x.ser = some x) →
    deValues m (Value.serList fs) = some fs
  | [], _ => by simp [Value.serList, deValues]
  | v :: vs, h => by
    rw [Value.serList, deValues, h v List.mem_cons_self,
      deValues_ser fun x hx => h x (List.mem_cons_of_mem _ hx)]

theorem deFields_ser {m : VariantId} : ∀ {fs : List (String × Value)},
    (∀ p ∈ fs, Value.de m p.2.ser = some p.2) → deFields m (Value.serFields fs) = some fs
  | [], _ => by simp [Value.serFields, deFields]
  | (n, v) :: vs, h => by
    rw [Value.serFields, deFields, h (n, v) List.mem_cons_self,
      deFields_ser fun x hx => h x (List.mem_cons_of_mem _ hx), deStr]

theorem dePairs_ser {m : VariantId} : ∀ {fs : List (Value × Value)},
    (∀ p ∈ fs, Value.de m p.1.ser = some p.1) → (∀ p ∈ fs, Value.de m p.2.ser = some p.2) →
    dePairs m (Value.serPairs fs) = some fs
  | [], _, _ => by simp [Value.serPairs, dePairs]
  | (n, v) :: vs, h, h' => by
    rw [Value.serPairs, dePairs, h (n, v) List.mem_cons_self, h' (n, v) List.mem_cons_self,
      dePairs_ser (fun x hx => h x (List.mem_cons_of_mem _ hx)) fun x hx => h' x (List.mem_cons_of_mem _ hx)]

theorem deStrs_ser (ns : List String) : deStrs (.seq (ns.map .str)) = some ns := by
  simp only [deStrs]
  induction ns with
  | nil => rfl
  | cons n ns ih => simp [List.mapM_cons, deStr, ih]

/-! ## One-step equations -/

theorem deTupleValue_eq {m : VariantId} {d t : Data} {xs : List Data}
    (h1 : deStruct ["fields"] d = some [t]) (h2 : deSeq t = some xs) :
    deTupleValue m d = deValues m xs := by
  rw [deTupleValue]
  split
  · next t' h =>
    rw [h1] at h; cases h
    split
    · next h => rw [h2] at h; cases h; rfl
    · next h => rw [h2] at h; cases h
  · next h => exact absurd h1 (h _)

theorem deStructValue_eq {m : VariantId} {d a b : Data} {ns : List String} {kvs : List (Data × Data)}
    (h1 : deStruct ["field_names", "fields"] d = some [a, b]) (h2 : deStrs a = some ns)
    (h3 : deMap b = some kvs) :
    deStructValue m d = (deFields m kvs).map fun l => (ns, bmOfList strCmp l) := by
  rw [deStructValue]
  split
  · next h =>
    rw [h1] at h; cases h
    split
    · next h h' => rw [h2] at h; rw [h3] at h'; cases h; cases h'; rfl
    · next h => exact absurd h3 (h _ _ h2)
  · next h => exact absurd h1 (h _ _)

/-- What `deEnumValue` does once the name and the kind are known. -/
def deKindBody (m : VariantId) (n : String) (i : Nat) (c : Option Data) : Option Value :=
  match i, c with
  | 0, some c => (deStructValue m c).map fun s => .enumS n s.1 s.2
  | 1, some c => (deTupleValue m c).map (.enumT n)
  | 2, none => some (.enumU n)
  | _, _ => none

theorem deEnumValue_eq {m : VariantId} {d a b : Data} {n : String} {i : Nat} {c : Option Data}
    (h1 : deStruct ["name", "kind"] d = some [a, b]) (h2 : deStr a = some n)
    (h3 : deEnum m ["Struct", "Tuple", "Unit"] b = some (i, c)) :
    deEnumValue m d = deKindBody m n i c := by
  rw [deEnumValue]
  split
  · next h =>
    rw [h1] at h; cases h
    split
    · next h h' => rw [h2] at h; rw [h3] at h'; cases h; cases h'; rfl
    · next h h' => rw [h2] at h; rw [h3] at h'; cases h; cases h'; rfl
    · next h h' => rw [h2] at h; rw [h3] at h'; cases h; cases h'; rfl
    · next k1 k2 k3 =>
      unfold deKindBody
      split
      · exact absurd h3 (k1 _ _ h2)
      · exact absurd h3 (k2 _ _ h2)
      · exact absurd h3 (k3 _ h2)
      · rfl
  · next h => exact absurd h1 (h _ _)

theorem de_eq {m : VariantId} {d c : Data} {i : Nat}
    (h1 : deEnum m valueVariants d = some (i, some c)) : Value.de m d = deVariant m c i := by
  rw [Value.de]
  split
  · next h => rw [h1] at h; cases h; rfl
  · next h => exact absurd h1 (h _ _)

theorem deVariant_tupleStruct {m : VariantId} {c t : Data} (h1 : deStruct ["tuple"] c = some [t]) :
    deVariant m c 18 = (deTupleValue m t).map .tupleStruct := by
  rw [deVariant]
  split
  · next h => rw [h1] at h; cases h; rfl
  · next h => exact absurd h1 (h _)

theorem deVariant_list {m : VariantId} {c : Data} {xs : List Data} (h1 : deSeq c = some xs) :
    deVariant m c 20 = (deValues m xs).map .list := by
  rw [deVariant]
  split
  · next h => rw [h1] at h; cases h; rfl
  · next h => rw [h1] at h; cases h

theorem deVariant_map {m : VariantId} {c : Data} {xs : List (Data × Data)} (h1 : deMap c = some xs) :
    deVariant m c 21 = (dePairs m xs).map fun l => .map (bmOfList Value.cmp l) := by
  rw [deVariant]
  split
  · next h => rw [h1] at h; cases h; rfl
  · next h => rw [h1] at h; cases h

theorem deVariant_scalar {m : VariantId} {c : Data} (k : ScalarKind) :
    deVariant m c k.idx = (Scalar.de k c).map .scalar := by
  cases k with
  | int k => cases k <;> (simp only [ScalarKind.idx, IntKind.idx]; rw [deVariant] <;> simp [ScalarKind.ofIdx])
  | _ => simp only [ScalarKind.idx]; rw [deVariant] <;> simp [ScalarKind.ofIdx]

theorem deTupleValue_ser {m : VariantId} {fs : List Value} (h : ∀ x ∈ fs, Value.de m x.ser = some x) :
    deTupleValue m (serTupleValue (Value.serList fs)) = some fs := by
  rw [deTupleValue_eq (t := .seq (Value.serList fs)) (xs := Value.serList fs) rfl rfl, deValues_ser h]

theorem deStructValue_ser {m : VariantId} {ns : List String} {fs : List (String × Value)}
    (hs : BMSorted strCmp fs) (h : ∀ p ∈ fs, Value.de m p.2.ser = some p.2) :
    deStructValue m (serStructValue ns (Value.serFields fs)) = some (ns, fs) := by
  rw [deStructValue_eq (a := .seq (ns.map .str)) (b := .map (Value.serFields fs)) rfl (deStrs_ser ns) rfl,
    deFields_ser h]
  simp [bmOfList_self strCmpOn (by simp) hs]

theorem Scalar.de_ser {s : Scalar} (h : s.Fits) : Scalar.de s.kind s.ser = some s := by
  cases s with
  | int k n => 
    have : IntKind.InRange k n := h
    cases k <;> simp [Scalar.ser, Scalar.kind, Scalar.de, this]
  | _ => rfl

theorem deEnum_scalar (m : VariantId) (k : ScalarKind) (d : Data) :
    deEnum m valueVariants (.newtype k.idx k.variantName d) = some (k.idx, some d) := by
  cases k with
  | int k => cases k <;> cases m <;> rfl
  | _ => cases m <;> rfl

theorem de_ser {m : VariantId} {v : Value} (h : v.Storable) : Value.de m v.ser = some v := by
  induction h with
  | scalar s hs =>
    rw [Value.ser, de_eq (deEnum_scalar m _ _), deVariant_scalar, Scalar.de_ser hs]; rfl
  | struct ns fs hs _ ih =>
    rw [Value.ser, de_eq (i := 16) (c := serStructValue ns (Value.serFields fs)) (by cases m <;> rfl),
      deVariant, deStructValue_ser hs ih]; rfl
  | enumS v ns fs hs _ ih =>
    rw [Value.ser, de_eq (i := 17) (by cases m <;> rfl)]
    rw [deVariant, deEnumValue_eq (a := .str v) (n := v) (i := 0) (c := some (serStructValue ns (Value.serFields fs)))
      rfl rfl (by cases m <;> rfl)]
    simp [deVariant, deKindBody, deStructValue_ser hs ih]
  | enumT v fs _ ih =>
    rw [Value.ser, de_eq (i := 17) (by cases m <;> rfl)]
    rw [deVariant, deEnumValue_eq (a := .str v) (n := v) (i := 1) (c := some (serTupleValue (Value.serList fs)))
      rfl rfl (by cases m <;> rfl)]
    simp [deVariant, deKindBody, deTupleValue_ser ih]
  | enumU v =>
    rw [Value.ser, de_eq (i := 17) (by cases m <;> rfl)]
    rw [deVariant, deEnumValue_eq (a := .str v) (n := v) (i := 2) (c := none) rfl rfl (by cases m <;> rfl), deKindBody]
  | tupleStruct fs _ ih =>
    rw [Value.ser, de_eq (i := 18) (by cases m <;> rfl),
      deVariant_tupleStruct (t := serTupleValue (Value.serList fs)) rfl, deTupleValue_ser ih]; rfl
  | tuple fs _ ih =>
    rw [Value.ser, de_eq (i := 19) (by cases m <;> rfl), deVariant, deTupleValue_ser ih]; rfl
  | list fs _ ih =>
    rw [Value.ser, de_eq (i := 20) (by cases m <;> rfl), deVariant_list rfl, deValues_ser ih]; rfl
  | map kvs hs _ _ ihk ihv =>
    rw [Value.ser, de_eq (i := 21) (by cases m <;> rfl), deVariant_map rfl, dePairs_ser ihk ihv]
    simp [bmOfList_self valueCmpOn (by simp) hs]

/-! ## Whatever is read is a `Value` -/

theorem Scalar.de_fits {k : ScalarKind} {d : Data} {s : Scalar} (h : Scalar.de k d = some s) :
    s.Fits := by
  unfold Scalar.de at h
  split at h <;> first | (cases h; trivial) | skip
  · split at h
    · next hr => cases h; exact hr
    · cases h
  · cases h

theorem CmpOn.all {κ : Type} {P : κ → Prop} {cmp : κ → κ → Ordering}
    (h : CmpOn (fun _ : κ => True) cmp) : CmpOn P cmp where
  refl a _ := h.refl a trivial
  swap a b _ _ := h.swap a b trivial trivial
  lt_trans a b c _ _ _ := h.lt_trans a b c trivial trivial trivial
  eq_trans a b c _ _ _ := h.eq_trans a b c trivial trivial trivial

/-- Everything read by any of the readers from data smaller than `n` is storable. -/
def ReadsStorable (m : VariantId) (n : Nat) : Prop :=
  (∀ d v, sizeOf d < n → Value.de m d = some v → v.Storable) ∧
  (∀ d s, sizeOf d < n → deStructValue m d = some s →
    BMSorted strCmp s.2 ∧ ∀ p ∈ s.2, Value.Storable p.2) ∧
  (∀ d vs, sizeOf d < n → deTupleValue m d = some vs → ∀ v ∈ vs, Value.Storable v)

theorem deValues_storable {m : VariantId} {n : Nat} (H : ReadsStorable m n) :
    ∀ {xs : List Data} {vs : List Value}, sizeOf xs ≤ n → deValues m xs = some vs →
      ∀ v ∈ vs, v.Storable
  | [], vs, _, h, v, hv => by rw [deValues] at h; cases h; cases hv
  | d :: ds, vs, hn, h, v, hv => by
    rw [deValues] at h
    have hsz : sizeOf (d :: ds) = 1 + sizeOf d + sizeOf ds := rfl
    split at h
    · next v' vs' h1 h2 =>
      cases h
      rcases List.mem_cons.1 hv with rfl | hv
      · exact H.1 d _ (by omega) h1
      · exact deValues_storable H (by omega) h2 v hv
    · cases h

theorem deFields_storable {m : VariantId} {n : Nat} (H : ReadsStorable m n) :
    ∀ {xs : List (Data × Data)} {vs : List (String × Value)}, sizeOf xs ≤ n →
      deFields m xs = some vs → ∀ p ∈ vs, p.2.Storable
  | [], vs, _, h, v, hv => by rw [deFields] at h; cases h; cases hv
  | (k, d) :: ds, vs, hn, h, v, hv => by
    rw [deFields] at h
    have hsz : sizeOf ((k, d) :: ds) = 1 + (1 + sizeOf k + sizeOf d) + sizeOf ds := rfl
    split at h
    · next v' vs' h1 h2 =>
      cases h
      rcases List.mem_cons.1 hv with rfl | hv
      · exact H.1 d _ (by omega) (by assumption)
      · exact deFields_storable H (xs := ds) (by omega) h2 v hv
    · cases h

theorem dePairs_storable {m : VariantId} {n : Nat} (H : ReadsStorable m n) :
    ∀ {xs : List (Data × Data)} {vs : List (Value × Value)}, sizeOf xs ≤ n →
      dePairs m xs = some vs → ∀ p ∈ vs, p.1.Storable ∧ p.2.Storable
  | [], vs, _, h, v, hv => by rw [dePairs] at h; cases h; cases hv
  | (k, d) :: ds, vs, hn, h, v, hv => by
    rw [dePairs] at h
    have hsz : sizeOf ((k, d) :: ds) = 1 + (1 + sizeOf k + sizeOf d) + sizeOf ds := rfl
    split at h
    · next v' vs' h1 h2 =>
      cases h
      rcases List.mem_cons.1 hv with rfl | hv
      · exact ⟨H.1 k _ (by omega) (by assumption), H.1 d _ (by omega) (by assumption)⟩
      · exact dePairs_storable H (xs := ds) (by omega) h2 v hv
    · cases h

theorem deStructValue_storable {m : VariantId} {n : Nat} (H : ReadsStorable m n) {d : Data}
    {s : List String × List (String × Value)} (hn : sizeOf d ≤ n) (h : deStructValue m d = some s) :
    BMSorted strCmp s.2 ∧ ∀ p ∈ s.2, Value.Storable p.2 := by
  rw [deStructValue] at h
  split at h
  · next a b h1 =>
    have hb := deStruct_size h1 b (by simp)
    split at h
    · next ns kvs h2 h3 =>
      have hk := deMap_size h3
      obtain ⟨l, hl, rfl⟩ := Option.map_eq_some_iff.1 h
      have := deFields_storable H (by omega) hl
      exact ⟨bmOfList_sorted strCmpOn (by simp), bmOfList_vals this⟩
    · cases h
  · cases h

theorem deTupleValue_storable {m : VariantId} {n : Nat} (H : ReadsStorable m n) {d : Data}
    {vs : List Value} (hn : sizeOf d ≤ n) (h : deTupleValue m d = some vs) :
    ∀ v ∈ vs, Value.Storable v := by
  rw [deTupleValue] at h
  split at h
  · next t h1 =>
    have hb := deStruct_size h1 t (by simp)
    split at h
    · next xs h3 =>
      have hk := deSeq_size h3
      exact deValues_storable H (by omega) h
    · cases h
  · cases h

theorem deEnumValue_storable {m : VariantId} {n : Nat} (H : ReadsStorable m n) {d : Data}
    {v : Value} (hn : sizeOf d ≤ n) (h : deEnumValue m d = some v) : v.Storable := by
  rw [deEnumValue] at h
  split at h
  · next a b h1 =>
    have hb := deStruct_size h1 b (by simp)
    split at h
    · next h2 =>
      have hk := deEnum_size h2
      obtain ⟨s, hs, rfl⟩ := Option.map_eq_some_iff.1 h
      have := deStructValue_storable H (by omega) hs
      exact .enumS _ _ _ this.1 this.2
    · next h2 =>
      have hk := deEnum_size h2
      obtain ⟨s, hs, rfl⟩ := Option.map_eq_some_iff.1 h
      exact .enumT _ _ (deTupleValue_storable H (by omega) hs)
    · cases h; exact .enumU _
    · cases h
  · cases h

theorem deVariant_storable {m : VariantId} {n : Nat} (H : ReadsStorable m n) {c : Data} {i : Nat}
    {v : Value} (hn : sizeOf c ≤ n) (h : deVariant m c i = some v) : v.Storable := by
  unfold deVariant at h
  split at h
  · obtain ⟨s, hs, rfl⟩ := Option.map_eq_some_iff.1 h
    have := deStructValue_storable H hn hs
    exact .struct _ _ this.1 this.2
  · exact deEnumValue_storable H hn h
  · split at h
    · next t h1 =>
      have := deStruct_size h1 t (by simp)
      obtain ⟨s, hs, rfl⟩ := Option.map_eq_some_iff.1 h
      exact .tupleStruct _ (deTupleValue_storable H (by omega) hs)
    · cases h
  · obtain ⟨s, hs, rfl⟩ := Option.map_eq_some_iff.1 h
    exact .tuple _ (deTupleValue_storable H hn hs)
  · split at h
    · next h1 =>
      have := deSeq_size h1
      obtain ⟨s, hs, rfl⟩ := Option.map_eq_some_iff.1 h
      exact .list _ (deValues_storable H (by omega) hs)
    · cases h
  · split at h
    · next h1 =>
      have := deMap_size h1
      obtain ⟨s, hs, rfl⟩ := Option.map_eq_some_iff.1 h
      have hp := dePairs_storable H (by omega) hs
      exact .map _ (bmOfList_sorted valueCmpOn (by simp))
        (bmOfList_keys (P := Value.Storable) valueCmpOn.all fun p h => (hp p h).1)
        (bmOfList_vals fun p h => (hp p h).2)
    · cases h
  · obtain ⟨k, _, hk⟩ := Option.bind_eq_some_iff.1 h
    obtain ⟨s, hs, rfl⟩ := Option.map_eq_some_iff.1 hk
    exact .scalar _ (Scalar.de_fits hs)

theorem readsStorable (m : VariantId) (n : Nat) : ReadsStorable m n := by
  induction n with
  | zero => exact ⟨fun _ _ h => absurd h (by omega), fun _ _ h => absurd h (by omega), fun _ _ h => absurd h (by omega)⟩
  | succ n ih =>
    refine ⟨fun d v hn h => ?_, fun d s hn h => ?_, fun d vs hn h => ?_⟩
    · rw [Value.de] at h
      split at h
      · next h1 =>
        have := deEnum_size h1
        exact deVariant_storable ih (by omega) h
      · cases h
    · exact deStructValue_storable ih (by omega) h
    · exact deTupleValue_storable ih (by omega) h

theorem de_storable {m : VariantId} {d : Data} {v : Value} (h : Value.de m d = some v) : v.Storable :=
  (readsStorable m (sizeOf d + 1)).1 d v (by omega) h

end Mirror
