import Verif.Lemmas.Unseen
import Verif.Lemmas.NodeId

/-!
# Representatives of `==`: every NaN becomes one NaN and every zero the positive one

Two `Value`s are `==` exactly when these representatives are the same, and all operations commute with choosing
them.
-/

set_option linter.unusedSimpArgs false

namespace Mirror

/-! ## Scalars -/

/-- The representative of an `f32` under `OrderedFloat`'s `==`. -/
def f32Rep (b : BitVec 32) : BitVec 32 := if f32NaN b then 0x7FC00000#32 else if f32Mag b = 0 then 0#32 else b

/-- The representative of an `f64` under `OrderedFloat`'s `==`. -/
def f64Rep (b : BitVec 64) : BitVec 64 :=
  if f64NaN b then 0x7FF8000000000000#64 else if f64Mag b = 0 then 0#64 else b

/-- The representative of a scalar. -/
def Scalar.canon : Scalar → Scalar
  | .f32 b => .f32 (f32Rep b)
  | .f64 b => .f64 (f64Rep b)
  | s => s

theorem f32NaN_rep (b : BitVec 32) : f32NaN (f32Rep b) = f32NaN b := by
  unfold f32Rep
  split
  · rename_i h; rw [h]; simp [f32NaN, f32Mag]
  · split
    · rename_i h1 h2; simp only [f32NaN, h2]; simp [f32Mag]
    · rfl

theorem f64NaN_rep (b : BitVec 64) : f64NaN (f64Rep b) = f64NaN b := by
  unfold f64Rep
  split
  · rename_i h; rw [h]; simp [f64NaN, f64Mag]
  · split
    · rename_i h1 h2; simp only [f64NaN, h2]; simp [f64Mag]
    · rfl

theorem f32Key_rep (b : BitVec 32) (h : f32NaN b = false) : f32Key (f32Rep b) = f32Key b := by
  unfold f32Rep
  rw [if_neg (by simp [h])]
  split
  · rename_i h2; simp only [f32Key, h2]; simp [f32Neg, f32Mag]
  · rfl

theorem f64Key_rep (b : BitVec 64) (h : f64NaN b = false) : f64Key (f64Rep b) = f64Key b := by
  unfold f64Rep
  rw [if_neg (by simp [h])]
  split
  · rename_i h2; simp only [f64Key, h2]; simp [f64Neg, f64Mag]
  · rfl

theorem f32OrdKey_rep (b : BitVec 32) : f32OrdKey (f32Rep b) = f32OrdKey b := by
  unfold f32OrdKey
  rw [f32NaN_rep]
  split
  · rfl
  · rename_i h; exact f32Key_rep b (by simpa using h)

theorem f64OrdKey_rep (b : BitVec 64) : f64OrdKey (f64Rep b) = f64OrdKey b := by
  unfold f64OrdKey
  rw [f64NaN_rep]
  split
  · rfl
  · rename_i h; exact f64Key_rep b (by simpa using h)

theorem f32Rep_eq {a b : BitVec 32} (h : f32OrdKey a = f32OrdKey b) : f32Rep a = f32Rep b := by
  have ha : f32Mag a < 2 ^ 31 := Nat.mod_lt _ (by decide)
  have hb : f32Mag b < 2 ^ 31 := Nat.mod_lt _ (by decide)
  have la := a.isLt
  have lb := b.isLt
  unfold f32OrdKey f32Key f32Neg at h
  unfold f32Rep
  by_cases na : f32NaN a = true <;> by_cases nb : f32NaN b = true <;>
    simp only [na, nb, if_true, if_false, Bool.false_eq_true] at h ⊢
  · exfalso; split at h <;> omega
  · exfalso; split at h <;> omega
  · by_cases za : f32Mag a = 0
    · have zb : f32Mag b = 0 := by simp only [za] at h; split at h <;> split at h <;> omega
      simp [za, zb]
    · have zb : f32Mag b ≠ 0 := by
        intro zb; simp only [zb] at h; split at h <;> split at h <;> omega
      simp only [za, zb, if_false]
      apply BitVec.eq_of_toNat_eq
      simp only [f32Mag, decide_eq_true_eq] at h za zb ha hb
      split at h <;> split at h <;> omega

theorem f64Rep_eq {a b : BitVec 64} (h : f64OrdKey a = f64OrdKey b) : f64Rep a = f64Rep b := by
  have ha : f64Mag a < 2 ^ 63 := Nat.mod_lt _ (by decide)
  have hb : f64Mag b < 2 ^ 63 := Nat.mod_lt _ (by decide)
  have la := a.isLt
  have lb := b.isLt
  unfold f64OrdKey f64Key f64Neg at h
  unfold f64Rep
  by_cases na : f64NaN a = true <;> by_cases nb : f64NaN b = true <;>
    simp only [na, nb, if_true, if_false, Bool.false_eq_true] at h ⊢
  · exfalso; split at h <;> omega
  · exfalso; split at h <;> omega
  · by_cases za : f64Mag a = 0
    · have zb : f64Mag b = 0 := by simp only [za] at h; split at h <;> split at h <;> omega
      simp [za, zb]
    · have zb : f64Mag b ≠ 0 := by
        intro zb; simp only [zb] at h; split at h <;> split at h <;> omega
      simp only [za, zb, if_false]
      apply BitVec.eq_of_toNat_eq
      simp only [f64Mag, decide_eq_true_eq] at h za zb ha hb
      split at h <;> split at h <;> omega

@[simp] theorem Scalar.canon_kind (s : Scalar) : s.canon.kind = s.kind := by cases s <;> rfl

theorem encScalar_canon (s : Scalar) : encScalar s.canon = encScalar s := by
  cases s <;> simp [Scalar.canon, encScalar, f32OrdKey_rep, f64OrdKey_rep]

theorem Scalar.canon_eq {a b : Scalar} (hk : a.kind = b.kind) (he : encScalar a = encScalar b) : a.canon = b.canon := by
  cases a <;> cases b <;> simp [Scalar.kind] at hk <;> simp [encScalar] at he <;> simp [Scalar.canon]
  · exact ⟨hk, he⟩
  · rename_i a b; cases a <;> cases b <;> simp_all
  · exact Char.ext (UInt32.toNat_inj.mp (by exact_mod_cast he))
  · exact f32Rep_eq he
  · exact f64Rep_eq he
  · exact encStr_inj he

theorem Scalar.eqv_canon (a b : Scalar) : Scalar.eqv a.canon b.canon = Scalar.eqv a b := by
  cases a <;> cases b <;> simp only [Scalar.canon, Scalar.eqv]
  · rename_i a b
    simp only [f32Eq, f32NaN_rep]
    cases ha : f32NaN a <;> cases hb : f32NaN b <;> simp [f32Key_rep, ha, hb]
  · rename_i a b
    simp only [f64Eq, f64NaN_rep]
    cases ha : f64NaN a <;> cases hb : f64NaN b <;> simp [f64Key_rep, ha, hb]

/-! ## Values -/

/-- The representative of a `Value`. -/
def Value.canon : Value → Value
  | .scalar s => .scalar s.canon
  | .struct ns fs => .struct ns (fs.map fun p => (p.1, p.2.canon))
  | .enumS n ns fs => .enumS n ns (fs.map fun p => (p.1, p.2.canon))
  | .enumT n fs => .enumT n (fs.map fun x => x.canon)
  | .enumU n => .enumU n
  | .tupleStruct fs => .tupleStruct (fs.map fun x => x.canon)
  | .tuple fs => .tuple (fs.map fun x => x.canon)
  | .list xs => .list (xs.map fun x => x.canon)
  | .map kvs => .map (kvs.map fun p => (p.1.canon, p.2.canon))

theorem Value.ind {P : Value → Prop} (h : ∀ v, (∀ w, sizeOf w < sizeOf v → P w) → P v) (v : Value) : P v := by
  generalize hn : sizeOf v = n
  induction n using Nat.strongRecOn generalizing v with
  | _ n ih => subst hn; exact h v fun w hw => ih _ hw w rfl

theorem Value.enc_canon (v : Value) : v.canon.enc = v.enc := by
  induction v using Value.ind with
  | h v ih =>
  cases v with
  | scalar s => simp only [Value.canon, Value.enc, Scalar.canon_kind, encScalar_canon]
  | enumU s => simp [Value.canon]
  | struct ns fs =>
    simp only [Value.canon, Value.enc, List.map_map, Function.comp_def]
    rw [List.map_congr_left (g := fun p : String × Value => OT.node [encStr p.1, p.2.enc])]
    intro p hp
    rw [ih _ (by have := sizeOf_snd_lt_of_mem hp; simp; omega)]
  | enumS v ns fs =>
    simp only [Value.canon, Value.enc, List.map_map, Function.comp_def]
    rw [List.map_congr_left (g := fun p : String × Value => OT.node [encStr p.1, p.2.enc])]
    intro p hp
    rw [ih _ (by have := sizeOf_snd_lt_of_mem hp; simp; omega)]
  | enumT v fs =>
    simp only [Value.canon, Value.enc, List.map_map, Function.comp_def]
    rw [List.map_congr_left (g := fun x : Value => x.enc)]
    intro p hp
    exact ih _ (by have := List.sizeOf_lt_of_mem hp; simp; omega)
  | tupleStruct fs =>
    simp only [Value.canon, Value.enc, List.map_map, Function.comp_def]
    rw [List.map_congr_left (g := fun x : Value => x.enc)]
    intro p hp
    exact ih _ (by have := List.sizeOf_lt_of_mem hp; simp; omega)
  | tuple fs =>
    simp only [Value.canon, Value.enc, List.map_map, Function.comp_def]
    rw [List.map_congr_left (g := fun x : Value => x.enc)]
    intro p hp
    exact ih _ (by have := List.sizeOf_lt_of_mem hp; simp; omega)
  | list fs =>
    simp only [Value.canon, Value.enc, List.map_map, Function.comp_def]
    rw [List.map_congr_left (g := fun x : Value => x.enc)]
    intro p hp
    exact ih _ (by have := List.sizeOf_lt_of_mem hp; simp; omega)
  | map kvs =>
    simp only [Value.canon, Value.enc, List.map_map, Function.comp_def]
    rw [List.map_congr_left (g := fun p : Value × Value => OT.node [p.1.enc, p.2.enc])]
    intro p hp
    rw [ih p.1 (by have := sizeOf_fst_lt_of_mem hp; simp; omega),
      ih p.2 (by have := sizeOf_snd_lt_of_mem hp; simp; omega)]

theorem map_eq_of_map_eq {α β γ : Type} {e : α → β} {c : α → γ} : ∀ {xs ys : List α},
    (∀ x ∈ xs, ∀ y ∈ ys, e x = e y → c x = c y) → xs.map e = ys.map e → xs.map c = ys.map c
  | [], [], _, _ => rfl
  | [], _ :: _, _, h => by simp at h
  | _ :: _, [], _, h => by simp at h
  | x :: xs, y :: ys, hc, h => by
    simp only [List.map_cons, List.cons.injEq] at h ⊢
    exact ⟨hc x (by simp) y (by simp) h.1,
      map_eq_of_map_eq (fun x hx y hy => hc x (by simp [hx]) y (by simp [hy])) h.2⟩

theorem Value.canon_of_enc (a : Value) : ∀ {b : Value}, a.enc = b.enc → a.canon = b.canon := by
  induction a using Value.ind with
  | h a ih =>
  intro b h
  have lst : ∀ {xs ys : List Value}, (∀ x ∈ xs, sizeOf x < sizeOf a) →
      xs.map (fun x => x.enc) = ys.map (fun x => x.enc) → xs.map (fun x => x.canon) = ys.map fun x => x.canon :=
    fun hs he => map_eq_of_map_eq (fun x hx y _ hxy => ih x (hs x hx) hxy) he
  have fld : ∀ {xs ys : List (String × Value)}, (∀ x ∈ xs, sizeOf x.2 < sizeOf a) →
      xs.map (fun p => OT.node [encStr p.1, p.2.enc]) = ys.map (fun p => OT.node [encStr p.1, p.2.enc]) →
      xs.map (fun p => (p.1, p.2.canon)) = ys.map fun p => (p.1, p.2.canon) :=
    fun hs he => map_eq_of_map_eq (fun x hx y _ hxy => by
      simp only [OT.node.injEq, List.cons.injEq, and_true] at hxy
      rw [encStr_inj hxy.1, ih x.2 (hs x hx) hxy.2]) he
  cases a <;> cases b <;> simp only [Value.enc, OT.node.injEq, List.cons.injEq, and_true, OT.leaf.injEq, reduceCtorEq,
    and_false, false_and, map_encStr_inj, encStr_eq] at h
  case scalar.scalar a b =>
    simp only [Value.canon]
    rw [Scalar.canon_eq (Scalar.kind_idx_inj (by omega)) h.2]
  case struct.struct =>
    simp only [Value.canon, Value.struct.injEq]
    exact ⟨h.2.1, fld (fun x hx => by have := sizeOf_snd_lt_of_mem hx; simp; omega) h.2.2⟩
  case enumS.enumS =>
    simp only [Value.canon, Value.enumS.injEq]
    exact ⟨h.2.1, h.2.2.2.1, fld (fun x hx => by have := sizeOf_snd_lt_of_mem hx; simp; omega) h.2.2.2.2⟩
  case enumT.enumT =>
    simp only [Value.canon, Value.enumT.injEq]
    exact ⟨h.2.1, lst (fun x hx => by have := List.sizeOf_lt_of_mem hx; simp; omega) h.2.2.2⟩
  case enumU.enumU => simp only [Value.canon, Value.enumU.injEq]; exact h.2
  case tupleStruct.tupleStruct =>
    simp only [Value.canon, Value.tupleStruct.injEq]
    exact lst (fun x hx => by have := List.sizeOf_lt_of_mem hx; simp; omega) h.2
  case tuple.tuple =>
    simp only [Value.canon, Value.tuple.injEq]
    exact lst (fun x hx => by have := List.sizeOf_lt_of_mem hx; simp; omega) h.2
  case list.list =>
    simp only [Value.canon, Value.list.injEq]
    exact lst (fun x hx => by have := List.sizeOf_lt_of_mem hx; simp; omega) h.2
  case map.map =>
    simp only [Value.canon, Value.map.injEq]
    refine map_eq_of_map_eq (fun x hx y _ hxy => ?_) h.2
    simp only [OT.node.injEq, List.cons.injEq, and_true] at hxy
    rw [ih x.1 (by have := sizeOf_fst_lt_of_mem hx; simp; omega) hxy.1,
      ih x.2 (by have := sizeOf_snd_lt_of_mem hx; simp; omega) hxy.2]
  all_goals first
    | (exfalso; have := h.1; omega)
    | (exfalso; have := h.2.2.1; omega)
    | (exfalso; rename_i s _; have := Scalar.kind_idx_lt s; have := h.1; omega)
    | (exfalso; rename_i s _ _; have := Scalar.kind_idx_lt s; have := h.1; omega)
    | (exfalso; rename_i s _ _ _; have := Scalar.kind_idx_lt s; have := h.1; omega)
    | (exfalso; rename_i s; have := Scalar.kind_idx_lt s; have := h.1; omega)

/-- `==` is equality of representatives. -/
theorem Value.beq_iff_canon {a b : Value} : Value.beq a b = true ↔ a.canon = b.canon := by
  rw [Value.beq_enc]
  exact ⟨fun h => a.canon_of_enc h, fun h => by rw [← a.enc_canon, h, b.enc_canon]⟩

theorem Value.cmp_canon (a b : Value) : Value.cmp a.canon b.canon = Value.cmp a b := by
  rw [Value.cmp_enc, Value.cmp_enc, a.enc_canon, b.enc_canon]

theorem Value.cmp_canon_self (a : Value) : Value.cmp a.canon a = .eq := by
  rw [Value.cmp_eq_iff, a.enc_canon]

theorem Value.WF.canon {v : Value} (h : v.WF) : v.canon.WF := by
  induction h with
  | scalar s => rw [Value.canon]; exact .scalar _
  | struct ns fs h1 h2 _ ih =>
    rw [Value.canon]
    refine .struct _ _ (by simpa [List.map_map, Function.comp_def] using h1) ?_ ?_
    · simpa only [BMSorted, List.pairwise_map] using h2
    · intro p hp; obtain ⟨q, hq, rfl⟩ := List.mem_map.mp hp; exact ih q hq
  | enumS v ns fs h1 h2 _ ih =>
    rw [Value.canon]
    refine .enumS _ _ _ (by simpa [List.map_map, Function.comp_def] using h1) ?_ ?_
    · simpa only [BMSorted, List.pairwise_map] using h2
    · intro p hp; obtain ⟨q, hq, rfl⟩ := List.mem_map.mp hp; exact ih q hq
  | enumT v fs _ ih =>
    rw [Value.canon]; refine .enumT _ _ fun x hx => ?_
    obtain ⟨q, hq, rfl⟩ := List.mem_map.mp hx; exact ih q hq
  | enumU v => rw [Value.canon]; exact .enumU _
  | tupleStruct fs _ ih =>
    rw [Value.canon]; refine .tupleStruct _ fun x hx => ?_
    obtain ⟨q, hq, rfl⟩ := List.mem_map.mp hx; exact ih q hq
  | tuple fs _ ih =>
    rw [Value.canon]; refine .tuple _ fun x hx => ?_
    obtain ⟨q, hq, rfl⟩ := List.mem_map.mp hx; exact ih q hq
  | list fs _ ih =>
    rw [Value.canon]; refine .list _ fun x hx => ?_
    obtain ⟨q, hq, rfl⟩ := List.mem_map.mp hx; exact ih q hq
  | map kvs h1 _ _ ihk ihv =>
    rw [Value.canon]
    refine .map _ ?_ ?_ ?_
    · simpa only [BMSorted, List.pairwise_map, Value.cmp_canon] using h1
    · intro p hp; obtain ⟨q, hq, rfl⟩ := List.mem_map.mp hp; exact ihk q hq
    · intro p hp; obtain ⟨q, hq, rfl⟩ := List.mem_map.mp hp; exact ihv q hq

/-! ## Objects -/

/-- The representative of a reflected value: every scalar in it replaced, skipped fields left alone. -/
def Obj.canon : Obj → Obj
  | .scalar s => .scalar s.canon
  | .nonzero k n => .nonzero k n
  | .struct tag fs => .struct tag (fs.map fun p => (p.1, p.2.canon))
  | .tupleStruct tag fs => .tupleStruct tag (fs.map fun x => x.canon)
  | .tuple tag fs => .tuple tag (fs.map fun x => x.canon)
  | .enumS tag v fs => .enumS tag v (fs.map fun p => (p.1, p.2.canon))
  | .enumT tag v fs => .enumT tag v (fs.map fun x => x.canon)
  | .enumU tag v => .enumU tag v
  | .vec t xs => .vec t (xs.map fun x => x.canon)
  | .array t xs => .array t (xs.map fun x => x.canon)
  | .map kt vt kvs => .map kt vt (kvs.map fun p => (p.1.canon, p.2.canon))
  | .hidden d => .hidden d

theorem toObj_canon (v : Value) : v.canon.toObj = v.toObj.canon := by
  induction v using Value.ind with
  | h v ih =>
  cases v with
  | scalar s => simp [Value.toObj, Obj.canon, Value.canon]
  | enumU s => simp [Value.toObj, Obj.canon, Value.canon]
  | map kvs =>
    simp only [Value.toObj, Value.canon, Obj.canon, List.map_map, Function.comp_def]
    congr 1
    apply List.map_congr_left
    intro p hp
    rw [ih p.1 (by have := sizeOf_fst_lt_of_mem hp; simp; omega),
      ih p.2 (by have := sizeOf_snd_lt_of_mem hp; simp; omega)]
  | struct ns fs =>
    simp only [Value.toObj, Value.canon, Obj.canon, List.map_map, Function.comp_def]
    congr 1
    apply List.map_congr_left
    intro p hp
    rw [ih _ (by have := sizeOf_snd_lt_of_mem hp; simp; omega)]
  | enumS v ns fs =>
    simp only [Value.toObj, Value.canon, Obj.canon, List.map_map, Function.comp_def]
    congr 1
    apply List.map_congr_left
    intro p hp
    rw [ih _ (by have := sizeOf_snd_lt_of_mem hp; simp; omega)]
  | enumT v fs =>
    simp only [Value.toObj, Value.canon, Obj.canon, List.map_map, Function.comp_def]
    congr 1
    apply List.map_congr_left
    intro p hp
    rw [ih _ (by have := List.sizeOf_lt_of_mem hp; simp; omega)]
  | tupleStruct fs =>
    simp only [Value.toObj, Value.canon, Obj.canon, List.map_map, Function.comp_def]
    congr 1
    apply List.map_congr_left
    intro p hp
    rw [ih _ (by have := List.sizeOf_lt_of_mem hp; simp; omega)]
  | tuple fs =>
    simp only [Value.toObj, Value.canon, Obj.canon, List.map_map, Function.comp_def]
    congr 1
    apply List.map_congr_left
    intro p hp
    rw [ih _ (by have := List.sizeOf_lt_of_mem hp; simp; omega)]
  | list fs =>
    simp only [Value.toObj, Value.canon, Obj.canon, List.map_map, Function.comp_def]
    congr 1
    apply List.map_congr_left
    intro p hp
    rw [ih _ (by have := List.sizeOf_lt_of_mem hp; simp; omega)]

@[simp] theorem isHidden_canon (o : Obj) : o.canon.isHidden = o.isHidden := by
  cases o <;> simp [Obj.canon, Obj.isHidden]

theorem visFields_canon (fs : List (String × Obj)) :
    visFields (fs.map fun p => (p.1, p.2.canon)) = (visFields fs).map fun p => (p.1, p.2.canon) := by
  simp only [visFields, List.filter_map, Function.comp_def, isHidden_canon]

theorem visPos_canon (fs : List Obj) :
    visPos (fs.map fun x => x.canon) = (visPos fs).map fun x => x.canon := by
  simp only [visPos, List.filter_map, Function.comp_def, isHidden_canon]

theorem bmPut_map {κ α κ' β : Type} {cmp : κ → κ → Ordering} {cmp' : κ' → κ' → Ordering} {f : κ → κ'} {g : α → β}
    (h : ∀ a b, cmp' (f a) (f b) = cmp a b) (k : κ) (v : α) (l : List (κ × α)) :
    bmPut cmp' (f k) (g v) (l.map fun p => (f p.1, g p.2)) = (bmPut cmp k v l).map fun p => (f p.1, g p.2) := by
  induction l with
  | nil => rfl
  | cons p r ih =>
    simp only [List.map_cons, bmPut, h]
    cases cmp k p.1 <;> simp [ih]

theorem bmCollect_map {κ α κ' β : Type} {cmp : κ → κ → Ordering} {cmp' : κ' → κ' → Ordering} {f : κ → κ'} {g : α → β}
    (h : ∀ a b, cmp' (f a) (f b) = cmp a b) (l : List (κ × α)) :
    bmCollect cmp' (l.map fun p => (f p.1, g p.2)) = (bmCollect cmp l).map fun p => (f p.1, g p.2) := by
  unfold bmCollect
  have : ∀ (m : List (κ × α)), (l.map fun p => (f p.1, g p.2)).foldl (fun m p => bmPut cmp' p.1 p.2 m)
      (m.map fun p => (f p.1, g p.2)) =
      (l.foldl (fun m p => bmPut cmp p.1 p.2 m) m).map fun p => (f p.1, g p.2) := by
    induction l with
    | nil => intro m; rfl
    | cons p r ih =>
      intro m
      simp only [List.map_cons, List.foldl_cons]
      rw [bmPut_map h, ih]
  exact this []

theorem toValue_canon (o : Obj) : o.canon.toValue = o.toValue.canon := by
  induction o using Obj.ind with
  | _ o ih =>
  cases o with
  | scalar s => simp [Obj.canon, Obj.toValue, Value.canon]
  | nonzero k n => simp [Obj.canon, Obj.toValue, Value.canon, Scalar.canon]
  | hidden d => simp [Obj.canon, Obj.toValue, Value.canon]
  | enumU t v => simp [Obj.canon, Obj.toValue, Value.canon]
  | struct tag fs =>
    cases tag with
    | derived n =>
      have : ∀ p ∈ visFields fs, p.2.canon.toValue = p.2.toValue.canon := fun p hp =>
        ih _ (by have := sizeOf_snd_lt_of_mem (visFields_sub hp); simp; omega)
      simp only [Obj.canon, toValue_struct, visFields_canon, List.map_map, Function.comp_def, Value.canon,
        ← bmOfList_map]
      rw [List.map_congr_left (l := visFields fs) (f := fun p : String × Obj => (p.1, p.2.canon.toValue))
        (g := fun p : String × Obj => (p.1, p.2.toValue.canon))]
      intro p hp; rw [this p hp]
    | dyn ns =>
      simp only [Obj.canon, Obj.toValue, List.map_map, Function.comp_def, Value.canon]
      rw [List.map_congr_left (g := fun p : String × Obj => (p.1, p.2.toValue.canon))]
      intro p hp
      rw [ih _ (by have := sizeOf_snd_lt_of_mem hp; simp; omega)]
  | enumS tag v fs =>
    cases tag with
    | derived n =>
      have : ∀ p ∈ visFields fs, p.2.canon.toValue = p.2.toValue.canon := fun p hp =>
        ih _ (by have := sizeOf_snd_lt_of_mem (visFields_sub hp); simp; omega)
      simp only [Obj.canon, toValue_enumS, visFields_canon, List.map_map, Function.comp_def, Value.canon,
        ← bmOfList_map]
      rw [List.map_congr_left (l := visFields fs) (f := fun p : String × Obj => (p.1, p.2.canon.toValue))
        (g := fun p : String × Obj => (p.1, p.2.toValue.canon))]
      intro p hp; rw [this p hp]
    | dyn ns =>
      simp only [Obj.canon, Obj.toValue, List.map_map, Function.comp_def, Value.canon]
      rw [List.map_congr_left (g := fun p : String × Obj => (p.1, p.2.toValue.canon))]
      intro p hp
      rw [ih _ (by have := sizeOf_snd_lt_of_mem hp; simp; omega)]
  | tupleStruct tag fs =>
    simp only [Obj.canon, toValue_tupleStruct, visPos_canon, List.map_map, Function.comp_def, Value.canon]
    rw [List.map_congr_left]
    intro x hx
    exact ih _ (by have := List.sizeOf_lt_of_mem (visPos_sub hx); simp; omega)
  | enumT tag v fs =>
    simp only [Obj.canon, toValue_enumT, visPos_canon, List.map_map, Function.comp_def, Value.canon]
    rw [List.map_congr_left]
    intro x hx
    exact ih _ (by have := List.sizeOf_lt_of_mem (visPos_sub hx); simp; omega)
  | tuple tag fs =>
    simp only [Obj.canon, Obj.toValue, List.map_map, Function.comp_def, Value.canon]
    rw [List.map_congr_left]
    intro x hx
    exact ih _ (by have := List.sizeOf_lt_of_mem hx; simp; omega)
  | vec tag fs =>
    simp only [Obj.canon, Obj.toValue, List.map_map, Function.comp_def, Value.canon]
    rw [List.map_congr_left]
    intro x hx
    exact ih _ (by have := List.sizeOf_lt_of_mem hx; simp; omega)
  | array tag fs =>
    simp only [Obj.canon, Obj.toValue, List.map_map, Function.comp_def, Value.canon]
    rw [List.map_congr_left]
    intro x hx
    exact ih _ (by have := List.sizeOf_lt_of_mem hx; simp; omega)
  | map kt vt kvs =>
    simp only [Obj.canon, Obj.toValue, List.map_map, Function.comp_def, Value.canon]
    rw [← bmCollect_map Value.cmp_canon, List.map_map]
    congr 2
    refine List.map_congr_left fun p hp => ?_
    simp only [Function.comp_apply]
    rw [ih p.1 (by have := sizeOf_fst_lt_of_mem hp; simp; omega),
      ih p.2 (by have := sizeOf_snd_lt_of_mem hp; simp; omega)]

theorem lookup_visFields_canon (n : String) (fs : List (String × Obj)) :
    lookup n (visFields (fs.map fun p => (p.1, p.2.canon))) = (lookup n (visFields fs)).map Obj.canon := by
  rw [visFields_canon, lookup_map]

theorem visAt_canon (fs : List Obj) (i : Nat) :
    visAt (fs.map fun x => x.canon) i = (visAt fs i).map Obj.canon := by
  simp only [visAt, List.getElem?_map]
  cases fs[i]? with
  | none => rfl
  | some x => cases hx : x.isHidden <;> simp [hx]

end Mirror
