import Verif.Model.Value

/-!
# Order laws of `Value.cmp`

`Value.cmp` is shown to be the lexicographic order of an encoding into finitely branching trees with
integer leaves, for which the laws are easy.
-/

set_option linter.unusedSimpArgs false

namespace Mirror

/-- Trees with integer leaves. -/
inductive OT
  | leaf (n : Int)
  | node (l : List OT)

mutual
/-- Lexicographic order on trees. -/
def OT.cmp : OT → OT → Ordering
  | .leaf a, .leaf b => compare a b
  | .leaf _, .node _ => .lt
  | .node _, .leaf _ => .gt
  | .node a, .node b => OT.cmpL a b
/-- Lexicographic order on forests. -/
def OT.cmpL : List OT → List OT → Ordering
  | [], [] => .eq
  | [], _ :: _ => .lt
  | _ :: _, [] => .gt
  | a :: as, b :: bs => (OT.cmp a b).then (OT.cmpL as bs)
end

theorem then_eq_eq {a b : Ordering} : a.then b = .eq ↔ a = .eq ∧ b = .eq := by
  cases a <;> simp [Ordering.then]

theorem then_eq_lt {a b : Ordering} : a.then b = .lt ↔ a = .lt ∨ (a = .eq ∧ b = .lt) := by
  cases a <;> simp [Ordering.then]

mutual
theorem OT.cmp_eq : ∀ a b : OT, OT.cmp a b = .eq ↔ a = b
  | .leaf a, .leaf b => by simp [OT.cmp]
  | .leaf _, .node _ => by simp [OT.cmp]
  | .node _, .leaf _ => by simp [OT.cmp]
  | .node a, .node b => by simp [OT.cmp, OT.cmpL_eq a b]
theorem OT.cmpL_eq : ∀ a b : List OT, OT.cmpL a b = .eq ↔ a = b
  | [], [] => by simp [OT.cmpL]
  | [], _ :: _ => by simp [OT.cmpL]
  | _ :: _, [] => by simp [OT.cmpL]
  | a :: as, b :: bs => by simp [OT.cmpL, then_eq_eq, OT.cmp_eq a b, OT.cmpL_eq as bs]
end

theorem swap_then (a b : Ordering) : (a.then b).swap = a.swap.then b.swap := by
  cases a <;> simp [Ordering.then]

theorem int_cmp_swap (a b : Int) : compare b a = (compare a b).swap := by
  simp only [compare, compareOfLessAndEq]
  split <;> split <;> (try split) <;> (try split) <;> simp <;> omega

mutual
theorem OT.cmp_swap : ∀ a b : OT, OT.cmp b a = (OT.cmp a b).swap
  | .leaf a, .leaf b => by simp only [OT.cmp]; exact int_cmp_swap a b
  | .leaf _, .node _ => by simp [OT.cmp]
  | .node _, .leaf _ => by simp [OT.cmp]
  | .node a, .node b => by simp only [OT.cmp]; exact OT.cmpL_swap a b
theorem OT.cmpL_swap : ∀ a b : List OT, OT.cmpL b a = (OT.cmpL a b).swap
  | [], [] => by simp [OT.cmpL]
  | [], _ :: _ => by simp [OT.cmpL]
  | _ :: _, [] => by simp [OT.cmpL]
  | a :: as, b :: bs => by
    simp only [OT.cmpL, swap_then]; rw [OT.cmp_swap a b, OT.cmpL_swap as bs]
end

theorem int_cmp_lt {a b : Int} : compare a b = .lt ↔ a < b := by
  simp only [compare, compareOfLessAndEq]
  split <;> (try split) <;> simp <;> omega

mutual
theorem OT.cmp_trans : ∀ a b c : OT, OT.cmp a b = .lt → OT.cmp b c = .lt → OT.cmp a c = .lt
  | .leaf a, .leaf b, .leaf c => by simp only [OT.cmp, int_cmp_lt]; omega
  | .leaf _, .leaf _, .node _ => by simp [OT.cmp]
  | .leaf _, .node _, .leaf _ => by simp [OT.cmp]
  | .leaf _, .node _, .node _ => by simp [OT.cmp]
  | .node _, .leaf _, .leaf _ => by simp [OT.cmp]
  | .node _, .leaf _, .node _ => by simp [OT.cmp]
  | .node _, .node _, .leaf _ => by simp [OT.cmp]
  | .node a, .node b, .node c => by simp only [OT.cmp]; exact OT.cmpL_trans a b c
theorem OT.cmpL_trans : ∀ a b c : List OT,
    OT.cmpL a b = .lt → OT.cmpL b c = .lt → OT.cmpL a c = .lt
  | [], [], _ => by simp [OT.cmpL]
  | [], _ :: _, [] => by simp [OT.cmpL]
  | [], _ :: _, _ :: _ => by simp [OT.cmpL]
  | _ :: _, [], _ => by simp [OT.cmpL]
  | _ :: _, _ :: _, [] => by simp [OT.cmpL]
  | a :: as, b :: bs, c :: cs => by
    simp only [OT.cmpL, then_eq_lt, OT.cmp_eq]
    rintro (h | ⟨rfl, h⟩) (h' | ⟨rfl, h'⟩)
    · exact .inl (OT.cmp_trans a b c h h')
    · exact .inl h
    · exact .inl h'
    · exact .inr ⟨rfl, OT.cmpL_trans as bs cs h h'⟩
end

/-! ## The encoding -/

/-- Encoding of a string. -/
def encStr (s : String) : OT := .node (s.toList.map fun c => .leaf c.toNat)

/-- Encoding of a scalar's payload. -/
def encScalar : Scalar → OT
  | .int _ n => .leaf n
  | .bool b => .leaf b.toNat
  | .char c => .leaf c.toNat
  | .f32 b => .leaf (f32OrdKey b)
  | .f64 b => .leaf (f64OrdKey b)
  | .string s => encStr s

/-- Encoding of a `Value`. -/
def Value.enc : Value → OT
  | .scalar s => .node [.leaf s.kind.idx, encScalar s]
  | .struct ns fs =>
    .node [.leaf 16, .node (ns.map encStr), .node (fs.map fun p => .node [encStr p.1, p.2.enc])]
  | .enumS n ns fs =>
    .node [.leaf 17, encStr n, .leaf 0, .node (ns.map encStr),
      .node (fs.map fun p => .node [encStr p.1, p.2.enc])]
  | .enumT n fs => .node [.leaf 17, encStr n, .leaf 1, .node (fs.map fun x => x.enc)]
  | .enumU n => .node [.leaf 17, encStr n, .leaf 2]
  | .tupleStruct fs => .node [.leaf 18, .node (fs.map fun x => x.enc)]
  | .tuple fs => .node [.leaf 19, .node (fs.map fun x => x.enc)]
  | .list xs => .node [.leaf 20, .node (xs.map fun x => x.enc)]
  | .map kvs => .node [.leaf 21, .node (kvs.map fun p => .node [p.1.enc, p.2.enc])]

theorem nat_cmp_int (a b : Nat) : compare (a : Int) (b : Int) = compare a b := by
  simp only [compare, compareOfLessAndEq]
  split <;> split <;> (try split) <;> (try split) <;> simp <;> omega

theorem natListCmp_enc : ∀ a b : List Nat,
    natListCmp a b = OT.cmpL (a.map fun n : Nat => .leaf n) (b.map fun n : Nat => .leaf n)
  | [], [] => by simp [natListCmp, OT.cmpL]
  | [], _ :: _ => by simp [natListCmp, OT.cmpL]
  | _ :: _, [] => by simp [natListCmp, OT.cmpL]
  | a :: as, b :: bs => by
    simp [natListCmp, OT.cmpL, OT.cmp, nat_cmp_int, natListCmp_enc as bs]

theorem strCmp_enc (a b : String) : strCmp a b = OT.cmp (encStr a) (encStr b) := by
  simp only [strCmp, encStr, OT.cmp, natListCmp_enc, List.map_map]; rfl

theorem strsCmp_enc : ∀ a b : List String,
    strsCmp a b = OT.cmpL (a.map encStr) (b.map encStr)
  | [], [] => by simp [strsCmp, OT.cmpL]
  | [], _ :: _ => by simp [strsCmp, OT.cmpL]
  | _ :: _, [] => by simp [strsCmp, OT.cmpL]
  | a :: as, b :: bs => by simp [strsCmp, OT.cmpL, strCmp_enc, strsCmp_enc as bs]

theorem then_eq_self (a : Ordering) : a.then .eq = a := by cases a <;> rfl
theorem eq_then (a : Ordering) : Ordering.eq.then a = a := rfl
theorem lt_then (a : Ordering) : Ordering.lt.then a = .lt := rfl
theorem gt_then (a : Ordering) : Ordering.gt.then a = .gt := rfl

theorem Scalar.kind_idx_inj {a b : Scalar} (h : a.kind.idx = b.kind.idx) : a.kind = b.kind := by
  cases a <;> cases b <;> simp only [Scalar.kind, ScalarKind.idx] at h ⊢ <;>
    first
      | rfl
      | (rename_i k _ k' _; cases k <;> cases k' <;> simp_all [IntKind.idx]; done)
      | (rename_i k _ _; cases k <;> simp_all [IntKind.idx]; done)
      | (rename_i k _; cases k <;> simp_all [IntKind.idx]; done)
      | omega

theorem Scalar.cmp_enc (a b : Scalar) :
    Scalar.cmp a b = OT.cmpL [.leaf a.kind.idx, encScalar a] [.leaf b.kind.idx, encScalar b] := by
  simp only [OT.cmpL, then_eq_self, OT.cmp, nat_cmp_int, Scalar.cmp]
  by_cases h : a.kind.idx = b.kind.idx
  · have hk := Scalar.kind_idx_inj h
    rw [h, Nat.compare_eq_eq.mpr rfl, eq_then, eq_then]
    cases a <;> cases b <;> simp [Scalar.kind] at hk <;>
      simp [encScalar, OT.cmp, nat_cmp_int, strCmp_enc]
  · have : compare a.kind.idx b.kind.idx ≠ .eq := by simpa using h
    cases hc : compare a.kind.idx b.kind.idx <;> simp_all

theorem Scalar.kind_idx_lt (s : Scalar) : s.kind.idx < 16 := by
  cases s <;> simp only [Scalar.kind, ScalarKind.idx] <;> try omega
  rename_i k _; cases k <;> simp [IntKind.idx]

theorem Value.enc_head (v : Value) : ∃ r, v.enc = .node (.leaf v.idx :: r) := by
  cases v <;> simp [Value.enc, Value.idx]

theorem Value.cmp_enc_of_idx_ne {a b : Value} (h : a.idx ≠ b.idx) :
    OT.cmp a.enc b.enc = compare a.idx b.idx := by
  obtain ⟨r, hr⟩ := a.enc_head
  obtain ⟨s, hs⟩ := b.enc_head
  have : compare a.idx b.idx ≠ .eq := by simpa using h
  rw [hr, hs]
  simp only [OT.cmp, OT.cmpL, nat_cmp_int]
  cases hc : compare a.idx b.idx <;> simp_all

mutual
theorem Value.cmp_enc : ∀ a b : Value, Value.cmp a b = OT.cmp a.enc b.enc
  | .scalar a, b => by
    cases b
    case scalar b => simp only [Value.cmp, Value.enc, OT.cmp, Scalar.cmp_enc]
    all_goals
      rw [Value.cmp_enc_of_idx_ne (by have := Scalar.kind_idx_lt a; simp only [Value.idx]; omega)]
      simp [Value.cmp]
  | .struct ns fs, b => by
    cases b
    case struct ns' fs' =>
      simp [Value.cmp, Value.enc, OT.cmp, OT.cmpL, strsCmp_enc, Value.cmpFields_enc fs fs',
        then_eq_self]
    case scalar s =>
      rw [Value.cmp_enc_of_idx_ne (by have := Scalar.kind_idx_lt s; simp only [Value.idx]; omega)]
      simp [Value.cmp]
    all_goals
      rw [Value.cmp_enc_of_idx_ne (by simp [Value.idx])]
      simp [Value.cmp]
  | .enumS n ns fs, b => by
    cases b
    case enumS n' ns' fs' =>
      simp [Value.cmp, Value.enc, OT.cmp, OT.cmpL, strCmp_enc, strsCmp_enc,
        Value.cmpFields_enc fs fs', then_eq_self]
    case enumT n' fs' =>
      simp [Value.cmp, Value.enc, OT.cmp, OT.cmpL, strCmp_enc] <;> rfl
    case enumU n' =>
      simp [Value.cmp, Value.enc, OT.cmp, OT.cmpL, strCmp_enc] <;> rfl
    case scalar s =>
      rw [Value.cmp_enc_of_idx_ne (by have := Scalar.kind_idx_lt s; simp only [Value.idx]; omega)]
      simp [Value.cmp]
    all_goals
      rw [Value.cmp_enc_of_idx_ne (by simp [Value.idx])]
      simp [Value.cmp]
  | .enumT n fs, b => by
    cases b
    case enumS n' ns' fs' => simp [Value.cmp, Value.enc, OT.cmp, OT.cmpL, strCmp_enc] <;> rfl
    case enumT n' fs' =>
      simp [Value.cmp, Value.enc, OT.cmp, OT.cmpL, strCmp_enc, Value.cmpList_enc fs fs',
        then_eq_self]
    case enumU n' => simp [Value.cmp, Value.enc, OT.cmp, OT.cmpL, strCmp_enc] <;> rfl
    case scalar s =>
      rw [Value.cmp_enc_of_idx_ne (by have := Scalar.kind_idx_lt s; simp only [Value.idx]; omega)]
      simp [Value.cmp]
    all_goals
      rw [Value.cmp_enc_of_idx_ne (by simp [Value.idx])]
      simp [Value.cmp]
  | .enumU n, b => by
    cases b
    case enumS n' ns' fs' => simp [Value.cmp, Value.enc, OT.cmp, OT.cmpL, strCmp_enc] <;> rfl
    case enumT n' fs' => simp [Value.cmp, Value.enc, OT.cmp, OT.cmpL, strCmp_enc] <;> rfl
    case enumU n' => simp [Value.cmp, Value.enc, OT.cmp, OT.cmpL, strCmp_enc, then_eq_self]
    case scalar s =>
      rw [Value.cmp_enc_of_idx_ne (by have := Scalar.kind_idx_lt s; simp only [Value.idx]; omega)]
      simp [Value.cmp]
    all_goals
      rw [Value.cmp_enc_of_idx_ne (by simp [Value.idx])]
      simp [Value.cmp]
  | .tupleStruct fs, b => by
    cases b
    case tupleStruct fs' =>
      simp [Value.cmp, Value.enc, OT.cmp, OT.cmpL, Value.cmpList_enc fs fs', then_eq_self]
    case scalar s =>
      rw [Value.cmp_enc_of_idx_ne (by have := Scalar.kind_idx_lt s; simp only [Value.idx]; omega)]
      simp [Value.cmp]
    all_goals
      rw [Value.cmp_enc_of_idx_ne (by simp [Value.idx])]
      simp [Value.cmp]
  | .tuple fs, b => by
    cases b
    case tuple fs' =>
      simp [Value.cmp, Value.enc, OT.cmp, OT.cmpL, Value.cmpList_enc fs fs', then_eq_self]
    case scalar s =>
      rw [Value.cmp_enc_of_idx_ne (by have := Scalar.kind_idx_lt s; simp only [Value.idx]; omega)]
      simp [Value.cmp]
    all_goals
      rw [Value.cmp_enc_of_idx_ne (by simp [Value.idx])]
      simp [Value.cmp]
  | .list xs, b => by
    cases b
    case list xs' =>
      simp [Value.cmp, Value.enc, OT.cmp, OT.cmpL, Value.cmpList_enc xs xs', then_eq_self]
    case scalar s =>
      rw [Value.cmp_enc_of_idx_ne (by have := Scalar.kind_idx_lt s; simp only [Value.idx]; omega)]
      simp [Value.cmp]
    all_goals
      rw [Value.cmp_enc_of_idx_ne (by simp [Value.idx])]
      simp [Value.cmp]
  | .map m, b => by
    cases b
    case map m' =>
      simp [Value.cmp, Value.enc, OT.cmp, OT.cmpL, Value.cmpPairs_enc m m', then_eq_self]
    case scalar s =>
      rw [Value.cmp_enc_of_idx_ne (by have := Scalar.kind_idx_lt s; simp only [Value.idx]; omega)]
      simp [Value.cmp]
    all_goals
      rw [Value.cmp_enc_of_idx_ne (by simp [Value.idx])]
      simp [Value.cmp]
theorem Value.cmpList_enc : ∀ a b : List Value,
    Value.cmpList a b = OT.cmpL (a.map fun x => x.enc) (b.map fun x => x.enc)
  | [], [] => by simp [Value.cmpList, OT.cmpL]
  | [], _ :: _ => by simp [Value.cmpList, OT.cmpL]
  | _ :: _, [] => by simp [Value.cmpList, OT.cmpL]
  | a :: as, b :: bs => by
    simp [Value.cmpList, OT.cmpL, Value.cmp_enc a b, Value.cmpList_enc as bs]
theorem Value.cmpFields_enc : ∀ a b : List (String × Value),
    Value.cmpFields a b = OT.cmpL (a.map fun p => .node [encStr p.1, p.2.enc])
      (b.map fun p => .node [encStr p.1, p.2.enc])
  | [], [] => by simp [Value.cmpFields, OT.cmpL]
  | [], _ :: _ => by simp [Value.cmpFields, OT.cmpL]
  | _ :: _, [] => by simp [Value.cmpFields, OT.cmpL]
  | (n, a) :: as, (m, b) :: bs => by
    simp [Value.cmpFields, OT.cmpL, OT.cmp, strCmp_enc, Value.cmp_enc a b,
      Value.cmpFields_enc as bs, then_eq_self]
theorem Value.cmpPairs_enc : ∀ a b : List (Value × Value),
    Value.cmpPairs a b = OT.cmpL (a.map fun p => .node [p.1.enc, p.2.enc])
      (b.map fun p => .node [p.1.enc, p.2.enc])
  | [], [] => by simp [Value.cmpPairs, OT.cmpL]
  | [], _ :: _ => by simp [Value.cmpPairs, OT.cmpL]
  | _ :: _, [] => by simp [Value.cmpPairs, OT.cmpL]
  | (k, a) :: as, (l, b) :: bs => by
    simp [Value.cmpPairs, OT.cmpL, OT.cmp, Value.cmp_enc k l, Value.cmp_enc a b,
      Value.cmpPairs_enc as bs, then_eq_self]
end

theorem Value.cmp_eq_iff (a b : Value) : Value.cmp a b = .eq ↔ a.enc = b.enc := by
  rw [Value.cmp_enc, OT.cmp_eq]

theorem Value.cmp_self (a : Value) : Value.cmp a a = .eq := (Value.cmp_eq_iff a a).mpr rfl

theorem Value.cmp_swap (a b : Value) : Value.cmp b a = (Value.cmp a b).swap := by
  rw [Value.cmp_enc, Value.cmp_enc, OT.cmp_swap]

theorem Value.cmp_lt_trans {a b c : Value} (h : Value.cmp a b = .lt) (h' : Value.cmp b c = .lt) :
    Value.cmp a c = .lt := by
  rw [Value.cmp_enc] at *; exact OT.cmp_trans _ _ _ h h'

theorem Char.toNat_inj {a b : Char} (h : a.toNat = b.toNat) : a = b := by
  apply Char.ext; exact UInt32.toNat_inj.mp h

theorem encStr_inj {a b : String} (h : encStr a = encStr b) : a = b := by
  simp only [encStr, OT.node.injEq] at h
  have := (List.map_inj_right (f := fun c : Char => OT.leaf c.toNat) (by
    intro x y hxy
    simp only [OT.leaf.injEq] at hxy
    exact Char.toNat_inj (by omega))).mp h
  exact String.ext this

theorem strCmp_eq_iff (a b : String) : strCmp a b = .eq ↔ a = b := by
  rw [strCmp_enc, OT.cmp_eq]; exact ⟨encStr_inj, fun h => h ▸ rfl⟩

theorem strCmp_swap (a b : String) : strCmp b a = (strCmp a b).swap := by
  rw [strCmp_enc, strCmp_enc, OT.cmp_swap]

theorem strCmp_lt_trans {a b c : String} (h : strCmp a b = .lt) (h' : strCmp b c = .lt) :
    strCmp a c = .lt := by
  rw [strCmp_enc] at *; exact OT.cmp_trans _ _ _ h h'

/-! ## Equality and hashing -/

theorem f32OrdKey_eq (a b : BitVec 32) :
    f32OrdKey a = f32OrdKey b ↔ (if f32NaN a then f32NaN b else f32Eq a b) = true := by
  have ha : f32Mag a < 2 ^ 31 := Nat.mod_lt _ (by decide)
  have hb : f32Mag b < 2 ^ 31 := Nat.mod_lt _ (by decide)
  unfold f32OrdKey f32Eq f32Key
  cases f32NaN a <;> cases f32NaN b <;> simp <;> split <;> (try split) <;> omega

theorem f64OrdKey_eq (a b : BitVec 64) :
    f64OrdKey a = f64OrdKey b ↔ (if f64NaN a then f64NaN b else f64Eq a b) = true := by
  have ha : f64Mag a < 2 ^ 63 := Nat.mod_lt _ (by decide)
  have hb : f64Mag b < 2 ^ 63 := Nat.mod_lt _ (by decide)
  unfold f64OrdKey f64Eq f64Key
  cases f64NaN a <;> cases f64NaN b <;> simp <;> split <;> (try split) <;> omega

theorem bool_toNat_inj {a b : Bool} : a.toNat = b.toNat ↔ a = b := by
  cases a <;> cases b <;> simp

theorem Scalar.ordEq_iff (a b : Scalar) :
    Scalar.ordEq a b = true ↔ (a.kind.idx = b.kind.idx ∧ encScalar a = encScalar b) := by
  constructor
  · intro h
    cases a <;> cases b <;> simp only [Scalar.ordEq, Bool.false_eq_true] at h <;>
      simp [Scalar.kind, ScalarKind.idx, encScalar]
    · simp_all
    · simp_all
    · simp_all
    · exact (f32OrdKey_eq _ _).mpr h
    · exact (f64OrdKey_eq _ _).mpr h
    · simp_all
  · rintro ⟨hk, he⟩
    have hk := Scalar.kind_idx_inj hk
    cases a <;> cases b <;> simp [Scalar.kind] at hk <;> simp [Scalar.ordEq, encScalar] at he ⊢
    · exact ⟨hk, he⟩
    · exact bool_toNat_inj.mp (by omega)
    · exact Char.toNat_inj (by omega)
    · simpa using (f32OrdKey_eq _ _).mp he
    · simpa using (f64OrdKey_eq _ _).mp he
    · exact encStr_inj he

theorem map_encStr_inj {a b : List String} : a.map encStr = b.map encStr ↔ a = b :=
  List.map_inj_right fun _ _ => encStr_inj

theorem encStr_eq {a b : String} : encStr a = encStr b ↔ a = b :=
  ⟨encStr_inj, fun h => h ▸ rfl⟩

theorem scalar_idx_ne (s : Scalar) (n : Nat) (h : 16 ≤ n) : ((s.kind.idx : Nat) : Int) ≠ n := by
  have := Scalar.kind_idx_lt s; omega

mutual
theorem Value.beq_enc : ∀ a b : Value, Value.beq a b = true ↔ a.enc = b.enc
  | .scalar a, b => by
    cases b <;> simp [Value.beq, Value.enc, Scalar.ordEq_iff]
    all_goals (intro h; have := Scalar.kind_idx_lt a; omega)
  | .struct ns fs, b => by
    cases b <;> simp [Value.beq, Value.enc, map_encStr_inj, Value.beqFields_enc fs]
    all_goals (rename_i s; intro h; have := Scalar.kind_idx_lt s; omega)
  | .enumS n ns fs, b => by
    cases b <;> simp [Value.beq, Value.enc, map_encStr_inj, encStr_eq, Value.beqFields_enc fs]
    all_goals (rename_i s; intro h; have := Scalar.kind_idx_lt s; omega)
  | .enumT n fs, b => by
    cases b <;> simp [Value.beq, Value.enc, encStr_eq, Value.beqList_enc fs]
    all_goals (rename_i s; intro h; have := Scalar.kind_idx_lt s; omega)
  | .enumU n, b => by
    cases b <;> simp [Value.beq, Value.enc, encStr_eq]
    all_goals (rename_i s; intro h; have := Scalar.kind_idx_lt s; omega)
  | .tupleStruct fs, b => by
    cases b <;> simp [Value.beq, Value.enc, Value.beqList_enc fs]
    all_goals (rename_i s; intro h; have := Scalar.kind_idx_lt s; omega)
  | .tuple fs, b => by
    cases b <;> simp [Value.beq, Value.enc, Value.beqList_enc fs]
    all_goals (rename_i s; intro h; have := Scalar.kind_idx_lt s; omega)
  | .list fs, b => by
    cases b <;> simp [Value.beq, Value.enc, Value.beqList_enc fs]
    all_goals (rename_i s; intro h; have := Scalar.kind_idx_lt s; omega)
  | .map m, b => by
    cases b <;> simp [Value.beq, Value.enc, Value.beqPairs_enc m]
    all_goals (rename_i s; intro h; have := Scalar.kind_idx_lt s; omega)
theorem Value.beqList_enc : ∀ a b : List Value,
    Value.beqList a b = true ↔ (a.map fun x => x.enc) = (b.map fun x => x.enc)
  | [], b => by cases b <;> simp [Value.beqList]
  | a :: as, [] => by simp [Value.beqList]
  | a :: as, b :: bs => by simp [Value.beqList, Value.beq_enc a b, Value.beqList_enc as bs]
theorem Value.beqFields_enc : ∀ a b : List (String × Value),
    Value.beqFields a b = true ↔ (a.map fun p => OT.node [encStr p.1, p.2.enc]) =
      (b.map fun p => OT.node [encStr p.1, p.2.enc])
  | [], b => by cases b <;> simp [Value.beqFields]
  | a :: as, [] => by simp [Value.beqFields]
  | (n, a) :: as, (m, b) :: bs => by
    simp [Value.beqFields, Value.beq_enc a b, Value.beqFields_enc as bs, encStr_eq]
theorem Value.beqPairs_enc : ∀ a b : List (Value × Value),
    Value.beqPairs a b = true ↔ (a.map fun p => OT.node [p.1.enc, p.2.enc]) =
      (b.map fun p => OT.node [p.1.enc, p.2.enc])
  | [], b => by cases b <;> simp [Value.beqPairs]
  | a :: as, [] => by simp [Value.beqPairs]
  | (k, a) :: as, (l, b) :: bs => by
    simp [Value.beqPairs, Value.beq_enc k l, Value.beq_enc a b, Value.beqPairs_enc as bs]
end

theorem f32_bits_of_key {a b : BitVec 32} (h : f32Key a = f32Key b) (h0 : f32Mag a ≠ 0) :
    a.toNat = b.toNat := by
  unfold f32Key f32Neg f32Mag at *
  have ha := a.isLt
  have hb := b.isLt
  by_cases h1 : 2 ^ 31 ≤ a.toNat <;> by_cases h2 : 2 ^ 31 ≤ b.toNat <;> simp [h1, h2] at h <;> omega

theorem f64_bits_of_key {a b : BitVec 64} (h : f64Key a = f64Key b) (h0 : f64Mag a ≠ 0) :
    a.toNat = b.toNat := by
  unfold f64Key f64Neg f64Mag at *
  have ha := a.isLt
  have hb := b.isLt
  by_cases h1 : 2 ^ 63 ≤ a.toNat <;> by_cases h2 : 2 ^ 63 ≤ b.toNat <;> simp [h1, h2] at h <;> omega

theorem f32_mag_zero_of_key {a b : BitVec 32} (h : f32Key a = f32Key b) :
    f32Mag a = 0 ↔ f32Mag b = 0 := by
  unfold f32Key at h; split at h <;> split at h <;> omega

theorem f64_mag_zero_of_key {a b : BitVec 64} (h : f64Key a = f64Key b) :
    f64Mag a = 0 ↔ f64Mag b = 0 := by
  unfold f64Key at h; split at h <;> split at h <;> omega

theorem Scalar.hashFeed_eq {a b : Scalar} (h : Scalar.ordEq a b = true) :
    a.hashFeed = b.hashFeed := by
  cases a <;> cases b <;> simp only [Scalar.ordEq, Bool.false_eq_true] at h <;>
    simp_all [Scalar.hashFeed]
  · rename_i a b
    cases ha : f32NaN a
    · simp [ha] at h
      simp [f32Eq, ha] at h
      have := f32_mag_zero_of_key h.2
      have h3 := f32_bits_of_key h.2
      simp [h.1, this]
      split
      · rfl
      · rw [h3]; simp_all
    · simp_all
  · rename_i a b
    cases ha : f64NaN a
    · simp [ha] at h
      simp [f64Eq, ha] at h
      have := f64_mag_zero_of_key h.2
      have h3 := f64_bits_of_key h.2
      simp [h.1, this]
      split
      · rfl
      · rw [h3]; simp_all
    · simp_all

theorem Value.beqList_length : ∀ {a b : List Value}, Value.beqList a b = true → a.length = b.length
  | [], [], _ => rfl
  | _ :: as, _ :: bs, h => by
    simp [Value.beqList] at h; simp [Value.beqList_length h.2]
  | [], _ :: _, h => by simp [Value.beqList] at h
  | _ :: _, [], h => by simp [Value.beqList] at h

theorem Value.beqFields_length : ∀ {a b : List (String × Value)},
    Value.beqFields a b = true → a.length = b.length
  | [], [], _ => rfl
  | (_, _) :: as, (_, _) :: bs, h => by
    simp [Value.beqFields] at h; simp [Value.beqFields_length h.2]
  | [], _ :: _, h => by simp [Value.beqFields] at h
  | _ :: _, [], h => by simp [Value.beqFields] at h

theorem Value.beqPairs_length : ∀ {a b : List (Value × Value)},
    Value.beqPairs a b = true → a.length = b.length
  | [], [], _ => rfl
  | (_, _) :: as, (_, _) :: bs, h => by
    simp [Value.beqPairs] at h; simp [Value.beqPairs_length h.2]
  | [], _ :: _, h => by simp [Value.beqPairs] at h
  | _ :: _, [], h => by simp [Value.beqPairs] at h

mutual
theorem Value.hash_of_beq : ∀ a b : Value, Value.beq a b = true → a.hashFeed = b.hashFeed
  | .scalar a, b, h => by
    cases b <;> simp [Value.beq] at h
    simp [Value.hashFeed, Scalar.hashFeed_eq h]
  | .struct ns fs, b, h => by
    cases b <;> simp [Value.beq] at h
    simp [Value.hashFeed, h.1, Value.hashFields_of_beq _ _ h.2, Value.beqFields_length h.2]
  | .enumS n ns fs, b, h => by
    cases b <;> simp [Value.beq] at h
    simp [Value.hashFeed, h.1, h.2.1, Value.hashFields_of_beq _ _ h.2.2,
      Value.beqFields_length h.2.2]
  | .enumT n fs, b, h => by
    cases b <;> simp [Value.beq] at h
    simp [Value.hashFeed, h.1, Value.hashList_of_beq _ _ h.2, Value.beqList_length h.2]
  | .enumU n, b, h => by
    cases b <;> simp [Value.beq] at h
    simp [Value.hashFeed, h]
  | .tupleStruct fs, b, h => by
    cases b <;> simp [Value.beq] at h
    simp [Value.hashFeed, Value.hashList_of_beq _ _ h, Value.beqList_length h]
  | .tuple fs, b, h => by
    cases b <;> simp [Value.beq] at h
    simp [Value.hashFeed, Value.hashList_of_beq _ _ h, Value.beqList_length h]
  | .list fs, b, h => by
    cases b <;> simp [Value.beq] at h
    simp [Value.hashFeed, Value.hashList_of_beq _ _ h, Value.beqList_length h]
  | .map m, b, h => by
    cases b <;> simp [Value.beq] at h
    simp [Value.hashFeed, Value.hashPairs_of_beq _ _ h, Value.beqPairs_length h]
theorem Value.hashList_of_beq : ∀ a b : List Value, Value.beqList a b = true →
    (a.map fun x => x.hashFeed) = (b.map fun x => x.hashFeed)
  | [], [], _ => rfl
  | a :: as, b :: bs, h => by
    simp [Value.beqList] at h
    simp [Value.hash_of_beq a b h.1]
    simpa using Value.hashList_of_beq as bs h.2
  | [], _ :: _, h => by simp [Value.beqList] at h
  | _ :: _, [], h => by simp [Value.beqList] at h
theorem Value.hashFields_of_beq : ∀ a b : List (String × Value), Value.beqFields a b = true →
    (a.map fun p => HTok.str p.1 :: p.2.hashFeed) = (b.map fun p => HTok.str p.1 :: p.2.hashFeed)
  | [], [], _ => rfl
  | (n, a) :: as, (m, b) :: bs, h => by
    simp [Value.beqFields] at h
    simp [Value.hash_of_beq a b h.1.2, h.1.1]
    simpa using Value.hashFields_of_beq as bs h.2
  | [], _ :: _, h => by simp [Value.beqFields] at h
  | _ :: _, [], h => by simp [Value.beqFields] at h
theorem Value.hashPairs_of_beq : ∀ a b : List (Value × Value), Value.beqPairs a b = true →
    (a.map fun p => p.1.hashFeed ++ p.2.hashFeed) = (b.map fun p => p.1.hashFeed ++ p.2.hashFeed)
  | [], [], _ => rfl
  | (k, a) :: as, (l, b) :: bs, h => by
    simp [Value.beqPairs] at h
    simp [Value.hash_of_beq a b h.1.2, Value.hash_of_beq k l h.1.1]
    simpa using Value.hashPairs_of_beq as bs h.2
  | [], _ :: _, h => by simp [Value.beqPairs] at h
  | _ :: _, [], h => by simp [Value.beqPairs] at h
end

end Mirror
