import Verif.Lemmas.Order

/-!
# What a value writes to a hasher says which value it is

No sequence of writes is the beginning of another one, and two values that write the same are equal.
-/

set_option linter.unusedSimpArgs false

namespace Mirror

theorem f32_feed {a b : BitVec 32}
    (h : (if f32NaN a then 0x7FC00000 else if f32Mag a = 0 then 0 else (a.toNat : Int)) =
      (if f32NaN b then 0x7FC00000 else if f32Mag b = 0 then 0 else (b.toNat : Int))) :
    (if f32NaN a then f32NaN b else f32Eq a b) = true := by
  have nan : ∀ c : BitVec 32, (c.toNat : Int) = 0x7FC00000 → f32NaN c = true := by
    intro c hc
    have hc : c.toNat = 0x7FC00000 := by omega
    simp [f32NaN, f32Mag, hc]
  have zero : ∀ c : BitVec 32, f32Mag c ≠ 0 → (c.toNat : Int) ≠ 0 := by
    intro c hc h0
    have h0 : c.toNat = 0 := by exact_mod_cast h0
    simp [f32Mag, h0] at hc
  have key : ∀ c : BitVec 32, f32Mag c = 0 → f32Key c = 0 := by
    intro c hc
    simp [f32Key, hc]
  have num : (0x7FC00000 : Int) ≠ 0 := by decide
  cases ha : f32NaN a <;> cases hb : f32NaN b <;>
    simp only [ha, hb, if_true, if_false, Bool.false_eq_true] at h ⊢
  · simp only [f32Eq, ha, hb, Bool.not_false, Bool.true_and, beq_iff_eq]
    by_cases za : f32Mag a = 0 <;> by_cases zb : f32Mag b = 0
    · rw [key a za, key b zb]
    · rw [if_pos za, if_neg zb] at h
      exact absurd h.symm (zero b zb)
    · rw [if_neg za, if_pos zb] at h
      exact absurd h (zero a za)
    · rw [if_neg za, if_neg zb] at h
      rw [BitVec.eq_of_toNat_eq (by exact_mod_cast h : a.toNat = b.toNat)]
  · split at h
    · exact absurd h.symm num
    · exact absurd (nan a h) (by simp [ha])
  · split at h
    · exact absurd h num
    · exact absurd (nan b h.symm) (by simp [hb])

theorem f64_feed {a b : BitVec 64}
    (h : (if f64NaN a then 0x7FF8000000000000 else if f64Mag a = 0 then 0 else (a.toNat : Int)) =
      (if f64NaN b then 0x7FF8000000000000 else if f64Mag b = 0 then 0 else (b.toNat : Int))) :
    (if f64NaN a then f64NaN b else f64Eq a b) = true := by
  have nan : ∀ c : BitVec 64, (c.toNat : Int) = 0x7FF8000000000000 → f64NaN c = true := by
    intro c hc
    have hc : c.toNat = 0x7FF8000000000000 := by omega
    simp [f64NaN, f64Mag, hc]
  have zero : ∀ c : BitVec 64, f64Mag c ≠ 0 → (c.toNat : Int) ≠ 0 := by
    intro c hc h0
    have h0 : c.toNat = 0 := by exact_mod_cast h0
    simp [f64Mag, h0] at hc
  have key : ∀ c : BitVec 64, f64Mag c = 0 → f64Key c = 0 := by
    intro c hc
    simp [f64Key, hc]
  have num : (0x7FF8000000000000 : Int) ≠ 0 := by decide
  cases ha : f64NaN a <;> cases hb : f64NaN b <;>
    simp only [ha, hb, if_true, if_false, Bool.false_eq_true] at h ⊢
  · simp only [f64Eq, ha, hb, Bool.not_false, Bool.true_and, beq_iff_eq]
    by_cases za : f64Mag a = 0 <;> by_cases zb : f64Mag b = 0
    · rw [key a za, key b zb]
    · rw [if_pos za, if_neg zb] at h
      exact absurd h.symm (zero b zb)
    · rw [if_neg za, if_pos zb] at h
      exact absurd h (zero a za)
    · rw [if_neg za, if_neg zb] at h
      rw [BitVec.eq_of_toNat_eq (by exact_mod_cast h : a.toNat = b.toNat)]
  · split at h
    · exact absurd h.symm num
    · exact absurd (nan a h) (by simp [ha])
  · split at h
    · exact absurd h num
    · exact absurd (nan b h.symm) (by simp [hb])

theorem Scalar.feed_free {a b : Scalar} {r s : List HTok} (h : a.hashFeed ++ r = b.hashFeed ++ s) :
    Scalar.ordEq a b = true ∧ r = s := by
  cases a <;> cases b <;> simp [Scalar.hashFeed] at h
  case int.int k n l m =>
    obtain ⟨hk, rfl, rfl⟩ := h
    cases k <;> cases l <;> simp [IntKind.idx] at hk <;> simp [Scalar.ordEq]
  case bool.bool a b => cases a <;> cases b <;> simp at h <;> simp [Scalar.ordEq, h]
  case char.char a b =>
    refine ⟨?_, h.2⟩
    have := h.1
    simp [Scalar.ordEq]
    apply Char.ext
    apply UInt32.toNat.inj
    exact_mod_cast this
  case f32.f32 a b => exact ⟨f32_feed h.1, h.2⟩
  case f64.f64 a b => exact ⟨f64_feed h.1, h.2⟩
  case string.string a b => simp [Scalar.ordEq, h]
  all_goals
    first
    | (rename_i k _; cases k <;> simp [IntKind.idx] at h; done)
    | (rename_i k _ _; cases k <;> simp [IntKind.idx] at h; done)

theorem strs_free : ∀ {a b : List String} {r s : List HTok}, a.length = b.length →
    a.map HTok.str ++ r = b.map HTok.str ++ s → a = b ∧ r = s
  | [], [], _, _, _, h => ⟨rfl, by simpa using h⟩
  | x :: xs, y :: ys, _, _, hl, h => by
    simp at h hl
    have := strs_free hl h.2
    simp [h.1, this]

theorem Scalar.feed_head (a : Scalar) : ∃ n l, a.hashFeed = .disc n :: l ∧ n < 16 := by
  cases a <;> simp [Scalar.hashFeed]
  rename_i k _
  cases k <;> simp [IntKind.idx]

mutual
theorem Value.feed_free : ∀ (a b : Value) (r s : List HTok), a.hashFeed ++ r = b.hashFeed ++ s →
    Value.beq a b = true ∧ r = s
  | .scalar a, b, r, s, h => by
    obtain ⟨n, l, hl, hn⟩ := a.feed_head
    cases b
    case scalar b => simp only [Value.hashFeed] at h; simpa [Value.beq] using Scalar.feed_free h
    all_goals
      simp [Value.hashFeed, hl] at h
      omega
  | .struct ns fs, b, r, s, h => by
    cases b <;> (try simp [Value.hashFeed] at h)
    case scalar b =>
      obtain ⟨n, l, hl, hn⟩ := b.feed_head
      simp [Value.hashFeed, hl] at h; omega
    case struct ms gs =>
      obtain ⟨h1, h2⟩ := h
      obtain ⟨rfl, h3⟩ := strs_free h1 h2
      simp at h3
      obtain ⟨h4, h5⟩ := Value.feedFields_free fs gs r s h3.1 h3.2
      simp [Value.beq, h4, h5]
  | .enumS n ns fs, b, r, s, h => by
    cases b <;> (try simp [Value.hashFeed] at h)
    case scalar b =>
      obtain ⟨n, l, hl, hn⟩ := b.feed_head
      simp [Value.hashFeed, hl] at h; omega
    case enumS m ms gs =>
      obtain ⟨h0, h1, h2⟩ := h
      obtain ⟨rfl, h3⟩ := strs_free h1 h2
      simp at h3
      obtain ⟨h4, h5⟩ := Value.feedFields_free fs gs r s h3.1 h3.2
      simp [Value.beq, h4, h5, h0]
  | .enumT n fs, b, r, s, h => by
    cases b <;> (try simp [Value.hashFeed] at h)
    case scalar b =>
      obtain ⟨n, l, hl, hn⟩ := b.feed_head
      simp [Value.hashFeed, hl] at h; omega
    case enumT m gs =>
      obtain ⟨h4, h5⟩ := Value.feedList_free fs gs r s h.2.1 h.2.2
      simp [Value.beq, h4, h5, h.1]
  | .enumU n, b, r, s, h => by
    cases b <;> (try simp [Value.hashFeed] at h)
    case scalar b =>
      obtain ⟨n, l, hl, hn⟩ := b.feed_head
      simp [Value.hashFeed, hl] at h; omega
    case enumU m => simp [Value.beq, h]
  | .tupleStruct fs, b, r, s, h => by
    cases b <;> (try simp [Value.hashFeed] at h)
    case scalar b =>
      obtain ⟨n, l, hl, hn⟩ := b.feed_head
      simp [Value.hashFeed, hl] at h; omega
    case tupleStruct gs =>
      obtain ⟨h4, h5⟩ := Value.feedList_free fs gs r s h.1 h.2
      simp [Value.beq, h4, h5]
  | .tuple fs, b, r, s, h => by
    cases b <;> (try simp [Value.hashFeed] at h)
    case scalar b =>
      obtain ⟨n, l, hl, hn⟩ := b.feed_head
      simp [Value.hashFeed, hl] at h; omega
    case tuple gs =>
      obtain ⟨h4, h5⟩ := Value.feedList_free fs gs r s h.1 h.2
      simp [Value.beq, h4, h5]
  | .list fs, b, r, s, h => by
    cases b <;> (try simp [Value.hashFeed] at h)
    case scalar b =>
      obtain ⟨n, l, hl, hn⟩ := b.feed_head
      simp [Value.hashFeed, hl] at h; omega
    case list gs =>
      obtain ⟨h4, h5⟩ := Value.feedList_free fs gs r s h.1 h.2
      simp [Value.beq, h4, h5]
  | .map m, b, r, s, h => by
    cases b <;> (try simp [Value.hashFeed] at h)
    case scalar b =>
      obtain ⟨n, l, hl, hn⟩ := b.feed_head
      simp [Value.hashFeed, hl] at h; omega
    case map k =>
      obtain ⟨h4, h5⟩ := Value.feedPairs_free m k r s h.1 h.2
      simp [Value.beq, h4, h5]
theorem Value.feedList_free : ∀ (a b : List Value) (r s : List HTok), a.length = b.length →
    (a.map fun x => x.hashFeed).flatten ++ r = (b.map fun x => x.hashFeed).flatten ++ s →
    Value.beqList a b = true ∧ r = s
  | [], [], r, s, _, h => ⟨by simp [Value.beqList], by simpa using h⟩
  | a :: as, b :: bs, r, s, hl, h => by
    simp at h hl
    obtain ⟨h1, h2⟩ := Value.feed_free a b _ _ h
    obtain ⟨h3, h4⟩ := Value.feedList_free as bs r s hl (by simpa using h2)
    simp [Value.beqList, h1, h3, h4]
theorem Value.feedFields_free : ∀ (a b : List (String × Value)) (r s : List HTok), a.length = b.length →
    (a.map fun p => HTok.str p.1 :: p.2.hashFeed).flatten ++ r =
      (b.map fun p => HTok.str p.1 :: p.2.hashFeed).flatten ++ s →
    Value.beqFields a b = true ∧ r = s
  | [], [], r, s, _, h => ⟨by simp [Value.beqFields], by simpa using h⟩
  | (n, a) :: as, (m, b) :: bs, r, s, hl, h => by
    simp at h hl
    obtain ⟨h1, h2⟩ := Value.feed_free a b _ _ h.2
    obtain ⟨h3, h4⟩ := Value.feedFields_free as bs r s hl (by simpa using h2)
    simp [Value.beqFields, h1, h3, h4, h.1]
theorem Value.feedPairs_free : ∀ (a b : List (Value × Value)) (r s : List HTok), a.length = b.length →
    (a.map fun p => p.1.hashFeed ++ p.2.hashFeed).flatten ++ r =
      (b.map fun p => p.1.hashFeed ++ p.2.hashFeed).flatten ++ s →
    Value.beqPairs a b = true ∧ r = s
  | [], [], r, s, _, h => ⟨by simp [Value.beqPairs], by simpa using h⟩
  | (k, a) :: as, (l, b) :: bs, r, s, hl, h => by
    simp at h hl
    obtain ⟨h0, h0'⟩ := Value.feed_free k l _ _ h
    obtain ⟨h1, h2⟩ := Value.feed_free a b _ _ h0'
    obtain ⟨h3, h4⟩ := Value.feedPairs_free as bs r s hl (by simpa using h2)
    simp [Value.beqPairs, h0, h1, h3, h4]
end

end Mirror
