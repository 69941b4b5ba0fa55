import Verif.Lemmas.Speedy

set_option linter.unusedSimpArgs false

/-!
# Lemmas: the little endian layout is lawful
-/

namespace Mirror

theorem leBytes_length (k n : Nat) : (leBytes k n).length = k := by
  induction k generalizing n with
  | zero => rfl
  | succ k ih => simp [leBytes, ih]

theorem leNat_leBytes (k n : Nat) (h : n < 256 ^ k) : leNat (leBytes k n) = n := by
  induction k generalizing n with
  | zero => simp at h; simp [leBytes, leNat, h]
  | succ k ih =>
    simp only [leBytes, leNat]
    rw [ih (n / 256) (by rw [Nat.pow_succ] at h; exact Nat.div_lt_of_lt_mul (by omega))]
    simp only [UInt8.toNat_ofNat']
    omega

theorem leNat_lt (bs : List UInt8) : leNat bs < 256 ^ bs.length := by
  induction bs with
  | nil => simp [leNat]
  | cons b bs ih =>
    simp only [leNat, List.length_cons, Nat.pow_succ]
    have := b.toNat_lt
    omega

theorem takeBytes_append {bs rest : List UInt8} : takeBytes bs.length (bs ++ rest) = some (bs, rest) := by
  simp [takeBytes]

theorem takeBytes_some {k : Nat} {bs a rest : List UInt8} (h : takeBytes k bs = some (a, rest)) :
    a.length = k ∧ bs = a ++ rest := by
  unfold takeBytes at h
  split at h
  · next hk =>
    cases h
    exact ⟨by simp [hk], by simp⟩
  · cases h

theorem leBin_back {k n : Nat} (hn : n < 256 ^ k) (rest : List UInt8) :
    (leBin k).r (leBytes k n ++ rest) = some (n, rest) := by
  have := takeBytes_append (bs := leBytes k n) (rest := rest)
  rw [leBytes_length] at this
  simp only [leBin, this, Option.map_some, leNat_leBytes k n hn]

theorem leBin_w {k n : Nat} {bs : List UInt8} (h : (leBin k).w n = some bs) :
    n < 256 ^ k ∧ bs = leBytes k n := by
  simp only [leBin] at h
  split at h
  · next hn => cases h; exact ⟨hn, rfl⟩
  · cases h

theorem leBin_r {k n : Nat} {bs rest : List UInt8} (h : (leBin k).r bs = some (n, rest)) :
    n < 256 ^ k ∧ ∃ used : List UInt8, used.length = k ∧ bs = used ++ rest := by
  simp only [leBin] at h
  obtain ⟨⟨a, rest'⟩, ha, he⟩ := Option.map_eq_some_iff.1 h
  cases he
  obtain ⟨h1, h2⟩ := takeBytes_some ha
  exact ⟨h1 ▸ leNat_lt a, a, h1, h2⟩

theorem leBin_len : (leBin 4).Faithful (fun _ => True) Fits32 := by
  have e : (256 : Nat) ^ 4 = 2 ^ 32 := by decide
  refine ⟨?_, ?_, ?_⟩
  · intro n _
    simp only [leBin, Fits32, ← e]
    split
    · next h => simp [h]
    · next h => simp [h]
  · intro n bs rest _ h
    obtain ⟨hn, rfl⟩ := leBin_w h
    exact leBin_back hn rest
  · intro bs n rest h
    obtain ⟨h1, u, _, h2⟩ := leBin_r h
    exact ⟨trivial, by unfold Fits32; rw [← e]; exact h1, u, h2⟩

theorem leBin_tag : (leBin 4).Faithful Fits32 fun _ => True := by
  refine ⟨fun n hn => ?_, fun n bs rest _ h => leBin_len.back n bs rest trivial h, fun bs n rest h => ?_⟩
  · rw [leBin_len.writes n trivial]
    exact iff_true_intro hn
  · obtain ⟨_, h1, h2⟩ := leBin_len.only bs n rest h
    exact ⟨h1, trivial, h2⟩

theorem leBool_faithful : leBool.Faithful (fun _ => True) fun _ => True := by
  refine ⟨?_, ?_, ?_⟩
  · intro b _; simp [leBool]
  · intro b bs rest _ h
    cases h
    cases b <;> rfl
  · intro bs b rest h
    cases bs with
    | nil => cases h
    | cons c bs => cases h; exact ⟨trivial, trivial, [c], rfl⟩

theorem leChar_faithful : leChar.Faithful (fun _ => True) fun _ => True := by
  have hlt : ∀ c : Char, c.toNat < 256 ^ 4 := by
    intro c
    have h := c.valid
    have e : c.toNat = c.val.toNat := rfl
    have : c.val.toNat < 2 ^ 32 := c.val.toNat_lt
    omega
  refine ⟨?_, ?_, ?_⟩
  · intro c _
    simp [leChar, leBin, hlt c]
  · intro c bs rest _ h
    obtain ⟨hn, rfl⟩ := leBin_w h
    simp only [leChar, leBin_back hn rest, Option.bind_some]
    have hv : c.toNat.isValidChar := c.valid
    rw [if_pos hv, Char.ofNat_toNat]
  · intro bs c rest h
    simp only [leChar] at h
    obtain ⟨⟨n, rest'⟩, ha, hb⟩ := Option.bind_eq_some_iff.1 h
    obtain ⟨_, u, _, hu⟩ := leBin_r ha
    split at hb
    · cases hb; exact ⟨trivial, trivial, u, hu⟩
    · cases hb

theorem leBits_faithful (k : Nat) : (leBits k).Faithful (fun _ => True) fun _ => True := by
  have hlt : ∀ b : BitVec (8 * k), b.toNat < 256 ^ k := by
    intro b
    have h := b.isLt
    rw [Nat.pow_mul] at h
    exact h
  refine ⟨?_, ?_, ?_⟩
  · intro c _
    simp [leBits, leBin, hlt c]
  · intro c bs rest _ h
    obtain ⟨hn, rfl⟩ := leBin_w h
    simp only [leBits, leBin_back hn rest, Option.map_some, BitVec.ofNat_toNat, BitVec.setWidth_eq]
  · intro bs c rest h
    simp only [leBits] at h
    obtain ⟨⟨n, rest'⟩, ha, hb⟩ := Option.map_eq_some_iff.1 h
    obtain ⟨_, u, _, hu⟩ := leBin_r ha
    cases hb
    exact ⟨trivial, trivial, u, hu⟩

theorem leInt_faithful (k : IntKind) : (leInt k).Faithful k.InRange fun _ => True := by
  have e : (256 : Nat) ^ (k.bits / 8) = 2 ^ k.bits := by cases k <;> decide
  have e2 : ((2 : Int) ^ k.bits) = 2 * 2 ^ (k.bits - 1) := by cases k <;> decide
  have hpos : (0 : Int) < 2 ^ (k.bits - 1) := Int.pow_pos (by decide)
  refine ⟨?_, ?_, ?_⟩
  · intro i _; simp [leInt]
  · intro i bs rest hi h
    cases h
    have h0 : 0 ≤ i % 2 ^ k.bits := Int.emod_nonneg _ (by omega)
    have h1 : i % 2 ^ k.bits < 2 ^ k.bits := Int.emod_lt_of_pos _ (by omega)
    have hm : (i % 2 ^ k.bits).toNat < 256 ^ (k.bits / 8) := by
      rw [e, Int.toNat_lt h0]
      push_cast
      exact h1
    have := takeBytes_append (bs := leBytes (k.bits / 8) (i % 2 ^ k.bits).toNat) (rest := rest)
    rw [leBytes_length] at this
    simp only [leInt, this, Option.map_some, leNat_leBytes _ _ hm, Int.toNat_of_nonneg h0]
    unfold IntKind.InRange at hi
    cases hs : k.signed with
    | false =>
      rw [hs] at hi
      simp only [Bool.false_eq_true, if_false] at hi
      simp only [Bool.false_and, Bool.false_eq_true, if_false]
      rw [Int.emod_eq_of_lt hi.1 hi.2]
    | true =>
      rw [hs] at hi
      simp only [if_true] at hi
      simp only [Bool.true_and, decide_eq_true_eq]
      by_cases hneg : i < 0
      · have : i % 2 ^ k.bits = i + 2 ^ k.bits := by
          rw [← Int.add_emod_right, Int.emod_eq_of_lt (by omega) (by omega)]
        rw [this, if_pos (by omega)]
        simp
      · have : i % 2 ^ k.bits = i := Int.emod_eq_of_lt (by omega) (by omega)
        rw [this, if_neg (by omega)]
  · intro bs i rest h
    simp only [leInt] at h
    obtain ⟨⟨a, rest'⟩, ha, hb⟩ := Option.map_eq_some_iff.1 h
    obtain ⟨h1, h2⟩ := takeBytes_some ha
    cases hb
    refine ⟨?_, trivial, a, h2⟩
    have hlt : (leNat a : Int) < 2 ^ k.bits := by
      have := leNat_lt a
      rw [h1, e] at this
      exact_mod_cast this
    have h0 : (0 : Int) ≤ leNat a := Int.natCast_nonneg _
    unfold IntKind.InRange
    cases hs : k.signed with
    | false => simp [h0, hlt]
    | true =>
      simp only [Bool.true_and, decide_eq_true_eq, if_true]
      split <;> omega

theorem leStr_faithful : leStr.Faithful (fun _ => True) ShortStr := by
  have hsz : ∀ s : String, s.toUTF8.data.toList.length = s.utf8ByteSize := by
    intro s; rfl
  refine ⟨?_, ?_, ?_⟩
  · intro s _
    simp only [leStr, wcat_ex, leBin_len.writes _ trivial]
    exact ⟨fun h => h.1, fun h => ⟨h, _, rfl⟩⟩
  · intro s bs rest _ h
    obtain ⟨x, y, hx, hy, rfl⟩ := wcat_some.1 h
    cases hy
    show ((leBin 4).r _).bind _ = _
    rw [List.append_assoc, leBin_len.back _ x _ trivial hx, Option.bind_some]
    rw [← hsz s, takeBytes_append, Option.bind_some]
    have : (⟨⟨s.toUTF8.data.toList⟩⟩ : ByteArray) = s.toByteArray := rfl
    rw [this, String.fromUTF8?, dif_pos s.isValidUTF8]
    rfl
  · intro bs s rest h
    simp only [leStr] at h
    obtain ⟨⟨n, r1⟩, h1, h2⟩ := Option.bind_eq_some_iff.1 h
    obtain ⟨⟨a, r2⟩, h3, h4⟩ := Option.bind_eq_some_iff.1 h2
    obtain ⟨t, h5, h6⟩ := Option.map_eq_some_iff.1 h4
    cases h6
    obtain ⟨_, hn, u, hu⟩ := leBin_len.only _ _ _ h1
    obtain ⟨ha, hb⟩ := takeBytes_some h3
    refine ⟨trivial, ?_, u ++ a, by rw [hu, show r1 = a ++ r2 from hb, List.append_assoc]⟩
    unfold String.fromUTF8? at h5
    split at h5
    · cases h5
      have : (String.fromUTF8 ⟨⟨a⟩⟩ (by assumption)).utf8ByteSize = a.length := by
        simp [String.fromUTF8, String.utf8ByteSize, ByteArray.size]
      unfold ShortStr
      rw [this, ha]
      exact hn
    · cases h5

theorem le_lawful : Speedy.le.Lawful where
  tag := leBin_tag
  tagMoves bs i rest h := by
    obtain ⟨_, u, hu, rfl⟩ := leBin_r h
    simp [hu]
  len := leBin_len
  flag := leBool_faithful
  int := leInt_faithful
  bool := leBool_faithful
  char := leChar_faithful
  f32 := leBits_faithful 4
  f64 := leBits_faithful 8
  str := leStr_faithful

end Mirror
