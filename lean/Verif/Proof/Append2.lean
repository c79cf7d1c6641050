import Verif.Proof.Append
/-! Append primitives that rely on the unwritten part of the buffer being zero. -/
namespace Asn1

theorem bitsMsb_byte_getD {v : Byte} {n i : Nat} (hn : n ≤ 8) :
    (bitsMsb n v.toNat)[i]?.getD false = (decide (i < n) && v.getMsbD (8 - n + i)) := by
  rw [bitsMsb_getD]
  by_cases h : i < n
  · simp only [h, BitVec.getMsbD, BitVec.getLsbD]
    rw [show 8 - 1 - (8 - n + i) = n - 1 - i by omega]
    have : 8 - n + i < 8 := by omega
    simp [this]
  · simp [h]

theorem byte_high_zero {v : Byte} {n j : Nat} (hv : v.toNat < 2 ^ n) (hj : j < 8 - n) :
    v.getMsbD j = false := by
  simp only [BitVec.getMsbD, BitVec.getLsbD]
  rw [Nat.testBit_lt_two_pow]; · simp
  exact Nat.lt_of_lt_of_le hv (Nat.pow_le_pow_right (by omega) (by omega))

/-- The value `AppendPartialByte` works with. -/
def negP (neg : Bool) (n : Nat) (v : Byte) : Byte := if neg then BitVec.ofNat 8 (2 ^ n - 1) &&& ~~~v else v

theorem negP_lt {neg : Bool} {n : Nat} {v : Byte} (hn : n ≤ 8) (h : neg = true ∨ v.toNat < 2 ^ n) :
    (negP neg n v).toNat < 2 ^ n := by
  cases neg
  · simpa [negP] using h
  · simp only [negP, if_true, BitVec.toNat_and]
    refine Nat.lt_of_le_of_lt Nat.and_le_left ?_
    have : ∀ n, n ≤ 8 → (BitVec.ofNat 8 (2 ^ n - 1)).toNat < 2 ^ n := by decide
    exact this n hn

/-- Non-crossing case: one byte updated. -/
theorem part_one {b v : Byte} {cb n j : Nat} (ht : cb + n ≤ 8) (hv : v.toNat < 2 ^ n) (hj : j < 8) :
    (b &&& (~~~(BitVec.ofNat 8 (2 ^ (8 - cb) - 1)) ||| BitVec.ofNat 8 (2 ^ (8 - (cb + n)) - 1)) |||
      v <<< (8 - (cb + n))).getMsbD j =
      if cb ≤ j ∧ j < cb + n then v.getMsbD (8 - n + (j - cb)) else b.getMsbD j := by
  simp only [BitVec.getMsbD_or, BitVec.getMsbD_and, BitVec.getMsbD_not, BitVec.getMsbD_shiftLeft,
    masksb_bit (show 8 - cb ≤ 8 by omega) hj, masksb_bit (show 8 - (cb + n) ≤ 8 by omega) hj]
  by_cases h1 : j < cb
  · have e1 : ¬ (8 ≤ 8 - cb + j) := by omega
    have e2 : v.getMsbD (j + (8 - (cb + n))) = false := byte_high_zero hv (by omega)
    have e3 : ¬ (cb ≤ j ∧ j < cb + n) := by omega
    simp [e1, e2, e3, hj]
  · by_cases h2 : j < cb + n
    · have e1 : 8 ≤ 8 - cb + j := by omega
      have e2 : ¬ (8 ≤ 8 - (cb + n) + j) := by omega
      have e3 : cb ≤ j ∧ j < cb + n := by omega
      have e4 : j + (8 - (cb + n)) = 8 - n + (j - cb) := by omega
      simp [e1, e2, e3, e4]
    · have e1 : 8 ≤ 8 - (cb + n) + j := by omega
      have e2 : v.getMsbD (j + (8 - (cb + n))) = false := BitVec.getMsbD_of_ge _ _ (by omega)
      have e3 : ¬ (cb ≤ j ∧ j < cb + n) := by omega
      simp [e1, e2, e3]

/-- Crossing case, first byte. -/
theorem part_hi {b v : Byte} {cb n j : Nat} (hcb : cb < 8) (hn : n < 8) (ht : 8 < cb + n) (hv : v.toNat < 2 ^ n) (hj : j < 8) :
    (b &&& ~~~(BitVec.ofNat 8 (2 ^ (8 - cb) - 1)) ||| v >>> (cb + n - 8)).getMsbD j =
      if j < cb then b.getMsbD j else v.getMsbD (8 - n + (j - cb)) := by
  simp only [BitVec.getMsbD_or, BitVec.getMsbD_and, BitVec.getMsbD_not, BitVec.getMsbD_ushiftRight,
    masksb_bit (show 8 - cb ≤ 8 by omega) hj, hj]
  by_cases h1 : j < cb
  · have e1 : ¬ (8 ≤ 8 - cb + j) := by omega
    have e2 : v.getMsbD (j - (cb + n - 8)) = false := byte_high_zero hv (by omega)
    simp [e1, e2, h1]
  · have e1 : 8 ≤ 8 - cb + j := by omega
    have e2 : ¬ (j < cb + n - 8) := by omega
    have e4 : j - (cb + n - 8) = 8 - n + (j - cb) := by omega
    simp only [e1, e2, e4, h1]; simp

/-- Crossing case, second byte: bits behind the written ones are cleared. -/
theorem part_lo {b v : Byte} {t j : Nat} (ht : t ≤ 8) (hj : j < 8) :
    (b &&& ~~~(BitVec.ofNat 8 (2 ^ (8 - t) - 1)) ||| v <<< (8 - t)).getMsbD j =
      if j < t then (b.getMsbD j || v.getMsbD (8 - t + j)) else false := by
  simp only [BitVec.getMsbD_or, BitVec.getMsbD_and, BitVec.getMsbD_not, BitVec.getMsbD_shiftLeft,
    masksb_bit (show 8 - t ≤ 8 by omega) hj]
  by_cases h1 : j < t
  · have e1 : ¬ (8 ≤ 8 - t + j) := by omega
    have e4 : j + (8 - t) = 8 - t + j := by omega
    simp [e1, e4, h1, hj]
  · have e1 : 8 ≤ 8 - t + j := by omega
    have e2 : v.getMsbD (j + (8 - t)) = false := BitVec.getMsbD_of_ge _ _ (by omega)
    simp [e1, e2, h1]

/-- Exact effect of `AppendPartialByte` on any buffer. -/
theorem appendPartialByte_run {s : BitStream} {v : Byte} {n : Nat} {neg : Bool} (hwf : Wf s)
    (hn : n < 8) (hv : neg = true ∨ v.toNat < 2 ^ n) (hn0 : 0 < n)
    (hroom : s.pos + n ≤ 8 * s.count) :
    ∃ s', appendPartialByte v n neg s = .ok ((), s') ∧ Wf s' ∧ s'.count = s.count ∧
      s'.buf.length = s.buf.length ∧ s'.pos = s.pos + n ∧
      ∀ i, bitAt s'.buf i =
        if s.pos ≤ i ∧ i < s.pos + n then
          ((if 8 < s.currentBit + n ∧ i / 8 = s.currentByte + 1 then bitAt s.buf i else false) ||
            (negP neg n v).getMsbD (8 - n + (i - s.pos)))
        else if 8 < s.currentBit + n ∧ i / 8 = s.currentByte + 1 then false
        else bitAt s.buf i := by
  have hb := hwf.bit
  have hcap := hwf.cap
  have hroom' := hroom
  simp only [BitStream.pos] at hroom'
  have hk : s.currentByte < s.buf.length := by omega
  have hm := masksb_get (n := 8 - s.currentBit) (by omega)
  have hm0 : masksb[if neg = true then n else 0]? = some (BitVec.ofNat 8 (2 ^ (if neg = true then n else 0) - 1)) :=
    masksb_get (by split <;> omega)
  have hvv : (if neg = true then BitVec.ofNat 8 (2 ^ (if neg = true then n else 0) - 1) &&& ~~~v else v) = negP neg n v := by
    cases neg <;> simp [negP]
  have hlt := negP_lt (neg := neg) (v := v) (n := n) (by omega) hv
  generalize hg : negP neg n v = v' at hvv hlt ⊢
  simp only [appendPartialByte, getS_bind]
  rw [tblGet_bind hm0, tblGet_bind hm]
  simp only [hvv]
  by_cases ht : s.currentBit + n ≤ 8
  · rw [if_pos ht, tblGet_bind (masksb_get (n := 8 - (s.currentBit + n)) (by omega)),
      bufAnd_bind hk, bufOr_bind (by simpa using hk), modS_bind]
    have hpos : ∀ b : List Byte, (if s.currentBit + n = 8
          then ({ buf := b, count := s.count, currentByte := s.currentByte + 1, currentBit := 0 } : BitStream)
          else { buf := b, count := s.count, currentByte := s.currentByte, currentBit := s.currentBit + n }).pos = s.pos + n := by
      intro b; split <;> simp only [BitStream.pos] <;> omega
    refine ⟨_, assertInBounds_run ?_, ⟨?_, ?_⟩, ?_, ?_, ?_, ?_⟩
    · rw [hpos]; split <;> exact hroom
    · split
      · simp
      · rename_i h; simp only [] at h ⊢; omega
    · split <;> simpa using hcap
    · split <;> rfl
    · split <;> simp
    · exact hpos _
    · intro i
      have hne : ¬ (8 < s.currentBit + n) := by omega
      simp only [hne, false_and, if_false, Bool.false_or]
      rw [show (if s.currentBit + n = 8 then
        ({ buf := (s.buf.set s.currentByte (s.buf.getD s.currentByte 0#8 &&& (~~~BitVec.ofNat 8 (2 ^ (8 - s.currentBit) - 1) ||| BitVec.ofNat 8 (2 ^ (8 - (s.currentBit + n)) - 1)))).set s.currentByte ((s.buf.set s.currentByte (s.buf.getD s.currentByte 0#8 &&& (~~~BitVec.ofNat 8 (2 ^ (8 - s.currentBit) - 1) ||| BitVec.ofNat 8 (2 ^ (8 - (s.currentBit + n)) - 1)))).getD s.currentByte 0#8 ||| v' <<< (8 - (s.currentBit + n))), count := s.count, currentByte := s.currentByte + 1, currentBit := 0 } : BitStream)
        else { buf := (s.buf.set s.currentByte (s.buf.getD s.currentByte 0#8 &&& (~~~BitVec.ofNat 8 (2 ^ (8 - s.currentBit) - 1) ||| BitVec.ofNat 8 (2 ^ (8 - (s.currentBit + n)) - 1)))).set s.currentByte ((s.buf.set s.currentByte (s.buf.getD s.currentByte 0#8 &&& (~~~BitVec.ofNat 8 (2 ^ (8 - s.currentBit) - 1) ||| BitVec.ofNat 8 (2 ^ (8 - (s.currentBit + n)) - 1)))).getD s.currentByte 0#8 ||| v' <<< (8 - (s.currentBit + n))), count := s.count, currentByte := s.currentByte, currentBit := s.currentBit + n }).buf = s.buf.set s.currentByte (s.buf.getD s.currentByte 0#8 &&& (~~~BitVec.ofNat 8 (2 ^ (8 - s.currentBit) - 1) ||| BitVec.ofNat 8 (2 ^ (8 - (s.currentBit + n)) - 1)) ||| v' <<< (8 - (s.currentBit + n))) by
          split <;> simp [hk]]
      rw [bitAt_set _ _ _ _ hk]
      by_cases hi : i / 8 = s.currentByte
      · rw [if_pos hi, part_one ht hlt (by omega)]
        by_cases h2 : s.currentBit ≤ i % 8 ∧ i % 8 < s.currentBit + n
        · rw [if_pos h2, if_pos (by simp only [BitStream.pos]; omega)]
          congr 1; simp only [BitStream.pos]; omega
        · rw [if_neg h2, if_neg (by simp only [BitStream.pos]; omega)]
          simp only [bitAt, hi]
      · rw [if_neg hi, if_neg (by simp only [BitStream.pos]; omega)]
  · rw [if_neg ht]
    have hk1 : s.currentByte + 1 < s.buf.length := by omega
    rw [bufAnd_bind hk, bufOr_bind (by simpa using hk)]
    simp only [incByte, modS_bind]
    rw [tblGet_bind (masksb_get (n := 8 - (s.currentBit + n - 8)) (by omega)), bufAnd_bind (by simpa using hk1),
      bufOr_bind (by simpa using hk1), modS_bind]
    refine ⟨_, assertInBounds_run ?_, ⟨?_, ?_⟩, ?_, ?_, ?_, ?_⟩
    · simp only [BitStream.pos]; omega
    · simp only []; omega
    · simpa using hcap
    · rfl
    · simp
    · simp only [BitStream.pos]; omega
    · intro i
      have hcr : 8 < s.currentBit + n := by omega
      simp only [hcr, true_and]
      rw [getD_set_self (by simpa using hk), getD_set_self (by simpa using hk1), List.set_set, List.set_set,
        getD_set_ne (by omega)]
      rw [bitAt_set _ _ _ _ (by simpa using hk1), bitAt_set _ _ _ _ hk]
      by_cases hi1 : i / 8 = s.currentByte + 1
      · rw [if_pos hi1, part_lo (by omega) (by omega)]
        by_cases h2 : i % 8 < s.currentBit + n - 8
        · rw [if_pos h2, if_pos (by simp only [BitStream.pos]; omega), if_pos hi1]
          congr 1
          · simp only [bitAt, hi1]
          · congr 1; simp only [BitStream.pos]; omega
        · rw [if_neg h2, if_neg (by simp only [BitStream.pos]; omega), if_pos hi1]
      · rw [if_neg hi1, if_neg hi1]
        by_cases hi : i / 8 = s.currentByte
        · rw [if_pos hi, part_hi hb hn hcr hlt (by omega)]
          by_cases h2 : i % 8 < s.currentBit
          · rw [if_pos h2, if_neg (by simp only [BitStream.pos]; omega), if_neg hi1]
            simp only [bitAt, hi]
          · rw [if_neg h2, if_pos (by simp only [BitStream.pos]; omega), Bool.false_or]
            congr 1; simp only [BitStream.pos]; omega
        · rw [if_neg hi, if_neg (by simp only [BitStream.pos]; omega), if_neg hi1]

theorem appendPartialByte_appends {v : Byte} {n : Nat} {neg : Bool}
    (hn : n < 8) (hn0 : 0 < n) (hv : neg = true ∨ v.toNat < 2 ^ n) :
    Appends (appendPartialByte v n neg) () (bitsMsb n (negP neg n v).toNat) := by
  intro s bs hs hroom
  rw [bitsMsb_length] at hroom
  obtain ⟨s', hr, hwf', hc, hl, hp, hbits⟩ := appendPartialByte_run hs.wf hn hv hn0 (by rw [hs.pos]; exact hroom)
  have hb := hs.wf.bit
  have hpos := hs.pos
  refine ⟨s', hr, ⟨hwf', ?_, ?_, ?_⟩, ⟨hc, hl, ?_⟩⟩
  · rw [hp, hpos]; simp
  · rw [hc]; simpa using hroom
  · intro i hi
    rw [hc] at hi
    rw [hbits i, List.getElem?_append]
    by_cases h1 : i < bs.length
    · rw [if_pos h1, if_neg (by omega), if_neg (by simp only [BitStream.pos] at hpos; omega), hs.bits i hi]
    · have hz : bitAt s.buf i = false := by
        rw [hs.bits i hi, List.getElem?_eq_none (by omega)]; rfl
      rw [if_neg h1, bitsMsb_byte_getD (by omega), hz, hpos]
      by_cases h2 : i < bs.length + n
      · rw [if_pos (by omega), ite_self, Bool.false_or]
        have : i - bs.length < n := by omega
        simp [this]
      · rw [if_neg (by omega), ite_self]
        have : ¬ (i - bs.length < n) := by omega
        simp [this]
  · intro i hi
    rw [hbits i, if_neg (by omega), if_neg]
    simp only [BitStream.pos] at hpos
    omega

theorem appendNBitZero_run {s : BitStream} (hwf : Wf s) (n : Nat) (hroom : s.pos + n ≤ 8 * s.count) :
    ∃ s', appendNBitZero n s = .ok ((), s') ∧ Wf s' ∧ s'.count = s.count ∧ s'.buf = s.buf ∧ s'.pos = s.pos + n := by
  have hb := hwf.bit
  have hcap := hwf.cap
  simp only [BitStream.pos] at hroom
  simp only [appendNBitZero, getS_bind]
  have e1 : ((s.currentBit : Int) + (n : Int)).tmod 8 = ((s.currentBit + n) % 8 : Nat) := by
    rw [← Int.natCast_add]; rfl
  have e2 : ((s.currentBit : Int) + (n : Int)).tdiv 8 = ((s.currentBit + n) / 8 : Nat) := by
    rw [← Int.natCast_add]; rfl
  rw [e1, e2, if_neg (by omega), if_pos (by omega), if_neg (by omega)]
  refine ⟨_, rfl, ⟨?_, hcap⟩, rfl, rfl, ?_⟩
  · simp only []; omega
  · simp only [BitStream.pos]; omega

theorem appendNBitZero_appends (n : Nat) : Appends (appendNBitZero n) () (List.replicate n false) := by
  intro s bs hs hroom
  rw [List.length_replicate] at hroom
  obtain ⟨s', hr, hwf', hc, hbuf, hp⟩ := appendNBitZero_run hs.wf n (by rw [hs.pos]; exact hroom)
  refine ⟨s', hr, ⟨hwf', ?_, ?_, ?_⟩, ⟨hc, by rw [hbuf], fun i _ => by rw [hbuf]⟩⟩
  · rw [hp, hs.pos]; simp
  · rw [hc]; simpa using hroom
  · intro i hi
    rw [hc] at hi
    rw [hbuf, hs.bits i hi, List.getElem?_append]
    split
    · rfl
    · rename_i h
      rw [List.getElem?_eq_none (by omega), List.getElem?_replicate]
      split <;> rfl

theorem appendNBytesOne_writes (n : Nat) : Appends (appendNBytesOne n) () (List.replicate (8 * n) true) := by
  induction n with
  | zero => exact Appends.pure ()
  | succ n ih =>
    have h := ((appendByte_writes 0xFF#8 false).appends).bind (g := fun _ => appendNBytesOne n) ih
    exact h.congr (by
      have : byteBits (negB false 0xFF#8) = List.replicate 8 true := by decide
      rw [this, List.replicate_append_replicate]; congr 1; omega)

theorem appendNBitsOne_writes (n : Nat) : Appends (appendNBitsOne n) () (List.replicate n true) := by
  induction n with
  | zero => exact Appends.pure ()
  | succ n ih =>
    have h := (appendBitOne_writes.appends).bind (g := fun _ => appendNBitsOne n) ih
    exact h.congr (by simp [List.replicate_succ])

theorem appendNBitOne_appends (n : Nat) : Appends (appendNBitOne n) () (List.replicate n true) := by
  have h := (appendNBytesOne_writes (n / 8)).bind (g := fun _ => appendNBitsOne (n % 8)) (appendNBitsOne_writes (n % 8))
  exact h.congr (by rw [List.replicate_append_replicate]; congr 1; omega)

end Asn1
