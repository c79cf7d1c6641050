import Verif.Proof.Run
/-! Every append primitive of the model writes exactly the bits it should. -/
namespace Asn1

theorem stepBit_pos {s : BitStream} (h : s.currentBit < 8) :
    ∃ s', stepBit s = .ok ((), s') ∧ s'.buf = s.buf ∧ s'.count = s.count ∧ s'.currentBit < 8 ∧
      s'.pos = s.pos + 1 := by
  refine ⟨_, rfl, ?_⟩
  by_cases h7 : s.currentBit < 7
  · simp [h7, BitStream.pos]; omega
  · simp [h7, BitStream.pos]; omega

theorem pos_div {s : BitStream} (h : s.currentBit < 8) : s.pos / 8 = s.currentByte := by
  simp only [BitStream.pos]; omega

theorem pos_mod {s : BitStream} (h : s.currentBit < 8) : s.pos % 8 = s.currentBit := by
  simp only [BitStream.pos]; omega

theorem bitAt_def' (buf : List Byte) (k j : Nat) (h : j < 8) : bitAt buf (8 * k + j) = (buf.getD k 0#8).getMsbD j := by
  simp only [bitAt]
  rw [show (8 * k + j) / 8 = k by omega, show (8 * k + j) % 8 = j by omega]

theorem appendBit_writes (v : Bool) : Writes (appendBit v) () [v] := by
  intro s hwf hroom
  have hb := hwf.bit
  have hcap := hwf.cap
  simp only [List.length_singleton] at hroom ⊢
  have hk : s.currentByte < s.buf.length := by simp only [BitStream.pos] at hroom; omega
  have hm := masks_get hb
  have key : ∃ x : Byte, (∀ j, j < 8 → x.getMsbD j =
        if j = s.currentBit then v else (s.buf.getD s.currentByte 0#8).getMsbD j) ∧
      appendBit v s = (stepBit >>= fun _ => assertInBounds) { s with buf := s.buf.set s.currentByte x } := by
    cases v
    · refine ⟨s.buf.getD s.currentByte 0#8 &&& ~~~(BitVec.ofNat 8 (2 ^ (7 - s.currentBit))), ?_, ?_⟩
      rotate_left
      · simp only [appendBit, getS_bind]
        rw [tblGet_bind hm]
        simp only [Bool.false_eq_true, if_false]
        rw [bufAnd_bind hk]
      · intro j hj
        simp only [BitVec.getMsbD_and, BitVec.getMsbD_not, masks_bit hb hj]
        by_cases e : j = s.currentBit <;> simp [e, hj]
    · refine ⟨s.buf.getD s.currentByte 0#8 ||| (BitVec.ofNat 8 (2 ^ (7 - s.currentBit))), ?_, ?_⟩
      rotate_left
      · simp only [appendBit, getS_bind]
        rw [tblGet_bind hm]
        simp only [if_true]
        rw [bufOr_bind hk]
      · intro j hj
        simp only [BitVec.getMsbD_or, masks_bit hb hj]
        by_cases e : j = s.currentBit <;> simp [e]
  obtain ⟨x, hx, hrun⟩ := key
  obtain ⟨s', hr', hbuf', hcnt', hbit', hpos'⟩ :=
    stepBit_pos (s := { s with buf := s.buf.set s.currentByte x }) hb
  have hpos'' : s'.pos = s.pos + 1 := hpos'
  refine ⟨s', ?_, ⟨hbit', ?_⟩, hcnt', ?_, hpos'', ?_⟩
  · rw [hrun, bind_ok hr', assertInBounds_run]
    rw [hpos'', hcnt']; exact hroom
  · rw [hcnt', hbuf']; simpa using hcap
  · rw [hbuf']; simp
  · intro i
    rw [hbuf']
    simp only []
    rw [bitAt_set _ _ _ _ hk]
    by_cases hi : i / 8 = s.currentByte
    · rw [if_pos hi, hx _ (by omega)]
      by_cases h2 : i % 8 = s.currentBit
      · have : i = s.pos := by simp only [BitStream.pos]; omega
        rw [if_pos h2, if_pos (by omega), this]; simp
      · rw [if_neg h2, if_neg (by simp only [BitStream.pos]; omega)]
        simp only [bitAt, hi]
    · rw [if_neg hi, if_neg (by simp only [BitStream.pos]; omega)]

theorem appendBitOne_eq : appendBitOne = appendBit true := by
  simp only [appendBitOne, appendBit, if_true]

theorem appendBitZero_eq : appendBitZero = appendBit false := by
  simp only [appendBitZero, appendBit, Bool.false_eq_true, if_false]

theorem appendBitOne_writes : Writes appendBitOne () [true] := appendBitOne_eq ▸ appendBit_writes true
theorem appendBitZero_writes : Writes appendBitZero () [false] := appendBitZero_eq ▸ appendBit_writes false

/-- The two memory updates of `AppendByte`. -/
theorem byte_hi {b v m : Byte} {cb j : Nat} (hm : m = BitVec.ofNat 8 (2 ^ (8 - cb) - 1)) (hcb : cb ≤ 8) (hj : j < 8) :
    (b &&& ~~~m ||| v >>> cb).getMsbD j = if j < cb then b.getMsbD j else v.getMsbD (j - cb) := by
  subst hm
  simp only [BitVec.getMsbD_or, BitVec.getMsbD_and, BitVec.getMsbD_not, BitVec.getMsbD_ushiftRight,
    masksb_bit (show 8 - cb ≤ 8 by omega) hj, hj]
  by_cases h : j < cb
  · have : ¬ (8 ≤ 8 - cb + j) := by omega
    simp [h, this]
  · have : 8 ≤ 8 - cb + j := by omega
    simp [h, this]

theorem byte_lo {b v m : Byte} {cb j : Nat} (hm : m = BitVec.ofNat 8 (2 ^ (8 - cb) - 1)) (hcb : cb ≤ 8) (hj : j < 8) :
    (b &&& m ||| v <<< (8 - cb)).getMsbD j = if j < cb then v.getMsbD (j + (8 - cb)) else b.getMsbD j := by
  subst hm
  simp only [BitVec.getMsbD_or, BitVec.getMsbD_and, BitVec.getMsbD_shiftLeft,
    masksb_bit (show 8 - cb ≤ 8 by omega) hj]
  by_cases h : j < cb
  · have : ¬ (8 ≤ 8 - cb + j) := by omega
    simp [h, this]
  · have : 8 ≤ 8 - cb + j := by omega
    have h2 : v.getMsbD (j + (8 - cb)) = false := BitVec.getMsbD_of_ge _ _ (by omega)
    simp [h, this, h2]

/-- Bits of a buffer after both bytes were updated. -/
theorem two_bytes_bits {buf : List Byte} {k cb : Nat} {v x y : Byte} (hcb : cb < 8) (hk : k < buf.length)
    (hk1 : cb ≠ 0 → k + 1 < buf.length)
    (hx : ∀ j, j < 8 → x.getMsbD j = if j < cb then (buf.getD k 0#8).getMsbD j else v.getMsbD (j - cb))
    (hy : ∀ j, j < 8 → y.getMsbD j =
      if j < cb then v.getMsbD (j + (8 - cb)) else (buf.getD (k + 1) 0#8).getMsbD j) (i : Nat) :
    bitAt (if cb = 0 then buf.set k x else (buf.set k x).set (k + 1) y) i =
      if 8 * k + cb ≤ i ∧ i < 8 * k + cb + 8 then v.getMsbD (i - (8 * k + cb)) else bitAt buf i := by
  by_cases h0 : cb = 0
  · rw [if_pos h0, bitAt_set _ _ _ _ hk]
    by_cases hi : i / 8 = k
    · rw [if_pos hi, hx _ (by omega), if_neg (by omega), if_pos (by omega)]; congr 1; omega
    · rw [if_neg hi, if_neg (by omega)]
  · rw [if_neg h0, bitAt_set _ _ _ _ (by simpa using hk1 h0), bitAt_set _ _ _ _ hk]
    by_cases hi : i / 8 = k + 1
    · rw [if_pos hi, hy _ (by omega)]
      by_cases h1 : i % 8 < cb
      · rw [if_pos h1, if_pos (by omega)]; congr 1; omega
      · rw [if_neg h1, if_neg (by omega)]; simp only [bitAt, hi]
    · rw [if_neg hi]
      by_cases hi : i / 8 = k
      · rw [if_pos hi, hx _ (by omega)]
        by_cases h1 : i % 8 < cb
        · rw [if_pos h1, if_neg (by omega)]; simp only [bitAt, hi]
        · rw [if_neg h1, if_pos (by omega)]; congr 1; omega
      · rw [if_neg hi, if_neg (by omega)]

theorem getD_set_self {buf : List Byte} {k : Nat} {x : Byte} (h : k < buf.length) :
    (buf.set k x).getD k 0#8 = x := by simp [h]

theorem getD_set_ne {buf : List Byte} {k j : Nat} {x : Byte} (h : k ≠ j) :
    (buf.set k x).getD j 0#8 = buf.getD j 0#8 := by simp [List.getElem?_set_ne h]

/-- The value `v` or its complement. -/
def negB (neg : Bool) (v : Byte) : Byte := if neg then ~~~v else v

/-- The buffer after `AppendByte`. -/
def putByte (buf : List Byte) (k cb : Nat) (v : Byte) : List Byte :=
  let m := BitVec.ofNat 8 (2 ^ (8 - cb) - 1)
  let b1 := buf.set k (buf.getD k 0#8 &&& ~~~m ||| v >>> cb)
  if cb = 0 then b1 else b1.set (k + 1) (buf.getD (k + 1) 0#8 &&& m ||| v <<< (8 - cb))

theorem putByte_length (buf : List Byte) (k cb : Nat) (v : Byte) : (putByte buf k cb v).length = buf.length := by
  simp only [putByte]; split <;> simp

theorem putByte_bits {buf : List Byte} {k cb : Nat} {v : Byte} (hcb : cb < 8) (hk : k < buf.length)
    (hk1 : cb ≠ 0 → k + 1 < buf.length) (i : Nat) :
    bitAt (putByte buf k cb v) i =
      if 8 * k + cb ≤ i ∧ i < 8 * k + cb + 8 then v.getMsbD (i - (8 * k + cb)) else bitAt buf i :=
  two_bytes_bits hcb hk hk1 (fun _ hj => byte_hi rfl (by omega) hj) (fun _ hj => byte_lo rfl (by omega) hj) i

theorem appendByte_run {s : BitStream} (v : Byte) (neg : Bool) (hwf : Wf s) (hroom : s.pos + 8 ≤ 8 * s.count) :
    appendByte v neg s = .ok ((), { s with buf := putByte s.buf s.currentByte s.currentBit (negB neg v),
                                           currentByte := s.currentByte + 1 }) := by
  have hb := hwf.bit
  have hcap := hwf.cap
  simp only [BitStream.pos] at hroom
  have hk : s.currentByte < s.buf.length := by omega
  have hm := masksb_get (n := 8 - s.currentBit) (by omega)
  simp only [appendByte, getS_bind]
  rw [tblGet_bind hm, bufAnd_bind hk, bufOr_bind (by simpa using hk)]
  simp only [incByte, modS_bind]
  rw [bind_ok (assertInBounds_run (by simp only [BitStream.pos]; omega))]
  by_cases h0 : s.currentBit = 0
  · simp [h0, hk, negB, putByte]
  · rw [if_pos h0]
    have hk1 : s.currentByte + 1 < s.buf.length := by omega
    rw [bufAnd_bind (by simpa using hk1), bufOr_run (by simpa using hk1)]
    simp [h0, hk, hk1, negB, putByte]

theorem putByte_writes {s : BitStream} (v : Byte) (hwf : Wf s) (hroom : s.pos + 8 ≤ 8 * s.count) :
    let s' : BitStream := { s with buf := putByte s.buf s.currentByte s.currentBit v,
                                   currentByte := s.currentByte + 1 }
    Wf s' ∧ s'.count = s.count ∧ s'.buf.length = s.buf.length ∧ s'.pos = s.pos + 8 ∧
      ∀ i, bitAt s'.buf i =
        if s.pos ≤ i ∧ i < s.pos + 8 then (byteBits v)[i - s.pos]?.getD false else bitAt s.buf i := by
  have hb := hwf.bit
  have hcap := hwf.cap
  simp only [BitStream.pos] at hroom
  refine ⟨⟨hb, ?_⟩, rfl, putByte_length .., ?_, ?_⟩
  · simp only [putByte_length]; exact hcap
  · simp only [BitStream.pos]; omega
  · intro i
    simp only [byteBits_getD]
    exact putByte_bits hb (by omega) (by intro; omega) i

theorem appendByte_writes (v : Byte) (neg : Bool) : Writes (appendByte v neg) () (byteBits (negB neg v)) := by
  intro s hwf hroom
  simp only [byteBits_length] at hroom ⊢
  exact ⟨_, appendByte_run v neg hwf hroom, putByte_writes _ hwf hroom⟩

theorem appendByte0_writes (v : Byte) : Writes (appendByte0 v) true (byteBits v) := by
  intro s hwf hroom
  simp only [byteBits_length] at hroom ⊢
  refine ⟨_, ?_, putByte_writes v hwf hroom⟩
  have hb := hwf.bit
  have hcap := hwf.cap
  simp only [BitStream.pos] at hroom
  have hk : s.currentByte < s.buf.length := by omega
  have hm := masksb_get (n := 8 - s.currentBit) (by omega)
  simp only [appendByte0, getS_bind]
  rw [tblGet_bind hm, bufAnd_bind hk, bufOr_bind (by simpa using hk)]
  simp only [incByte, modS_bind]
  by_cases h0 : s.currentBit = 0
  · simp [h0, hk, putByte]
  · rw [if_pos h0]
    have hk1 : s.currentByte + 1 < s.buf.length := by omega
    rw [if_neg (by omega), bufAnd_bind (by simpa using hk1), bufOr_bind (by simpa using hk1)]
    simp [h0, hk, hk1, putByte]

end Asn1
