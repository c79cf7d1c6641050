import Verif.Proof.AppendArr
/-! Every read primitive of the model. -/
namespace Asn1

theorem decSt_advance {s s' : BitStream} {w rest : List Bool} (hs : DecSt s (w ++ rest)) (hb : s'.buf = s.buf)
    (hc : s'.count = s.count) (hbit : s'.currentBit < 8) (hp : s'.pos = s.pos + w.length) : DecSt s' rest := by
  refine ⟨⟨hbit, ?_⟩, ?_, ?_⟩
  · rw [hc, hb]; exact hs.wf.cap
  · have := hs.pos; simp only [List.length_append] at this; rw [hc, hp]; omega
  · intro i hi
    have := hs.bits (w.length + i) (by simp; omega)
    rw [hb, hp, Nat.add_assoc, this, List.getElem?_append_right (by omega)]
    congr 2; omega

theorem DecSt.room {s : BitStream} {w rest : List Bool} (hs : DecSt s (w ++ rest)) : s.pos + w.length ≤ 8 * s.count := by
  have := hs.pos; simp only [List.length_append] at this; omega

theorem DecSt.bit {s : BitStream} {w rest : List Bool} (hs : DecSt s (w ++ rest)) {i : Nat} (hi : i < w.length) :
    bitAt s.buf (s.pos + i) = w[i]?.getD false := by
  rw [hs.bits i (by simp; omega), List.getElem?_append_left hi]

theorem readBit_run {s : BitStream} (hb : s.currentBit < 8) (hk : s.currentByte < s.buf.length) :
    ∃ s', readBit s = .ok ((decide (s.pos + 1 ≤ 8 * s.count), bitAt s.buf s.pos), s') ∧ s'.buf = s.buf ∧
      s'.count = s.count ∧ s'.currentBit < 8 ∧ s'.pos = s.pos + 1 := by
  obtain ⟨s', hr, h1, h2, h3, h4⟩ := stepBit_pos hb
  refine ⟨s', ?_, h1, h2, h3, h4⟩
  simp only [readBit, getS_bind]
  rw [bufGet_bind hk, tblGet_bind (masks_get hb), bind_ok hr]
  simp only [getS_bind, pure_run]
  congr 3
  · simp only [inBounds]; rw [h2]; simp only [BitStream.pos] at h4 ⊢; congr 1; apply propext; omega
  · rw [and_mask_ne hb]; rw [BitStream.pos, bitAt_def' _ _ _ hb]

theorem readBit_reads (v : Bool) : Reads readBit (true, v) [v] := by
  intro s rest hs
  have hroom := hs.room
  have hcap := hs.wf.cap
  simp only [List.length_singleton] at hroom
  obtain ⟨s', hr, h1, h2, h3, h4⟩ := readBit_run hs.wf.bit (by simp only [BitStream.pos] at hroom; omega)
  refine ⟨s', ?_, decSt_advance hs h1 h2 h3 h4, h1, h2⟩
  have := hs.bit (i := 0) (by simp)
  simp only [Nat.add_zero] at this
  rw [hr, this]; simp [hroom]

theorem peekBit_run {s : BitStream} (hb : s.currentBit < 8) (hk : s.currentByte < s.buf.length) :
    peekBit s = .ok (bitAt s.buf s.pos, s) := by
  simp only [peekBit, getS_bind]
  rw [bufGet_bind hk, tblGet_bind (masks_get hb)]
  simp only [pure_run]
  rw [and_mask_ne hb, BitStream.pos, bitAt_def' _ _ _ hb]

/-- The byte assembled from two neighbouring bytes. -/
theorem byte_join {buf : List Byte} {k cb j : Nat} (hcb : cb < 8) (hj : j < 8) :
    ((buf.getD k 0#8 <<< cb) ||| (buf.getD (k + 1) 0#8 >>> (8 - cb))).getMsbD j = bitAt buf (8 * k + cb + j) := by
  simp only [BitVec.getMsbD_or, BitVec.getMsbD_shiftLeft, BitVec.getMsbD_ushiftRight]
  by_cases h : j + cb < 8
  · have e : j < 8 - cb := by omega
    rw [show 8 * k + cb + j = 8 * k + (j + cb) by omega, bitAt_def' _ _ _ h]
    simp [e]
  · have e : ¬ (j < 8 - cb) := by omega
    rw [show 8 * k + cb + j = 8 * (k + 1) + (j - (8 - cb)) by omega, bitAt_def' _ _ _ (by omega),
      BitVec.getMsbD_of_ge _ _ (by omega)]
    simp [e, hj]

theorem byte_ext_bits {b : Byte} {c : Byte} (h : ∀ j, j < 8 → b.getMsbD j = c.getMsbD j) : b = c :=
  BitVec.eq_of_getMsbD_eq h

theorem readByte_run {s : BitStream} {b : Byte} (hwf : Wf s) (hroom : s.pos + 8 ≤ 8 * s.count)
    (hbits : ∀ j, j < 8 → bitAt s.buf (s.pos + j) = b.getMsbD j) :
    readByte s = .ok ((true, b), { s with currentByte := s.currentByte + 1 }) := by
  have hb := hwf.bit
  have hcap := hwf.cap
  simp only [BitStream.pos] at hroom hbits
  simp only [readByte, getS_bind]
  rw [if_neg (by split <;> omega), bufGet_bind (by omega)]
  simp only [incByte, modS_bind]
  by_cases h0 : s.currentBit > 0
  · rw [if_pos h0, bufGet_bind (by simp only []; omega)]
    simp only [pure_run]
    congr 3
    apply byte_ext_bits
    intro j hj
    rw [byte_join hb hj, hbits j hj]
  · rw [if_neg h0]
    simp only [pure_run]
    congr 3
    apply byte_ext_bits
    intro j hj
    have : s.currentBit = 0 := by omega
    have e := hbits j hj
    rw [this, Nat.add_zero, bitAt_def' _ _ _ hj] at e
    rw [this, ← e]; simp

theorem readByte_reads (b : Byte) : Reads readByte (true, b) (byteBits b) := by
  intro s rest hs
  have hroom := hs.room
  simp only [byteBits_length] at hroom
  refine ⟨_, readByte_run hs.wf hroom ?_, ?_, rfl, rfl⟩
  · intro j hj
    rw [hs.bit (by simpa using hj), byteBits_getD]
  · exact decSt_advance hs rfl rfl hs.wf.bit (by simp only [BitStream.pos, byteBits_length]; omega)

/-- `ReadByte` fails cleanly when fewer than 8 bits are left, wherever the object ends. -/
theorem readByte_short {s : BitStream} (hb : s.currentBit < 8) (h : 8 * s.count < s.pos + 8) :
    readByte s = .ok ((false, 0#8), s) := by
  simp only [BitStream.pos] at h
  simp only [readByte, getS_bind]
  rw [if_pos (by split <;> omega)]
  rfl

theorem readByteArrayLoop_run {cb : Nat} (hcb : cb < 8) (bytes : List Byte) :
    ∀ (k : Nat) (s : BitStream), k + bytes.length < s.buf.length →
      (∀ i, i < 8 * bytes.length → bitAt s.buf (8 * k + cb + i) = bitAt bytes i) →
      readByteArrayLoop cb (8 - cb) bytes.length k s = .ok (bytes, s) := by
  induction bytes with
  | nil => intro k s _ _; rfl
  | cons b t ih =>
    intro k s hk hbits
    simp only [List.length_cons] at hk hbits
    simp only [List.length_cons, readByteArrayLoop]
    rw [bufGet_bind (by omega), bufGet_bind (by omega)]
    rw [bind_ok (ih (k + 1) s (by omega) ?_)]
    · simp only [pure_run]
      congr 3
      apply byte_ext_bits
      intro j hj
      rw [byte_join hcb hj, hbits j (by omega)]
      have := bitAt_def' (b :: t) 0 j hj
      simpa using this
    · intro i hi
      have := hbits (8 + i) (by omega)
      rw [show 8 * (k + 1) + cb + i = 8 * k + cb + (8 + i) by omega, this]
      simp only [bitAt]
      rw [show (8 + i) / 8 = i / 8 + 1 by omega, show (8 + i) % 8 = i % 8 by omega]
      simp

theorem decodeOctetStringNoLength_reads (bytes : List Byte) :
    Reads (decodeOctetStringNoLength bytes.length) (true, bytes) (bytesBits bytes) := by
  intro s rest hs
  have hroom := hs.room
  have hb := hs.wf.bit
  have hcap := hs.wf.cap
  simp only [bytesBits_length, BitStream.pos] at hroom
  have hbits : ∀ i, i < 8 * bytes.length → bitAt s.buf (s.pos + i) = bitAt bytes i := by
    intro i hi
    rw [hs.bit (by simpa using hi), bytesBits_getD]
  refine ⟨{ s with currentByte := s.currentByte + bytes.length }, ?_, ?_, rfl, rfl⟩
  · simp only [decodeOctetStringNoLength, getS_bind]
    by_cases h0 : s.currentBit = 0
    · rw [if_pos h0, if_pos (by omega)]
      have : memcpyOut s.currentByte bytes.length s = .ok (bytes, s) := by
        simp only [memcpyOut]
        rw [if_pos (by omega)]
        congr 2
        apply bytesBits_inj
        apply List.ext_getElem?
        intro i
        have hl : ((s.buf.drop s.currentByte).take bytes.length).length = bytes.length := by simp; omega
        by_cases hi : i < 8 * bytes.length
        · have l1 : i < (bytesBits ((s.buf.drop s.currentByte).take bytes.length)).length := by
            rw [bytesBits_length, hl]; exact hi
          have l2 : i < (bytesBits bytes).length := by rw [bytesBits_length]; exact hi
          have e1 := bytesBits_getD ((s.buf.drop s.currentByte).take bytes.length) i
          have e2 := bytesBits_getD bytes i
          rw [List.getElem?_eq_getElem l1] at e1 ⊢
          rw [List.getElem?_eq_getElem l2] at e2 ⊢
          simp only [Option.getD_some] at e1 e2
          rw [e1, e2]
          have e3 := hbits i hi
          rw [← e3]
          simp only [bitAt, List.getD_eq_getElem?_getD, List.getElem?_take, List.getElem?_drop]
          rw [if_pos (by omega)]
          simp only [BitStream.pos]
          rw [show (8 * s.currentByte + s.currentBit + i) / 8 = s.currentByte + i / 8 by omega,
            show (8 * s.currentByte + s.currentBit + i) % 8 = i % 8 by omega]
        · rw [List.getElem?_eq_none (by rw [bytesBits_length, hl]; omega),
            List.getElem?_eq_none (by rw [bytesBits_length]; omega)]
      rw [bind_ok this]; rfl
    · rw [if_neg h0]
      simp only [readByteArray, getS_bind]
      rw [if_neg (by omega), bind_ok (readByteArrayLoop_run hb bytes s.currentByte s ?_ ?_)]
      · rfl
      · omega
      · intro i hi
        have := hbits i hi
        simpa only [BitStream.pos] using this
  · exact decSt_advance hs rfl rfl hb (by simp only [BitStream.pos, bytesBits_length]; omega)

theorem decodeOctetStringNoLength_short {s : BitStream} {n : Nat}
    (h : 8 * s.count < s.pos + 8 * n) : decodeOctetStringNoLength n s = .ok ((false, []), s) := by
  simp only [BitStream.pos] at h
  simp only [decodeOctetStringNoLength, getS_bind]
  by_cases h0 : s.currentBit = 0
  · rw [if_pos h0, if_neg (by omega)]; rfl
  · rw [if_neg h0]
    simp only [readByteArray, getS_bind]
    rw [if_pos (by omega)]; rfl

/-- The value read by `ReadPartialByte`. -/
theorem readPartialByte_run {s : BitStream} {n : Nat} (hb : s.currentBit < 8) (hn : n < 8)
    (hk : s.currentByte < s.buf.length) (hk1 : 8 < s.currentBit + n → s.currentByte + 1 < s.buf.length) :
    ∃ v s', readPartialByte n s = .ok ((decide (s.pos + n ≤ 8 * s.count), v), s') ∧ s'.buf = s.buf ∧
      s'.count = s.count ∧ s'.currentBit < 8 ∧ s'.pos = s.pos + n ∧
      ∀ j, j < 8 → v.getMsbD j = (decide (8 - n ≤ j) && bitAt s.buf (s.pos + (j - (8 - n)))) := by
  simp only [readPartialByte, getS_bind]
  by_cases ht : s.currentBit + n ≤ 8
  · rw [if_pos ht, bufGet_bind hk, tblGet_bind (masksb_get (by omega)), modS_bind, getS_bind]
    have hpos : (if s.currentBit + n = 8
          then ({ buf := s.buf, count := s.count, currentByte := s.currentByte + 1, currentBit := 0 } : BitStream)
          else { buf := s.buf, count := s.count, currentByte := s.currentByte, currentBit := s.currentBit + n }).pos = s.pos + n := by
      split <;> simp only [BitStream.pos] <;> omega
    have hcnt : (if s.currentBit + n = 8
          then ({ buf := s.buf, count := s.count, currentByte := s.currentByte + 1, currentBit := 0 } : BitStream)
          else { buf := s.buf, count := s.count, currentByte := s.currentByte, currentBit := s.currentBit + n }).count = s.count := by
      split <;> rfl
    generalize hg : (if s.currentBit + n = 8
          then ({ buf := s.buf, count := s.count, currentByte := s.currentByte + 1, currentBit := 0 } : BitStream)
          else { buf := s.buf, count := s.count, currentByte := s.currentByte, currentBit := s.currentBit + n }) = s1 at hpos hcnt ⊢
    refine ⟨(s.buf.getD s.currentByte 0#8 >>> (8 - (s.currentBit + n))) &&& BitVec.ofNat 8 (2 ^ n - 1), s1, ?_, ?_, ?_, ?_, ?_, ?_⟩
    · simp only [pure_run, inBounds]
      congr 3
      rw [hcnt]; simp only [BitStream.pos] at hpos ⊢; congr 1; apply propext; omega
    · rw [← hg]; split <;> rfl
    · exact hcnt
    · rw [← hg]; split
      · simp
      · simp only []; omega
    · exact hpos
    · intro j hj
      simp only [BitVec.getMsbD_and, BitVec.getMsbD_ushiftRight, masksb_bit (show n ≤ 8 by omega) hj, hj]
      by_cases h : 8 - n ≤ j
      · have e1 : 8 ≤ n + j := by omega
        have e2 : ¬ (j < 8 - (s.currentBit + n)) := by omega
        rw [BitStream.pos, Nat.add_assoc, bitAt_def' _ _ _ (by omega)]
        simp only [e1, e2, h]
        rw [show j - (8 - (s.currentBit + n)) = s.currentBit + (j - (8 - n)) by omega]
        simp
      · have e1 : ¬ (8 ≤ n + j) := by omega
        simp [h, e1]
  · rw [if_neg ht, bufGet_bind hk]
    simp only [incByte, modS_bind]
    rw [bufGet_bind (by simp only []; exact hk1 (by omega)), tblGet_bind (masksb_get (by omega)), modS_bind, getS_bind]
    refine ⟨((s.buf.getD s.currentByte 0#8 <<< (s.currentBit + n - 8)) |||
        (s.buf.getD (s.currentByte + 1) 0#8 >>> (8 - (s.currentBit + n - 8)))) &&& BitVec.ofNat 8 (2 ^ n - 1),
      { s with currentByte := s.currentByte + 1, currentBit := s.currentBit + n - 8 }, ?_, rfl, rfl, ?_, ?_, ?_⟩
    · simp only [pure_run, inBounds]
      congr 3
      simp only [BitStream.pos]; congr 1; apply propext; omega
    · simp only []; omega
    · simp only [BitStream.pos]; omega
    · intro j hj
      rw [BitVec.getMsbD_and, byte_join (by omega) hj, masksb_bit (by omega) hj]
      by_cases h : 8 - n ≤ j
      · have e1 : 8 ≤ n + j := by omega
        simp only [h, e1, decide_true, Bool.and_true, Bool.true_and, BitStream.pos]
        congr 1; omega
      · have e1 : ¬ (8 ≤ n + j) := by omega
        simp [h, e1]

theorem readPartialByte_reads {v : Byte} {n : Nat} (hn0 : 0 < n) (hn : n < 8) (hv : v.toNat < 2 ^ n) :
    Reads (readPartialByte n) (true, v) (bitsMsb n v.toNat) := by
  intro s rest hs
  have hroom := hs.room
  have hcap := hs.wf.cap
  have hb := hs.wf.bit
  rw [bitsMsb_length] at hroom
  have hroom' := hroom
  simp only [BitStream.pos] at hroom'
  obtain ⟨v', s', hr, h1, h2, h3, h4, h5⟩ := readPartialByte_run hb hn (by omega) (by intro; omega)
  refine ⟨s', ?_, decSt_advance hs h1 h2 h3 (by rw [bitsMsb_length]; exact h4), h1, h2⟩
  rw [hr]
  have : v' = v := by
    apply byte_ext_bits
    intro j hj
    rw [h5 j hj]
    by_cases h : 8 - n ≤ j
    · rw [hs.bit (by rw [bitsMsb_length]; omega), bitsMsb_byte_getD (by omega)]
      have e : j - (8 - n) < n := by omega
      have e2 : 8 - n + (j - (8 - n)) = j := by omega
      simp [h, e, e2]
    · rw [byte_high_zero hv (by omega)]; simp [h]
  rw [this]; simp [hroom]

theorem readBits_reads {w : List Bool} {r : List Byte} (h : Packed w r) :
    Reads (readBits w.length) (true, r) w := by
  obtain ⟨hl, hbits⟩ := h
  have htake : w = (bytesBits r).take w.length := by rw [hbits]; simp
  by_cases hr : 0 < w.length % 8
  · have hlt : w.length / 8 < r.length := by omega
    have hb : r = r.take (w.length / 8) ++ [r.getD (w.length / 8) 0#8] := by
      have : r.drop (w.length / 8 + 1) = [] := List.drop_eq_nil_of_le (by omega)
      have hd : r.getD (w.length / 8) 0#8 = r[w.length / 8] := by simp [hlt]
      rw [hd]
      conv => lhs; rw [← List.take_append_drop (w.length / 8) r]
      rw [List.drop_eq_getElem_cons hlt, this]
    have hsplit := bytesBits_take (arr := r) (n := w.length) (by omega) hr
    have hlen : (r.take (w.length / 8)).length = w.length / 8 := by simp; omega
    have h1 := decodeOctetStringNoLength_reads (r.take (w.length / 8))
    rw [hlen] at h1
    rw [← htake] at hsplit
    have hz : ((r.getD (w.length / 8) 0#8) >>> (8 - w.length % 8)) <<< (8 - w.length % 8) = r.getD (w.length / 8) 0#8 := by
      apply byte_ext_bits
      intro j hj
      rw [BitVec.getMsbD_shiftLeft, BitVec.getMsbD_ushiftRight]
      by_cases hj2 : j < w.length % 8
      · have e1 : j + (8 - w.length % 8) < 8 := by omega
        simp [e1]
      · have e1 : ¬ (j + (8 - w.length % 8) < 8) := by omega
        have e2 : (r.getD (w.length / 8) 0#8).getMsbD j = false := by
          rw [← bitAt_def' _ _ _ hj, ← bytesBits_getD, hbits, List.getElem?_append_right (by omega), List.getElem?_replicate]
          split <;> rfl
        rw [e2]; simp [e1]
    have hred := h1.bind (b := (true, r)) (g := fun p => match p with
      | (ret, bytes) => if ret = true ∧ w.length % 8 > 0 then do
          let (ok, b) ← readPartialByte (w.length % 8)
          if ok then pure (true, bytes ++ [b <<< (8 - w.length % 8)]) else pure (false, bytes)
        else pure (ret, bytes)) (w2 := bitsMsb (w.length % 8) ((r.getD (w.length / 8) 0#8) >>> (8 - w.length % 8)).toNat) (by
        simp only [hr, true_and, if_true]
        have hp := readPartialByte_reads (v := (r.getD (w.length / 8) 0#8) >>> (8 - w.length % 8)) hr (by omega)
          (shift_partial_lt _ (by omega))
        have := hp.bind (b := (true, r)) (g := fun p => match p with
          | (ok, b) => if ok = true then (Pure.pure (true, r.take (w.length / 8) ++ [b <<< (8 - w.length % 8)]) : M _)
            else Pure.pure (false, r.take (w.length / 8))) (w2 := []) (by
            simp only [if_true]
            rw [hz, ← hb]
            exact Reads.pure _)
        rw [List.append_nil] at this
        exact this)
    rw [← hsplit] at hred
    exact hred
  · have hlen : r.length = w.length / 8 := by omega
    have hw : w = bytesBits r := by rw [hbits, show 8 * r.length - w.length = 0 by omega]; simp
    have h1 := decodeOctetStringNoLength_reads r
    rw [← hw, hlen] at h1
    have hred := h1.bind (b := (true, r)) (g := fun p => match p with
      | (ret, bytes) => if ret = true ∧ w.length % 8 > 0 then do
          let (ok, b) ← readPartialByte (w.length % 8)
          if ok then pure (true, bytes ++ [b <<< (8 - w.length % 8)]) else pure (false, bytes)
        else pure (ret, bytes)) (w2 := []) (by
        simp only [gt_iff_lt, hr, and_false, if_false]
        exact Reads.pure _)
    rw [List.append_nil] at hred
    exact hred

end Asn1
