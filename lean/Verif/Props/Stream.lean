import Verif.Proof.Calls
/-!
# C01-C06: the bit stream

Statements use only the API model, the call sequences of `Verif.Spec.Calls` and bits of byte lists.
-/
namespace Asn1

/-- The bits of the first `count` bytes of an encoder state are what was written, then zeros. -/
theorem EncSt.bytes {s : BitStream} {bs : List Bool} (h : EncSt s bs) :
    bytesBits (s.buf.take s.count) = bs ++ List.replicate (8 * s.count - bs.length) false := by
  have hcap := h.wf.cap
  have hl : (bytesBits (s.buf.take s.count)).length = 8 * s.count := by
    rw [bytesBits_length, List.length_take]; omega
  apply List.ext_getElem?
  intro i
  by_cases hi : i < 8 * s.count
  · have h1 := h.bits i hi
    have h2 := bytesBits_getD (s.buf.take s.count) i
    have h3 : bitAt (s.buf.take s.count) i = bitAt s.buf i := by
      simp only [bitAt, List.getD_eq_getElem?_getD, List.getElem?_take]; rw [if_pos (by omega)]
    rw [h3, h1, List.getElem?_eq_getElem (by omega)] at h2
    rw [List.getElem?_eq_getElem (by omega), List.getElem?_append]
    simp only [Option.getD_some] at h2
    rw [h2]
    split
    · rename_i hlt; rw [List.getElem?_eq_getElem hlt]; rfl
    · rw [List.getElem?_eq_none (by omega), List.getElem?_replicate, if_pos (by omega)]; rfl
  · have := h.room
    rw [List.getElem?_eq_none (by omega), List.getElem?_eq_none (by simp; omega)]

theorem EncSt.length {s : BitStream} {bs : List Bool} (h : EncSt s bs) :
    bitStreamGetLength s = (bs.length + 7) / 8 := by
  have h1 := h.pos
  have h2 := h.wf.bit
  simp only [BitStream.pos] at h1
  simp only [bitStreamGetLength]
  split <;> omega

theorem Frame.drop {s s' : BitStream} (h : Frame s s') : s'.buf.drop s.count = s.buf.drop s.count := by
  apply bytesBits_inj
  apply List.ext_getElem?
  intro i
  have hl : (s'.buf.drop s.count).length = (s.buf.drop s.count).length := by simp [h.len]
  by_cases hi : i < 8 * (s.buf.drop s.count).length
  · have a1 := bytesBits_getD (s'.buf.drop s.count) i
    have a2 := bytesBits_getD (s.buf.drop s.count) i
    have a3 := h.tail (8 * s.count + i) (by omega)
    have e : ∀ b : List Byte, bitAt (b.drop s.count) i = bitAt b (8 * s.count + i) := by
      intro b
      simp only [bitAt, List.getD_eq_getElem?_getD, List.getElem?_drop]
      rw [show (8 * s.count + i) / 8 = s.count + i / 8 by omega, show (8 * s.count + i) % 8 = i % 8 by omega]
    rw [e] at a1 a2
    rw [List.getElem?_eq_getElem (by rw [bytesBits_length]; omega)] at a1 ⊢
    rw [List.getElem?_eq_getElem (by rw [bytesBits_length]; omega)] at a2 ⊢
    simp only [Option.getD_some] at a1 a2
    rw [a1, a2, a3]
  · rw [List.getElem?_eq_none (by rw [bytesBits_length]; omega), List.getElem?_eq_none (by rw [bytesBits_length]; omega)]

/-- A reader attached to a buffer has all its bits to read. -/
theorem attach_decSt {buf : List Byte} {count : Nat} (h : count ≤ buf.length) :
    DecSt (bitStreamAttach buf count) (bytesBits (buf.take count)) := by
  refine ⟨⟨by simp [bitStreamAttach], h⟩, ?_, ?_⟩
  · simp [bitStreamAttach, BitStream.pos]; omega
  · intro i hi
    rw [bytesBits_getD]
    simp only [bytesBits_length, List.length_take] at hi
    simp only [bitStreamAttach, BitStream.pos, Nat.mul_zero, Nat.zero_add]
    simp only [bitAt, List.getD_eq_getElem?_getD, List.getElem?_take]
    rw [if_pos (by omega)]

/-! ## C01 -/

/-- C01. After `BitStream_Init` on any buffer, any sequence of legal append calls that fits succeeds; the
buffer then holds exactly the requested bits in call order, followed by zeros, and `GetLength` is the number
of bits rounded up to bytes. -/
theorem C01_append_log (buf : List Byte) (count : Nat) (cs : List AppendCall) (hcap : count ≤ buf.length)
    (hlegal : ∀ c ∈ cs, c.legal) (hfit : (requestedBits cs).length ≤ 8 * count) :
    ∃ s0 s, bitStreamInit buf count = .ok s0 ∧ runAppends cs s0 = .ok (true, s) ∧
      bytesBits (s.buf.take count) =
        requestedBits cs ++ List.replicate (8 * count - (requestedBits cs).length) false ∧
      bitStreamGetLength s = ((requestedBits cs).length + 7) / 8 := by
  obtain ⟨s0, h0, he, hc, hl, hd⟩ := init_encSt hcap
  obtain ⟨s, hr, hs, hf⟩ := runAppends_appends cs hlegal s0 [] he (by rw [hc]; simpa using hfit)
  have hcount : s.count = count := hf.count.trans hc
  have := hs.bytes
  rw [hcount] at this
  exact ⟨s0, s, h0, hr, by simpa using this, by simpa using hs.length⟩

/-- The hypotheses of C01 are met by calls of every kind, at unaligned positions, filling the buffer. -/
example : ∃ (cs : List AppendCall), (∀ c ∈ cs, c.legal) ∧ (requestedBits cs).length = 8 * 13 :=
  ⟨[.bit true, .bitOne, .bitZero, .nBitZero 3, .nBitOne 9, .bits [0xA5#8, 0xF0#8] 12, .byte 0x5A#8 true,
    .byte0 0x81#8, .partialByte 5#8 3 false, .partialByte 0xFF#8 2 true, .byteArray [1#8, 2#8, 3#8] 3,
    .octets [7#8, 8#8] 2, .nBitOne 16],
   by intro c hc; simp only [List.mem_cons, List.not_mem_nil, or_false] at hc
      rcases hc with h | h | h | h | h | h | h | h | h | h | h | h | h <;> subst h <;> simp [AppendCall.legal],
   by decide⟩

/-! ## C02 -/

/-- C02, first part. From any state whose unread bits begin with `w`, any sequence of legal read calls that
consumes exactly `w.length` bits succeeds and delivers exactly the bits of `w`, each call its share; the
unread bits are then exactly the rest, and the buffer is unchanged. -/
theorem C02_reads_replay (rs : List ReadCall) (s : BitStream) (w rest : List Bool) (hlegal : ∀ c ∈ rs, c.legal)
    (hsize : w.length = readSize rs) (hs : DecSt s (w ++ rest)) :
    ∃ s', runReads rs s = .ok ((true, expectedReads rs w), s') ∧ DecSt s' rest ∧ s'.buf = s.buf ∧
      s'.count = s.count ∧ s'.pos = s.pos + readSize rs := by
  obtain ⟨s', h1, h2, h3, h4⟩ := runReads_reads rs hlegal w hsize s rest hs
  refine ⟨s', h1, h2, h3, h4, ?_⟩
  have a := hs.pos
  have b := h2.pos
  rw [List.length_append] at a
  rw [h4] at b
  omega

/-- C02, second part. Whatever sequence of append calls wrote the bits and whatever sequence of read calls of
the same total size reads them, the reads deliver the bits that were appended. -/
theorem C02_chunking_independent (buf : List Byte) (count : Nat) (cs : List AppendCall) (rs : List ReadCall)
    (hcap : count ≤ buf.length) (hl : ∀ c ∈ cs, c.legal) (hr : ∀ c ∈ rs, c.legal)
    (hfit : (requestedBits cs).length ≤ 8 * count) (hsame : readSize rs = (requestedBits cs).length) :
    ∃ s0 s s', bitStreamInit buf count = .ok s0 ∧ runAppends cs s0 = .ok (true, s) ∧
      runReads rs (bitStreamAttach s.buf count) = .ok ((true, expectedReads rs (requestedBits cs)), s') := by
  obtain ⟨s0, h0, he, hc, hlen, hd⟩ := init_encSt hcap
  obtain ⟨s, hrun, hs, hf⟩ := runAppends_appends cs hl s0 [] he (by rw [hc]; simpa using hfit)
  have hcount : s.count = count := hf.count.trans hc
  have hb := hs.bytes
  rw [hcount, List.nil_append] at hb
  have hdec := attach_decSt (buf := s.buf) (count := count) (by rw [hf.len, hlen]; exact hcap)
  rw [hb] at hdec
  obtain ⟨s', h1, _⟩ := C02_reads_replay rs _ _ _ hr hsame.symm hdec
  exact ⟨s0, s, s', h0, hrun, h1⟩

example : ∃ (rs : List ReadCall), (∀ c ∈ rs, c.legal) ∧ readSize rs = 8 * 13 :=
  ⟨[.bit, .bits 13, .byte, .partialByte 7, .octets 9, .partialByte 3],
   by intro c hc; simp only [List.mem_cons, List.not_mem_nil, or_false] at hc
      rcases hc with h | h | h | h | h | h <;> subst h <;> simp [ReadCall.legal],
   by decide⟩

/-! ## C03 -/

/-- C03. Appending more never disturbs what is already there: after a first and a second sequence of calls the
buffer begins with the bits of the first, the object has the same size, and all memory behind the `count`
bytes is unchanged. (No undefined behaviour and no failed assertion: the outcome is `ok`.) -/
theorem C03_frame (buf : List Byte) (count : Nat) (cs1 cs2 : List AppendCall) (hcap : count ≤ buf.length)
    (hl1 : ∀ c ∈ cs1, c.legal) (hl2 : ∀ c ∈ cs2, c.legal)
    (hfit : (requestedBits cs1).length + (requestedBits cs2).length ≤ 8 * count) :
    ∃ s0 s1 s2, bitStreamInit buf count = .ok s0 ∧ runAppends cs1 s0 = .ok (true, s1) ∧
      runAppends cs2 s1 = .ok (true, s2) ∧
      (bytesBits (s2.buf.take count)).take (requestedBits cs1).length = requestedBits cs1 ∧
      (bytesBits (s1.buf.take count)).take (requestedBits cs1).length = requestedBits cs1 ∧
      s2.buf.length = buf.length ∧ s2.buf.drop count = buf.drop count := by
  obtain ⟨s0, h0, he, hc, hl, hd⟩ := init_encSt hcap
  obtain ⟨s1, hr1, hs1, hf1⟩ := runAppends_appends cs1 hl1 s0 [] he (by rw [hc]; simpa using (by omega))
  have hc1 : s1.count = count := hf1.count.trans hc
  obtain ⟨s2, hr2, hs2, hf2⟩ := runAppends_appends cs2 hl2 s1 _ hs1 (by rw [hc1]; simpa using hfit)
  have hc2 : s2.count = count := hf2.count.trans hc1
  have b1 := hs1.bytes
  have b2 := hs2.bytes
  rw [hc1] at b1; rw [hc2] at b2
  refine ⟨s0, s1, s2, h0, hr1, hr2, by rw [b2]; simp, by rw [b1]; simp, ?_, ?_⟩
  · rw [hf2.len, hf1.len, hl]
  · have d1 := hf1.drop
    have d2 := hf2.drop
    rw [hc] at d1; rw [hc1] at d2
    rw [d2, d1, hd]

example : (∀ c ∈ [AppendCall.partialByte 5#8 3 false], c.legal) ∧ (∀ c ∈ [AppendCall.byteArray [9#8, 8#8] 2], c.legal) ∧
    (requestedBits [.partialByte 5#8 3 false]).length + (requestedBits [.byteArray [9#8, 8#8] 2]).length ≤ 8 * 3 := by
  refine ⟨?_, ?_, by decide⟩ <;> intro c hc <;> simp at hc <;> subst hc <;> simp [AppendCall.legal]

/-- The same for `BitStream_AppendByteArray` of one byte (excluded from `AppendCall.legal`), when the cursor is
inside a byte or another byte follows in the object. -/
theorem C03_appendByteArray_one_partial (s : BitStream) (bs : List Bool) (arr : List Byte) (hs : EncSt s bs)
    (ha : 1 ≤ arr.length) (hroom : bs.length + 8 ≤ 8 * s.count)
    (h : s.currentBit ≠ 0 ∨ s.currentByte + 1 < s.buf.length) :
    ∃ s', appendByteArray arr 1 s = .ok (true, s') ∧ EncSt s' (bs ++ bytesBits (arr.take 1)) ∧ Frame s s' :=
  appendByteArray_run hs (h.elim Or.inl (fun h => Or.inr (Or.inr h))) ha (by omega)

example : EncSt ⟨[0#8], 1, 0, 0⟩ [] := ⟨⟨by decide, by decide⟩, rfl, by decide, by
  intro i hi; have : i < 8 := by simpa using hi
  revert i; decide⟩

/-- The code violates C03 for `BitStream_AppendByteArray` of one byte into the last byte of a buffer: the bits
fit, but the byte behind the buffer is read and written. -/
theorem C03_violation_appendByteArray :
    ∃ s0, bitStreamInit [0#8] 1 = .ok s0 ∧ appendByteArray [0xAB#8] 1 s0 = .ub := ⟨_, rfl, by decide⟩

/-! ## C04 -/

/-- C04 for the functions that check: when the octets do not fit, `EncodeOctetString_no_length` and
`AppendByteArray` return FALSE and leave the stream exactly as it was. The other append functions do not
have this property, see the violations below; that is what is missing from C04. -/
theorem C04_octets_full_partial (s : BitStream) (arr : List Byte) (n : Nat) (hb : s.currentBit < 8)
    (hfull : 8 * s.count < s.pos + 8 * n) :
    encodeOctetStringNoLength arr n s = .ok (false, s) ∧ appendByteArray arr n s = .ok (false, s) := by
  refine ⟨?_, appendByteArray_full hb hfull⟩
  simp only [encodeOctetStringNoLength, getS_bind]
  have hfull' := hfull
  simp only [BitStream.pos] at hfull'
  by_cases h0 : s.currentBit = 0
  · rw [if_pos h0, if_neg (by omega)]; rfl
  · rw [if_neg h0]; exact appendByteArray_full hb hfull

example : (8 : Nat) * (⟨[1#8, 2#8], 2, 1, 3⟩ : BitStream).count < (⟨[1#8, 2#8], 2, 1, 3⟩ : BitStream).pos + 8 * 1 := by decide

/-- `BitStream_AppendByte0` inside the last byte: reports failure and touches nothing outside. -/
theorem C04_appendByte0_full_partial (s : BitStream) (v : Byte) (hwf : Wf s) (h0 : s.currentBit ≠ 0)
    (hlast : s.currentByte + 1 = s.count) :
    ∃ s', appendByte0 v s = .ok (false, s') ∧ s'.buf.length = s.buf.length ∧ s'.buf.drop s.count = s.buf.drop s.count := by
  have hb := hwf.bit
  have hcap := hwf.cap
  have hk : s.currentByte < s.buf.length := by omega
  simp only [appendByte0, getS_bind]
  rw [tblGet_bind (masksb_get (n := 8 - s.currentBit) (by omega)), bufAnd_bind hk, bufOr_bind (by simpa using hk)]
  simp only [incByte, modS_bind]
  rw [if_pos h0, if_pos (by omega)]
  refine ⟨_, rfl, by simp, ?_⟩
  simp only []
  rw [List.drop_set_of_lt (by omega), List.drop_set_of_lt (by omega)]

example : Wf ⟨[0#8, 0#8], 2, 1, 5⟩ := ⟨by decide, by decide⟩

/-- The code violates C04: with a full one-byte buffer, `BitStream_AppendBit` (and `AppendBitOne`,
`AppendByte`, `AppendByte0`, `AppendPartialByte`) write behind the buffer instead of reporting failure. -/
theorem C04_violation_write_past_end :
    ∃ s0 s, bitStreamInit [0#8] 1 = .ok s0 ∧ appendByte 0xFF#8 false s0 = .ok ((), s) ∧
      appendBit true s = .ub ∧ appendBitOne s = .ub ∧ appendByte 1#8 false s = .ub ∧ appendByte0 1#8 s = .ub ∧
      appendPartialByte 1#8 3 false s = .ub := ⟨_, _, rfl, rfl, by decide⟩

/-- Even when the object is larger than `count`, the failure is an assertion, not a reported error. -/
theorem C04_violation_assert :
    ∃ s0 s, bitStreamInit [0#8, 0#8] 1 = .ok s0 ∧ appendByte 0xFF#8 false s0 = .ok ((), s) ∧
      appendBit true s = .abort := ⟨_, _, rfl, rfl, by decide⟩

/-- `BitStream_AppendNBitZero` on a full buffer silently moves the cursor backwards, without any error: the
next append overwrites what was written. -/
theorem C04_violation_nBitZero_wraps :
    ∃ s0 s s', bitStreamInit [0#8, 0#8] 2 = .ok s0 ∧ encodeOctetStringNoLength [0xAA#8, 0xBB#8] 2 s0 = .ok (true, s) ∧
      appendNBitZero 8 s = .ok ((), s') ∧ s'.pos = 8 ∧ s.pos = 16 :=
  ⟨_, _, _, rfl, rfl, rfl, by decide, by decide⟩

/-! ## C05 -/

/-- C05 for the read functions, when one more byte behind the `count` bytes is readable: on every input and
from every position inside the buffer, every sequence of read calls completes without undefined behaviour,
leaves the buffer alone, and if it reports success the cursor is still inside. Without the extra byte the
statement is false (`C05_violation_read_past_end`); that is what is missing from C05. -/
theorem C05_reads_safe_partial (rs : List ReadCall) (hl : ∀ c ∈ rs, c.legal) (s : BitStream) (hwf : Wf s)
    (hin : s.pos ≤ 8 * s.count) (hslack : s.count + 1 ≤ s.buf.length) :
    ∃ r s', runReads rs s = .ok (r, s') ∧ s'.buf = s.buf ∧ s'.count = s.count ∧
      (r.1 = true → s'.pos ≤ 8 * s.count) := by
  obtain ⟨r, s', h1, h2, h3, h4⟩ := runReads_safe rs hl s hwf hin hslack
  exact ⟨r, s', h1, h2, h3, fun h => (h4 h).2.1⟩

example : (⟨[1#8, 2#8, 3#8], 2, 1, 7⟩ : BitStream).pos ≤ 8 * 2 ∧ (2 : Nat) + 1 ≤ [1#8, 2#8, 3#8].length := by decide

/-- The code violates C05: `BitStream_ReadBit`, `ReadPartialByte` and `PeekBit` at the end of a buffer read the
byte behind it before they check the bounds. -/
theorem C05_violation_read_past_end :
    ∃ s, readByte (bitStreamAttach [0x55#8] 1) = .ok ((true, 0x55#8), s) ∧
      readBit s = .ub ∧ readPartialByte 3 s = .ub ∧ peekBit s = .ub := ⟨_, rfl, by decide⟩

/-- `BitStream_ReadByteArray` of one byte at a byte boundary, with the byte present, reads the byte behind. -/
theorem C05_violation_readByteArray : readByteArray 1 (bitStreamAttach [0x55#8] 1) = .ub := by decide

/-! ## C06 -/

/-- C06 for every function that appends `w` (all the encoders below are of this kind): two encoder states with
the same bits written so far and the same size give the same bytes, whatever the memory contained. -/
theorem C06_encoder_deterministic {α : Type} {f : M α} {a : α} {w : List Bool} (hf : Appends f a w)
    (s1 s2 : BitStream) (bs : List Bool) (h1 : EncSt s1 bs) (h2 : EncSt s2 bs) (hc : s1.count = s2.count)
    (hroom : bs.length + w.length ≤ 8 * s1.count) :
    ∃ t1 t2, f s1 = .ok (a, t1) ∧ f s2 = .ok (a, t2) ∧ t1.buf.take s1.count = t2.buf.take s2.count := by
  obtain ⟨t1, r1, e1, f1⟩ := hf s1 bs h1 hroom
  obtain ⟨t2, r2, e2, f2⟩ := hf s2 bs h2 (by rw [← hc]; exact hroom)
  refine ⟨t1, t2, r1, r2, bytesBits_inj ?_⟩
  have b1 := e1.bytes
  have b2 := e2.bytes
  rw [f1.count] at b1
  rw [f2.count] at b2
  rw [b1, b2, hc]

/-- C06. Two buffers of any content, initialised with `BitStream_Init`: the same append calls give the same
bytes. -/
theorem C06_old_content_irrelevant (buf1 buf2 : List Byte) (count : Nat) (cs : List AppendCall)
    (h1 : count ≤ buf1.length) (h2 : count ≤ buf2.length) (hl : ∀ c ∈ cs, c.legal)
    (hfit : (requestedBits cs).length ≤ 8 * count) :
    ∃ i1 i2 s1 s2, bitStreamInit buf1 count = .ok i1 ∧ bitStreamInit buf2 count = .ok i2 ∧
      runAppends cs i1 = .ok (true, s1) ∧ runAppends cs i2 = .ok (true, s2) ∧
      s1.buf.take count = s2.buf.take count := by
  obtain ⟨i1, s1, a1, b1, c1, _⟩ := C01_append_log buf1 count cs h1 hl hfit
  obtain ⟨i2, s2, a2, b2, c2, _⟩ := C01_append_log buf2 count cs h2 hl hfit
  exact ⟨i1, i2, s1, s2, a1, a2, b1, b2, bytesBits_inj (by rw [c1, c2])⟩

example : ∃ buf1 buf2 : List Byte, buf1 ≠ buf2 ∧ 2 ≤ buf1.length ∧ 2 ≤ buf2.length :=
  ⟨[0xFF#8, 0xFF#8], [0#8, 1#8], by decide, by decide, by decide⟩

/-- Without `BitStream_Init` the old content does leak: after `BitStream_AttachBuffer` on a buffer of ones,
`AppendNBitZero` leaves the ones in place. -/
theorem C06_violation_attach :
    ∃ s1 s2, appendNBitZero 8 (bitStreamAttach [0xFF#8] 1) = .ok ((), s1) ∧
      appendNBitZero 8 (bitStreamAttach [0x00#8] 1) = .ok ((), s2) ∧ s1.buf ≠ s2.buf := ⟨_, _, rfl, rfl, by decide⟩

end Asn1
