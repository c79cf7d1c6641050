import Verif.Proof.AcnAscii
import Verif.Proof.RoundTrip
import Verif.Proof.Calls
/-!
# C22, C23: integers as BCD and ASCII digits

`decDigits n v` (Verif.Spec.Digits): the `n` low decimal digits of `v`, most significant first; `decLen v`: how many
digits `v` has; `NoEarly term str`: the terminator does not begin inside the text.
-/
namespace Asn1

/-! ## C22 -/

/-- C22, constant size: every value below `10^n`, every size up to the 100 nibbles the encoder supports. The code is the
`n` digits, four bits each. -/
theorem C22_bcd_const_size (v : U64) (n : Nat) (hn : n ≤ 100) (h : v.toNat < 10 ^ n) :
    Appends (acnEncBcdConstSize v n) () ((decDigits n v.toNat).flatMap (bitsMsb 4)) ∧
    RoundTrip (acnEncBcdConstSize v n) () (acnDecBcdConstSize n) v (4 * n) ∧
    RejectsTruncated (acnEncBcdConstSize v n) () (acnDecBcdConstSize n) (4 * n) := by
  obtain ⟨r, s⟩ := acnDecBcdConstSize_reads h
  have a := acnEncBcdConstSize_appends hn h
  refine ⟨a, ?_, ?_⟩
  · have := roundTrip_of a r; rwa [bcdCode_length] at this
  · have := rejectsTruncated_of a s; rwa [bcdCode_length] at this

example : (1234#64).toNat < 10 ^ 6 ∧ decDigits 6 1234 = [0, 0, 1, 2, 3, 4] := by decide

/-- C22, length embedded, for values of at most 16 digits. Missing: larger values, which the decoder rejects
(`C22_violation_length_embedded`). -/
theorem C22_bcd_length_embedded_partial (v : U64) (h : v.toNat < 10 ^ 16) :
    Appends (acnEncBcdLengthEmbedded v) ()
      (bitsMsb 8 (decLen v.toNat) ++ (decDigits (decLen v.toNat) v.toNat).flatMap (bitsMsb 4)) ∧
    RoundTrip (acnEncBcdLengthEmbedded v) () acnDecBcdLengthEmbedded v (8 + 4 * decLen v.toNat) ∧
    RejectsTruncated (acnEncBcdLengthEmbedded v) () acnDecBcdLengthEmbedded (8 + 4 * decLen v.toNat) := by
  obtain ⟨r, s⟩ := acnDecBcdLengthEmbedded_reads h
  have a := acnEncBcdLengthEmbedded_appends v
  refine ⟨a, ?_, ?_⟩
  · have := roundTrip_of a r; rwa [List.length_append, bitsMsb_length, bcdCode_length] at this
  · have := rejectsTruncated_of a s; rwa [List.length_append, bitsMsb_length, bcdCode_length] at this

example : (9999999999999999#64).toNat < 10 ^ 16 := by decide
example : decLen 507 = 3 := by rw [decLen_pos (by omega), decLen_pos (by omega), decLen_pos (by omega), decLen_zero]

/-- The code violates C22: every value of 17 to 20 digits is encoded, and the decoder then returns FALSE. -/
theorem C22_violation_length_embedded (v : U64) (h : 10 ^ 16 ≤ v.toNat) (s : BitStream) (bs : List Bool) (hs : EncSt s bs)
    (hroom : bs.length + (8 + 4 * decLen v.toNat) ≤ 8 * s.count) :
    ∃ s', acnEncBcdLengthEmbedded v s = .ok ((), s') ∧
      ∃ t, acnDecBcdLengthEmbedded { s' with currentByte := s.currentByte, currentBit := s.currentBit } = .ok ((false, 0#64), t) := by
  have a := acnEncBcdLengthEmbedded_appends v
  have hlen : ¬ decLen v.toNat ≤ 16 := fun hc => by have := (decLen_le_iff 16 _).1 hc; omega
  have h20 := decLen_u64 v
  have hr : Reads acnDecBcdLengthEmbedded (false, 0#64) (bitsMsb 8 (decLen v.toNat)) := by
    obtain ⟨r1, _⟩ := byteLen_reads (n := decLen v.toNat) (by omega)
    unfold acnDecBcdLengthEmbedded
    rw [← List.append_nil (bitsMsb _ _)]
    refine r1.bind ?_
    have e : (BitVec.ofNat 8 (decLen v.toNat)).toNat = decLen v.toNat := by rw [BitVec.toNat_ofNat]; omega
    rw [if_pos rfl]; dsimp only; rw [e, if_pos (by omega)]
    exact Reads.pure _
  have hl : (bitsMsb 8 (decLen v.toNat) ++ bcdCode (decLen v.toNat) v.toNat).length = 8 + 4 * decLen v.toNat := by
    rw [List.length_append, bitsMsb_length, bcdCode_length]
  obtain ⟨s', e, hs', f⟩ := a s bs hs (by rw [hl]; exact hroom)
  refine ⟨s', e, ?_⟩
  have hp : 8 * s.currentByte + s.currentBit = bs.length := hs.pos
  obtain ⟨rest, hd⟩ := decSt_exists (s := { s' with currentByte := s.currentByte, currentBit := s.currentBit })
    ⟨hs.wf.bit, hs'.wf.cap⟩ (by simp only [BitStream.pos, f.count]; omega)
  have hp' : 8 * s.currentByte + s.currentBit + rest.length = 8 * s'.count := hd.pos
  have hc := f.count
  have hpre : rest = bitsMsb 8 (decLen v.toNat) ++ rest.drop 8 := by
    rw [← List.take_append_drop 8 rest]
    congr 1
    · apply List.ext_getElem?
      intro i
      by_cases hi : i < 8
      · have h1 := hd.bits i (by omega)
        have h2 := hs'.bits (bs.length + i) (by omega)
        rw [show ({ s' with currentByte := s.currentByte, currentBit := s.currentBit } : BitStream).pos = bs.length from hp] at h1
        rw [h1, List.getElem?_append_right (by omega), Nat.add_sub_cancel_left,
          List.getElem?_append_left (by rw [bitsMsb_length]; exact hi)] at h2
        rw [List.getElem?_take_of_lt hi]
        rw [List.getElem?_eq_getElem (by omega), List.getElem?_eq_getElem (by rw [bitsMsb_length]; exact hi)] at h2 ⊢
        simpa using h2
      · rw [List.getElem?_eq_none (by rw [List.length_take]; omega), List.getElem?_eq_none (by rw [bitsMsb_length]; omega)]
    · simp
  rw [hpre] at hd
  obtain ⟨t, ht, _⟩ := hr _ _ hd
  exact ⟨t, ht⟩

example : 10 ^ 16 ≤ (12345678901234567890#64).toNat := by decide

/-- C22, null terminated: every value. The terminator is the nibble 15. -/
theorem C22_bcd_null_terminated (v : U64) :
    Appends (acnEncBcdNullTerminated v) ()
      ((decDigits (decLen v.toNat) v.toNat).flatMap (bitsMsb 4) ++ [true, true, true, true]) ∧
    RoundTrip (acnEncBcdNullTerminated v) () acnDecBcdNullTerminated v (4 * decLen v.toNat + 4) ∧
    RejectsTruncated (acnEncBcdNullTerminated v) () acnDecBcdNullTerminated (4 * decLen v.toNat + 4) := by
  obtain ⟨r, s⟩ := acnDecBcdNullTerminated_reads v
  have a := acnEncBcdNullTerminated_appends v
  refine ⟨a, ?_, ?_⟩
  · have := roundTrip_of a r; rwa [List.length_append, bitsMsb_length, bcdCode_length] at this
  · have := rejectsTruncated_of a s; rwa [List.length_append, bitsMsb_length, bcdCode_length] at this

/-- The BCD decoders are safe on any input: they always end, and never read outside the buffer. -/
theorem C22_decoders_safe (n : Nat) :
    Safe (acnDecBcdConstSize n) ∧ Safe acnDecBcdLengthEmbedded ∧ Safe acnDecBcdNullTerminated :=
  ⟨bcdDecLoop_safe n _, acnDecBcdLengthEmbedded_safe, acnDecBcdNullTerminated_safe⟩

/-- Two different messages decode to the same value: the constant size decoder accepts nibbles above 9, here `0A` = 10. -/
theorem C22_bcd_not_canonical : ∃ s1 s2,
    acnDecBcdConstSize 2 (bitStreamAttach [0x0A#8] 1) = .ok ((true, 10#64), s1) ∧
    acnDecBcdConstSize 2 (bitStreamAttach [0x10#8] 1) = .ok ((true, 10#64), s2) := ⟨_, _, rfl, rfl⟩

/-! ## C23 -/

/-- C23, unsigned, constant size: every value below `10^n`, every size up to the 100 characters the encoder supports. -/
theorem C23_uint_const_size (v : U64) (n : Nat) (hn : n ≤ 100) (h : v.toNat < 10 ^ n) :
    Appends (acnEncUIntAsciiConstSize v n) () (bytesBits ((decDigits n v.toNat).map fun d => BitVec.ofNat 8 (48 + d))) ∧
    RoundTrip (acnEncUIntAsciiConstSize v n) () (acnDecUIntAsciiConstSize n) v (8 * n) ∧
    RejectsTruncated (acnEncUIntAsciiConstSize v n) () (acnDecUIntAsciiConstSize n) (8 * n) := by
  obtain ⟨r, s⟩ := acnDecUIntAsciiConstSize_reads h
  have a := acnEncUIntAsciiConstSize_appends hn h
  refine ⟨a, ?_, ?_⟩
  · have := roundTrip_of a r; rwa [bytesBits_length, digitChars_length] at this
  · have := rejectsTruncated_of a s; rwa [bytesBits_length, digitChars_length] at this

example : (18446744073709551615#64).toNat < 10 ^ 20 ∧
    (decDigits 4 507).map (fun d => BitVec.ofNat 8 (48 + d)) = [48#8, 53#8, 48#8, 55#8] := by decide

/-- C23, signed, constant size (`n` digits and the sign): every value whose magnitude is below `10^n`, except `-2^63`
(see `C23_violation_min`). -/
theorem C23_sint_const_size_partial (v : Int) (n : Nat) (hn : n ≤ 100) (h1 : -(2 ^ 63) < v) (h2 : v < 2 ^ 63)
    (h : v.natAbs < 10 ^ n) :
    Appends (acnEncSIntAsciiConstSize v (n + 1 : Nat)) () (bytesBits (signChar v :: digitChars n v.natAbs)) ∧
    RoundTrip (acnEncSIntAsciiConstSize v (n + 1 : Nat)) () (acnDecSIntAsciiConstSize (n + 1 : Nat)) v (8 * (n + 1)) ∧
    RejectsTruncated (acnEncSIntAsciiConstSize v (n + 1 : Nat)) () (acnDecSIntAsciiConstSize (n + 1 : Nat)) (8 * (n + 1)) := by
  obtain ⟨r, s⟩ := acnDecSIntAsciiConstSize_reads h1 h2 h
  have a := acnEncSIntAsciiConstSize_appends h1 h2 hn h
  refine ⟨a, ?_, ?_⟩
  · have := roundTrip_of a r; rwa [bytesBits_length, List.length_cons, digitChars_length] at this
  · have := rejectsTruncated_of a s; rwa [bytesBits_length, List.length_cons, digitChars_length] at this

example : (-507 : Int).natAbs < 10 ^ 4 ∧ signChar (-507) :: digitChars 4 507 = [45#8, 48#8, 53#8, 48#8, 55#8] := by decide

/-- C23, unsigned, length embedded: every value. -/
theorem C23_uint_length_embedded (v : U64) :
    Appends (acnEncUIntAsciiLengthEmbedded v) ()
      (bitsMsb 8 (printLen v.toNat) ++ bytesBits (digitChars (printLen v.toNat) v.toNat)) ∧
    RoundTrip (acnEncUIntAsciiLengthEmbedded v) () acnDecUIntAsciiLengthEmbedded v (8 + 8 * printLen v.toNat) ∧
    RejectsTruncated (acnEncUIntAsciiLengthEmbedded v) () acnDecUIntAsciiLengthEmbedded (8 + 8 * printLen v.toNat) := by
  obtain ⟨r, s⟩ := acnDecUIntAsciiLengthEmbedded_reads v
  have a := acnEncUIntAsciiLengthEmbedded_appends v
  refine ⟨a, ?_, ?_⟩
  · have := roundTrip_of a r; rwa [List.length_append, bitsMsb_length, bytesBits_length, digitChars_length] at this
  · have := rejectsTruncated_of a s; rwa [List.length_append, bitsMsb_length, bytesBits_length, digitChars_length] at this

/-- C23, signed, length embedded: every value except `-2^63`. -/
theorem C23_sint_length_embedded_partial (v : Int) (h1 : -(2 ^ 63) < v) (h2 : v < 2 ^ 63) :
    Appends (acnEncSIntAsciiLengthEmbedded v) ()
      (bitsMsb 8 (printLen v.natAbs + 1) ++ bytesBits (signChar v :: digitChars (printLen v.natAbs) v.natAbs)) ∧
    RoundTrip (acnEncSIntAsciiLengthEmbedded v) () acnDecSIntAsciiLengthEmbedded v (8 + 8 * (printLen v.natAbs + 1)) ∧
    RejectsTruncated (acnEncSIntAsciiLengthEmbedded v) () acnDecSIntAsciiLengthEmbedded (8 + 8 * (printLen v.natAbs + 1)) := by
  obtain ⟨r, s⟩ := acnDecSIntAsciiLengthEmbedded_reads h1 h2
  have a := acnEncSIntAsciiLengthEmbedded_appends h1 h2
  refine ⟨a, ?_, ?_⟩
  · have := roundTrip_of a r; rwa [List.length_append, bitsMsb_length, bytesBits_length, List.length_cons, digitChars_length] at this
  · have := rejectsTruncated_of a s; rwa [List.length_append, bitsMsb_length, bytesBits_length, List.length_cons, digitChars_length] at this

/-- C23, unsigned, null terminated: every value and every terminator of 1 to 10 bytes that does not begin inside the
number (in particular each that does not start with a digit, `C23_terminator`). Missing: longer terminators, see
`C23_violation_long_terminator`. -/
theorem C23_uint_null_terminated_partial (v : U64) (nul : List Byte) (hn : nul ≠ []) (h10 : nul.length ≤ 10)
    (hne : NoEarly nul (digitChars (printLen v.toNat) v.toNat)) :
    Appends (acnEncUIntAsciiNullTerminated v nul) () (bytesBits (digitChars (printLen v.toNat) v.toNat ++ nul)) ∧
    RoundTrip (acnEncUIntAsciiNullTerminated v nul) () (acnDecUIntAsciiNullTerminated nul) v (8 * (printLen v.toNat + nul.length)) ∧
    RejectsTruncated (acnEncUIntAsciiNullTerminated v nul) () (acnDecUIntAsciiNullTerminated nul) (8 * (printLen v.toNat + nul.length)) := by
  obtain ⟨r, s⟩ := acnDecUIntAsciiNullTerminated_reads hn h10 hne
  have a := acnEncUIntAsciiNullTerminated_appends v nul
  refine ⟨a, ?_, ?_⟩
  · have := roundTrip_of a r; rwa [bytesBits_length, List.length_append, digitChars_length] at this
  · have := rejectsTruncated_of a s; rwa [bytesBits_length, List.length_append, digitChars_length] at this

/-- C23, signed, null terminated: every value except `-2^63`, terminators as above. -/
theorem C23_sint_null_terminated_partial (v : Int) (h1 : -(2 ^ 63) < v) (h2 : v < 2 ^ 63) (nul : List Byte) (hn : nul ≠ [])
    (h10 : nul.length ≤ 10) (hne : NoEarly nul (digitChars (printLen v.natAbs) v.natAbs)) :
    Appends (acnEncSIntAsciiNullTerminated v nul) ()
      (bytesBits (signChar v :: (digitChars (printLen v.natAbs) v.natAbs ++ nul))) ∧
    RoundTrip (acnEncSIntAsciiNullTerminated v nul) () (acnDecSIntAsciiNullTerminated nul) v
      (8 * (printLen v.natAbs + nul.length + 1)) ∧
    RejectsTruncated (acnEncSIntAsciiNullTerminated v nul) () (acnDecSIntAsciiNullTerminated nul)
      (8 * (printLen v.natAbs + nul.length + 1)) := by
  obtain ⟨r, s⟩ := acnDecSIntAsciiNullTerminated_reads h1 h2 hn h10 hne
  have a := acnEncSIntAsciiNullTerminated_appends h1 h2 nul
  refine ⟨a, ?_, ?_⟩
  · have := roundTrip_of a r; rwa [bytesBits_length, List.length_cons, List.length_append, digitChars_length] at this
  · have := rejectsTruncated_of a s; rwa [bytesBits_length, List.length_cons, List.length_append, digitChars_length] at this

/-- The terminator condition holds whenever the first byte of the terminator is not a digit. -/
theorem C23_terminator (c : Byte) (t : List Byte) (h : c.toNat < 48 ∨ 57 < c.toNat) (n v : Nat) :
    NoEarly (c :: t) (digitChars n v) := noEarly_digits h n v

example : NoEarly [0#8] (digitChars 3 507) ∧ NoEarly [13#8, 10#8] (digitChars 3 507) :=
  ⟨C23_terminator _ _ (by decide) _ _, C23_terminator _ _ (by decide) _ _⟩

/-- The code violates C23 for `-2^63`, whose magnitude has no signed representation: the encoders negate it. -/
theorem C23_violation_min : ∃ s0, bitStreamInit (List.replicate 30 0#8) 30 = .ok s0 ∧
    acnEncSIntAsciiConstSize (-(2 ^ 63)) 20 s0 = .ub ∧ acnEncSIntAsciiLengthEmbedded (-(2 ^ 63)) s0 = .ub ∧
    acnEncSIntAsciiNullTerminated (-(2 ^ 63)) [0#8] s0 = .ub := ⟨_, rfl, by decide, by decide, by decide⟩

/-- The text `-9223372036854775808`. -/
def minText : List Byte := [45#8, 57#8, 50#8, 50#8, 51#8, 51#8, 55#8, 50#8, 48#8, 51#8, 54#8, 56#8, 53#8, 52#8, 55#8, 55#8, 53#8, 56#8, 48#8, 56#8]

/-- The same value in the input makes the signed decoders overflow, so input alone causes undefined behaviour. -/
theorem C23_violation_min_decode :
    acnDecSIntAsciiConstSize 20 (bitStreamAttach minText 20) = .ub ∧
    acnDecSIntAsciiNullTerminated [0#8] (bitStreamAttach (minText ++ [0#8]) 21) = .ub := ⟨by decide +kernel, by decide +kernel⟩

/-- Malformed text makes the decoders abort (`assert`) instead of returning FALSE: a letter in place of a digit, and a
digit in place of the sign. -/
theorem C23_violation_malformed_aborts :
    acnDecUIntAsciiConstSize 1 (bitStreamAttach [65#8, 0#8] 1) = .abort ∧
    acnDecSIntAsciiConstSize 2 (bitStreamAttach [49#8, 49#8, 0#8] 2) = .abort ∧
    acnDecSIntAsciiNullTerminated [0#8] (bitStreamAttach [49#8, 0#8, 0#8] 2) = .abort := ⟨by decide, by decide, by decide⟩

/-- The code violates C23 for a terminator of 11 bytes: the decoder compares only 10 and leaves the last one unread, so
whatever follows is misread. -/
theorem C23_violation_long_terminator : ∃ s0 s1 t,
    bitStreamInit (List.replicate 12 0xFF#8) 12 = .ok s0 ∧
    acnEncUIntAsciiNullTerminated 7#64 (List.replicate 11 0x20#8) s0 = .ok ((), s1) ∧ s1.pos = 96 ∧
    acnDecUIntAsciiNullTerminated (List.replicate 11 0x20#8) (bitStreamAttach s1.buf 12) = .ok ((true, 7#64), t) ∧ t.pos = 88 :=
  ⟨⟨List.replicate 12 0#8, 12, 0, 0⟩, ⟨55#8 :: List.replicate 11 0x20#8, 12, 12, 0⟩, ⟨55#8 :: List.replicate 11 0x20#8, 12, 11, 0⟩,
   by decide +kernel, by decide +kernel, rfl, by decide +kernel, rfl⟩

/-- The unsigned null terminated decoder is safe on any input, for every terminator; it takes any characters as digits. -/
theorem C23_uint_null_terminated_safe (nul : List Byte) : Safe (acnDecUIntAsciiNullTerminated nul) :=
  acnDecUIntAsciiNullTerminated_safe nul

end Asn1
