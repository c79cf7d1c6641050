import Verif.Proof.RealFp4
import Verif.Proof.RealFp4Read
import Verif.Proof.RealFp4Nearest
import Verif.Props.Float32
/-!
# C112: REAL in the runtime compiled with `FP_WORD_SIZE` 4
-/
namespace Asn1

/-- The code of the chosen encoding has at most 7 octets. -/
theorem chosenReal4_length (f : Flt) : (chosenReal4 f).code.length ≤ 8 * 7 := by
  have := fltExp_lt f
  obtain ⟨o1, o2, -⟩ := octetsInt_real (e := (fltExp f : Int) - 150) (by omega) (by omega)
  simp only [BinaryReal.code, BinaryReal.contents, List.length_append, bitsMsb_length, twosCode, chosenReal4, List.length_cons, List.length_nil]
  omega

/-- C112 for every `float` of magnitude at least `2 ^ -104` (exponent field from 23), uPER: at most 7 octets are written, the decoder gives back
the same bits and rejects what is cut short. Missing: the smaller numbers, for which it is false (`C112_small_violation`). -/
theorem C112_roundtrip_partial (f : Flt) (h1 : FiniteFloat f) (h2 : 23 ≤ f.toNat / 2 ^ 23 % 2 ^ 8) :
    ∃ code, code.length ≤ 8 * 7 ∧ Codec (encodeReal4 f) decodeReal4 f code := by
  have hne : floatValue f ≠ 0 := by
    unfold floatValue
    dsimp only
    rw [if_neg (by omega)]
    refine mul_ne_zero (mul_ne_zero (by split <;> norm_num) (Nat.cast_ne_zero.2 (by omega))) (zpow_ne_zero _ (by norm_num))
  have hdec := chosenReal4_decoded h1
  rw [if_pos (show 23 ≤ fltExp f from h2)] at hdec
  exact ⟨_, chosenReal4_length f, codec_of (encodeReal4_appends h1 hne) (decodeReal4_reads (chosenReal4_ok f) hdec)⟩

/-- -6.5 and the largest number. -/
example : FiniteFloat 0xC0D00000#32 ∧ 23 ≤ (0xC0D00000#32 : Flt).toNat / 2 ^ 23 % 2 ^ 8 ∧ FiniteFloat 0x7F7FFFFF#32 ∧
    23 ≤ (0x7F7FFFFF#32 : Flt).toNat / 2 ^ 23 % 2 ^ 8 := by
  unfold FiniteFloat; decide

/-- C112, +0 and the infinities. -/
theorem C112_special :
    Codec (encodeReal4 0#32) decodeReal4 0#32 (bitsMsb 8 0) ∧
    Codec (encodeReal4 0x7F800000#32) decodeReal4 0x7F800000#32 (bitsMsb 8 1 ++ bitsMsb 8 0x40) ∧
    Codec (encodeReal4 0xFF800000#32) decodeReal4 0xFF800000#32 (bitsMsb 8 1 ++ bitsMsb 8 0x41) := by
  refine ⟨codec_of ?_ decodeReal4_zero, codec_of ?_ (decodeReal4_special (n := 0x40#8) (Or.inl ⟨rfl, rfl⟩)),
    codec_of ?_ (decodeReal4_special (n := 0x41#8) (Or.inr (Or.inl ⟨rfl, by decide⟩)))⟩
  · unfold encodeReal4
    rw [if_neg (by decide +kernel), if_pos (by decide +kernel)]
    exact octet_appends (n := 0) (by omega)
  · unfold encodeReal4
    rw [if_neg (by decide +kernel), if_neg (by decide +kernel), if_neg (by decide +kernel), if_pos (by decide +kernel)]
    exact (octet_appends (n := 1) (by omega)).bind (octet_appends (n := 0x40) (by omega))
  · unfold encodeReal4
    rw [if_neg (by decide +kernel), if_neg (by decide +kernel), if_neg (by decide +kernel), if_neg (by decide +kernel), if_pos (by decide +kernel)]
    exact (octet_appends (n := 1) (by omega)).bind (octet_appends (n := 0x41) (by omega))

/-- C112, what is sent, for every normal `float` (exponent field not 0): a binary encoding of X.690 that stands for the number, and a peer
whose REAL is a `double` reads the same number. Missing: subnormal numbers, for which it is false (`C112_subnormal_violation`). -/
theorem C112_value_partial (f : Flt) (h1 : FiniteFloat f) (h2 : f.toNat / 2 ^ 23 % 2 ^ 8 ≠ 0) :
    ∃ r : BinaryReal, r.Ok ∧ r.value = floatValue f ∧ Codec (encodeReal4 f) decodeReal (floatToDouble f) r.code ∧
      doubleValue (floatToDouble f) = floatValue f := by
  have hne : floatValue f ≠ 0 := by
    unfold floatValue
    dsimp only
    rw [if_neg h2]
    refine mul_ne_zero (mul_ne_zero (by split <;> norm_num) (Nat.cast_ne_zero.2 (by omega))) (zpow_ne_zero _ (by norm_num))
  have hF := fltFrac_lt f
  have hE : fltExp f ≤ 254 := by have := fltExp_lt f; unfold FiniteFloat at h1; unfold fltExp at *; omega
  have h2' : fltExp f ≠ 0 := h2
  have hM : (chosenReal4 f).mantissa * 2 ^ (chosenReal4 f).scale = 2 ^ 23 + fltFrac f := by
    show (2 ^ 23 + fltFrac f) * 2 ^ 0 = _
    rw [Nat.pow_zero, Nat.mul_one]
  have hX : (((chosenReal4 f).baseLog : Nat) : Int) * (chosenReal4 f).exponent = (fltExp f : Int) - 150 := by
    show ((1 : Nat) : Int) * ((fltExp f : Int) - 150) = _; omega
  have hdec : (chosenReal4 f).decoded = pure (floatToDouble f) := by
    rw [BinaryReal.decoded_eq (chosenReal4_ok f) (by show 0 < 2 ^ 23 + fltFrac f; omega) (by rw [hM]; omega), hM, hX]
    refine congrArg pure ?_
    rw [if_pos (by omega), exactMag_float hF (by omega) (by omega)]
    show dblMake (fltSign f) _ = _
    unfold floatToDouble
    dsimp only
    rw [if_neg h1, if_neg h2]
    show _ = dblMake (fltSign f) ((fltExp f + 896) * 2 ^ 52 + fltFrac f * 2 ^ 29)
    rw [show ((fltExp f : Int) - 150 + 1046).toNat = fltExp f + 896 by omega]
  refine ⟨chosenReal4 f, chosenReal4_ok f, ?_, codec_of (encodeReal4_appends h1 hne) (decodeReal_reads (chosenReal4_ok f) hdec),
    (C111_value f h1).2⟩
  unfold BinaryReal.value floatValue
  dsimp only
  rw [if_neg h2]
  show (if fltSign f = true then (-1 : ℚ) else 1) * ((2 ^ 23 + fltFrac f : Nat) : ℚ) * 2 ^ 0 * ((2 : ℚ) ^ 1) ^ ((fltExp f : Int) - 150) = _
  have hsg : (if fltSign f = true then (-1 : ℚ) else 1) = if f.toNat / 2 ^ 31 = 1 then -1 else 1 := by
    have hlt := f.isLt
    unfold fltSign
    by_cases hs : 2 ^ 31 ≤ f.toNat
    · rw [if_pos (by simpa using hs), if_pos (by omega)]
    · rw [if_neg (by simpa using hs), if_neg (by omega)]
  rw [hsg, pow_zero, mul_one, pow_one]
  rfl

/-- A normal number far below the limit of the round trip. -/
example : FiniteFloat 0x00800000#32 ∧ (0x00800000#32 : Flt).toNat / 2 ^ 23 % 2 ^ 8 ≠ 0 := by
  unfold FiniteFloat; decide

/-- C112 is false for every `float` below `2 ^ -104` that is not 0: the decoder gives back 0 and reports success. -/
theorem C112_small_violation (f : Flt) (h1 : FiniteFloat f) (h2 : floatValue f ≠ 0) (h3 : f.toNat / 2 ^ 23 % 2 ^ 8 < 23) :
    ∃ g code, floatValue g = 0 ∧ Codec (encodeReal4 f) decodeReal4 g code := by
  have hdec := chosenReal4_decoded h1
  rw [if_neg (by unfold fltExp; omega)] at hdec
  refine ⟨_, _, ?_, codec_of (encodeReal4_appends h1 h2) (decodeReal4_reads (chosenReal4_ok f) hdec)⟩
  cases fltSign f
  · simp [floatValue, show (fltMake false 0).toNat = 0 from rfl]
  · simp [floatValue, show (fltMake true 0).toNat = 2147483648 from rfl]

example : FiniteFloat 0x0B000000#32 ∧ floatValue 0x0B000000#32 ≠ 0 ∧ (0x0B000000#32 : Flt).toNat / 2 ^ 23 % 2 ^ 8 < 23 := by
  refine ⟨by unfold FiniteFloat; decide, ?_, by decide⟩
  simp only [floatValue, show (0x0B000000#32).toNat = 184549376 from rfl]
  norm_num

/-- C112, safety: whatever the octets are, if the header does not announce an exponent with a length octet of its own (bits 2 and 1 both set,
as C58 for `double`) and one byte behind the input is readable (`Slack`), the decoder ends without undefined behaviour, does not write into the buffer and stays inside it. Missing: the other headers
(`C112_negate_violation`, `C112_multiply_violation`) and inputs that end with the buffer (`C112_past_end_violation`). -/
theorem C112_safe_partial {s : BitStream} (hwf : Wf s) (hp : s.pos ≤ 8 * s.count) (hsl : Slack s)
    (h : bitAt s.buf (s.pos + 14) = false ∨ bitAt s.buf (s.pos + 15) = false) :
    ∃ r s', decodeReal4 s = .ok (r, s') ∧ s'.buf = s.buf ∧ s'.count = s.count ∧
      (r.1 = true → s'.currentBit < 8 ∧ s'.pos ≤ 8 * s.count ∧ s.pos ≤ s'.pos) := decodeReal4_safe hwf hp hsl h

example : ∃ s : BitStream, Wf s ∧ s.pos ≤ 8 * s.count ∧ Slack s ∧ bitAt s.buf (s.pos + 15) = false :=
  ⟨bitStreamAttach [0xFF#8, 0xFE#8, 0x81#8, 0x00#8] 3, ⟨by decide, by decide⟩, by decide, by unfold Slack; decide, by decide⟩

/-- The other headers: `exponent = -exponent` overflows (83, exponent 80 00 00 00). -/
theorem C112_negate_violation :
    decodeReal4 (bitStreamAttach [0x06#8, 0x83#8, 0x80#8, 0#8, 0#8, 0#8, 1#8, 0#8] 7) = .ub := Res.eq_ub (by decide +kernel)

/-- The other headers: `expFactor*exponent` overflows (A3: base 16, exponent 7F FF FF FF). -/
theorem C112_multiply_violation :
    decodeReal4 (bitStreamAttach [0x06#8, 0xA3#8, 0x7F#8, 0xFF#8, 0xFF#8, 0xFF#8, 1#8, 0#8] 7) = .ub :=
  Res.eq_ub (by decide +kernel)

/-- Without a readable byte behind the input, the sign of the exponent is read from outside. -/
theorem C112_past_end_violation : decodeReal4 (bitStreamAttach [0x03#8, 0x80#8] 2) = .ub := Res.eq_ub (by decide +kernel)

/-- C112, from a peer whose REAL is a `double`: every `float` of magnitude at least `2 ^ -75` (exponent field from 52) that the peer sends is
read bit for bit. Missing: the smaller numbers, for which it is false (`C112_peer_violation`). -/
theorem C112_peer_partial (f : Flt) (h1 : FiniteFloat f) (h2 : 52 ≤ f.toNat / 2 ^ 23 % 2 ^ 8) :
    ∃ code, Codec (encodeReal (floatToDouble f)) decodeReal4 f code := by
  have hne : floatValue f ≠ 0 := by
    unfold floatValue
    dsimp only
    rw [if_neg (by omega)]
    refine mul_ne_zero (mul_ne_zero (by split <;> norm_num) (Nat.cast_ne_zero.2 (by omega))) (zpow_ne_zero _ (by norm_num))
  exact ⟨_, codec_of (encodeReal_appends (floatToDouble_finNonzero h1 hne)) (decodeReal4_reads (chosenReal_ok _) (chosenReal_decoded4 h1 h2))⟩

/-- -6.5 and `2 ^ -75`. -/
example : FiniteFloat 0xC0D00000#32 ∧ 52 ≤ (0xC0D00000#32 : Flt).toNat / 2 ^ 23 % 2 ^ 8 ∧ FiniteFloat 0x1A000000#32 ∧
    52 ≤ (0x1A000000#32 : Flt).toNat / 2 ^ 23 % 2 ^ 8 := by
  unfold FiniteFloat; decide

/-- C112, from any peer: an X.690 binary encoding in whichever base, with whichever scaling factor and number of octets, whose mantissa
`N * 2 ^ F` has at most 64 bits and whose power of two is at least -127, that stands for a normal `float`, is read as that `float` bit for bit,
and refused when it is truncated. Missing: smaller powers of two (false, `C112_peer_violation`), subnormal numbers, numbers that are not a `float`,
longer mantissas. -/
theorem C112_read_partial (r : BinaryReal) (h : r.Ok) (h2 : r.mantissa * 2 ^ r.scale < 2 ^ 64)
    (h3 : -127 ≤ (r.baseLog : Int) * r.exponent) (f : Flt) (h4 : FiniteFloat f) (h5 : f.toNat / 2 ^ 23 % 2 ^ 8 ≠ 0)
    (h6 : floatValue f = r.value) : Reads decodeReal4 (true, f) r.code ∧ Short decodeReal4 r.code :=
  decodeReal4_reads h (BinaryReal.decoded4_same h2 h3 h4 h5 h6)

/-- `-5 * 2 ^ 3 * 16 ^ -2`, which is -0.15625, in two mantissa octets. -/
example : (⟨true, 2, 3, 2, -2, 2, 5⟩ : BinaryReal).Ok ∧ 5 * 2 ^ 3 < 2 ^ 64 ∧
    -127 ≤ (((⟨true, 2, 3, 2, -2, 2, 5⟩ : BinaryReal).baseLog : Nat) : Int) * -2 ∧ FiniteFloat 0xBE200000#32 ∧
    floatValue 0xBE200000#32 = (⟨true, 2, 3, 2, -2, 2, 5⟩ : BinaryReal).value := by
  refine ⟨⟨by decide, by decide, by decide, ⟨by decide, by decide, by decide⟩, by decide, by decide⟩, by decide, by decide,
    by unfold FiniteFloat; decide, ?_⟩
  rw [BinaryReal.value_eq]
  simp only [BinaryReal.baseLog, floatValue, show (0xBE200000#32).toNat = 3189768192 from rfl]
  norm_num

/-- C112, rounding: an encoding from any peer, as in `C112_read_partial` but of whichever number from `2 ^ -126` up to what still rounds to a
`float`, is read as the nearest `float`, the even one of two that are equally near. Missing: smaller powers of two (false,
`C112_peer_violation`), smaller and larger numbers, longer mantissas. -/
theorem C112_nearest_partial (r : BinaryReal) (h : r.Ok) (h2 : r.mantissa * 2 ^ r.scale < 2 ^ 64)
    (h3 : -127 ≤ (r.baseLog : Int) * r.exponent) (h4 : (2 : ℚ) ^ (-126 : ℤ) ≤ |r.value|)
    (h5 : |r.value| < (2 : ℚ) ^ (128 : ℤ) - (2 : ℚ) ^ (103 : ℤ)) :
    ∃ f, NearestFloat f r.value ∧ Reads decodeReal4 (true, f) r.code ∧ Short decodeReal4 r.code := by
  obtain ⟨f, hf, hn⟩ := BinaryReal.decoded4_nearest h2 h3 h4 h5
  exact ⟨f, hn, decodeReal4_reads h hf⟩

/-- `-16777217 * 2 ^ 3 * 16 ^ -2`, halfway between two `float`s. -/
example : (⟨true, 2, 3, 2, -2, 4, 16777217⟩ : BinaryReal).Ok ∧ 16777217 * 2 ^ 3 < 2 ^ 64 ∧
    -127 ≤ (((⟨true, 2, 3, 2, -2, 4, 16777217⟩ : BinaryReal).baseLog : Nat) : Int) * -2 ∧
    (2 : ℚ) ^ (-126 : ℤ) ≤ |(⟨true, 2, 3, 2, -2, 4, 16777217⟩ : BinaryReal).value| ∧
    |(⟨true, 2, 3, 2, -2, 4, 16777217⟩ : BinaryReal).value| < (2 : ℚ) ^ (128 : ℤ) - (2 : ℚ) ^ (103 : ℤ) := by
  refine ⟨⟨by decide, by decide, by decide, ⟨by decide, by decide, by decide⟩, by decide, by decide⟩, by decide, by decide, ?_, ?_⟩ <;>
  · rw [BinaryReal.value_eq]
    simp only [BinaryReal.baseLog]
    norm_num [abs_of_neg]

/-- C112, malformed input: contents that are too short for the exponent that the header announces are refused. -/
theorem C112_short_exponent (n : Nat) (h : Byte) (h1 : 1 ≤ n) (h2 : n ≤ 255) (h3 : 128 ≤ h.toNat) (h4 : n < 2 + h.toNat % 4) :
    Reads decodeReal4 (false, 0#32) (bitsMsb 8 n ++ bitsMsb 8 h.toNat) := by
  have e1 : bitsMsb 8 n = byteBits (BitVec.ofNat 8 n) := by
    rw [byteBits, BitVec.toNat_ofNat, Nat.mod_eq_of_lt (by omega)]
  have e2 : bitsMsb 8 h.toNat = byteBits h ++ [] := by rw [List.append_nil, byteBits]
  have hn : (BitVec.ofNat 8 n : Byte).toNat = n := by rw [BitVec.toNat_ofNat, Nat.mod_eq_of_lt (by omega)]
  have hne : (BitVec.ofNat 8 n : Byte) ≠ 0#8 := by
    intro e
    have := congrArg BitVec.toNat e
    rw [hn] at this
    simp at this
    omega
  have hh : ∀ k : Byte, k.toNat < 128 → h ≠ k := by
    intro k hk e
    subst e
    omega
  have hl : (h &&& 0x03#8).toNat = h.toNat % 4 := by
    rw [BitVec.toNat_and]
    exact Nat.and_two_pow_sub_one_eq_mod h.toNat 2
  rw [e1, e2]
  unfold decodeReal4
  refine (readByte_reads _).bind ?_
  rw [if_pos rfl, if_neg hne]
  refine (readByte_reads _).bind ?_
  rw [if_pos rfl]
  simp only [if_neg (hh 0x40#8 (by decide)), if_neg (hh 0x41#8 (by decide)), if_neg (hh 0x42#8 (by decide)), if_neg (hh 0x43#8 (by decide))]
  unfold decodeRealBinary4
  simp only [hl, hn]
  rw [if_pos (by omega)]
  exact Reads.pure _

/-- 82: three exponent octets announced, two octets left. -/
example : (1 ≤ 3 ∧ 3 ≤ 255) ∧ 128 ≤ (0x82#8 : Byte).toNat ∧ 3 < 2 + (0x82#8 : Byte).toNat % 4 := by decide

/-- -0 is read as +0. -/
theorem C112_zero_violation : Codec (encodeReal4 0x80000000#32) decodeReal4 0x00000000#32 (bitsMsb 8 0) := by
  refine codec_of ?_ decodeReal4_zero
  unfold encodeReal4
  rw [if_neg (by decide +kernel), if_pos (by decide +kernel)]
  exact octet_appends (n := 0) (by omega)

/-- The smallest `float` is sent as a number that is more than four million times as large. -/
theorem C112_subnormal_violation : ∃ r : BinaryReal, r.Ok ∧ Appends (encodeReal4 0x00000001#32) () r.code ∧
    r.value > 4000000 * floatValue 0x00000001#32 := by
  have hv : floatValue 0x00000001#32 = (2 : ℚ) ^ (-149 : ℤ) := by
    simp only [floatValue, show (0x00000001#32).toNat = 1 from rfl]
    norm_num
  refine ⟨chosenReal4 0x00000001#32, chosenReal4_ok _, encodeReal4_appends (by unfold FiniteFloat; decide) (by rw [hv]; positivity), ?_⟩
  rw [hv]
  show (1 : ℚ) * ((2 ^ 23 + 1 : Nat) : ℚ) * 2 ^ 0 * ((2 : ℚ) ^ 1) ^ (-150 : ℤ) > _
  norm_num

/-- A peer whose REAL is a `double` sends `2 ^ -80`, which is a `float`; the decoder reads 0 and reports success. -/
theorem C112_peer_violation : floatToDouble 0x17800000#32 = 0x3AF0000000000000#64 ∧ floatValue 0x17800000#32 = (2 : ℚ) ^ (-80 : ℤ) ∧
    ∃ code, Codec (encodeReal 0x3AF0000000000000#64) decodeReal4 0#32 code := by
  refine ⟨by decide +kernel, ?_, ?_⟩
  · simp only [floatValue, show (0x17800000#32).toNat = 394264576 from rfl]
    norm_num
  · have hfin : FinNonzero 0x3AF0000000000000#64 := by unfold FinNonzero; decide +kernel
    refine ⟨_, codec_of (encodeReal_appends hfin) (decodeReal4_reads (chosenReal_ok _) ?_)⟩
    have hX : (((chosenReal 0x3AF0000000000000#64).baseLog : Nat) : Int) * (chosenReal 0x3AF0000000000000#64).exponent = -132 := by decide +kernel
    have hM : (chosenReal 0x3AF0000000000000#64).mantissa * 2 ^ (chosenReal 0x3AF0000000000000#64).scale = 2 ^ 52 := by decide +kernel
    have hN : (chosenReal 0x3AF0000000000000#64).neg = false := by decide +kernel
    unfold BinaryReal.decoded4
    rw [hX, hM, hN]
    unfold getFloatByMantissaAndExp chk32
    rw [if_neg (by decide), if_neg (by decide), if_pos (by decide), pure_bind, powLoop4_one, pure_bind]
    exact congrArg pure (by decide +kernel)

end Asn1
