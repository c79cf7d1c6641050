import Verif.Proof.Real4
import Verif.Proof.Outcome
import Verif.Props.AcnStrings
import Mathlib.Tactic.Linarith
/-!
# C19, C55, C56, C57, C58, C59: REAL
-/
namespace Asn1

theorem fields_raw (d : Dbl) : dblExp d = d.toNat / 2 ^ 52 % 2 ^ 11 ∧ dblFrac d = d.toNat % 2 ^ 52 ∧
    (dblSign d = true ↔ d.toNat / 2 ^ 63 = 1) := by
  have := d.isLt
  unfold dblExp dblFrac dblSign dblMag
  refine ⟨by omega, by omega, ?_⟩
  rw [decide_eq_true_eq]
  omega

theorem finNonzero_of {d : Dbl} (h : IsFinite d) (hz : doubleValue d ≠ 0) : FinNonzero d := by
  obtain ⟨e1, e2, -⟩ := fields_raw d
  refine ⟨by rw [e1]; exact h, fun h0 => hz ?_⟩
  rw [dblMag_split] at h0
  have a : d.toNat / 2 ^ 52 % 2 ^ 11 = 0 := by omega
  have b : d.toNat % 2 ^ 52 = 0 := by omega
  unfold doubleValue
  dsimp only
  rw [if_pos a, b, Nat.cast_zero, mul_zero, zero_mul]

theorem doubleValue_ne_zero {d : Dbl} (h : FinNonzero d) : doubleValue d ≠ 0 := by
  obtain ⟨e1, e2, -⟩ := fields_raw d
  have hm := h.2
  rw [dblMag_split] at hm
  have hs : (if d.toNat / 2 ^ 63 = 1 then (-1 : ℚ) else 1) ≠ 0 := by split <;> norm_num
  unfold doubleValue
  dsimp only
  split
  · rename_i h0
    rw [e1, e2, h0] at hm
    have : d.toNat % 2 ^ 52 ≠ 0 := by omega
    exact mul_ne_zero (mul_ne_zero hs (by exact_mod_cast this)) (zpow_ne_zero _ (by norm_num))
  · exact mul_ne_zero (mul_ne_zero hs (by exact_mod_cast (by omega : 2 ^ 52 + d.toNat % 2 ^ 52 ≠ 0)))
      (zpow_ne_zero _ (by norm_num))

/-! ## C19: round trip -/

/-- C19 for every finite double of magnitude at least `2 ^ -971` (exponent field from 52): `EncodeReal` writes at most 11
octets and `DecodeReal` gives back the same bits. Missing: the smaller numbers, for which it is false
(`C19_violation_small`), and the negative zero (`C19_violation_negative_zero`). -/
theorem C19_partial (d : Dbl) (h1 : 52 ≤ d.toNat / 2 ^ 52 % 2 ^ 11) (h2 : IsFinite d) :
    ∃ code, code.length ≤ 8 * 11 ∧ Codec (encodeReal d) decodeReal d code := by
  obtain ⟨e1, -, -⟩ := fields_raw d
  have hf : FinNonzero d := ⟨by rw [e1]; exact h2, by rw [dblMag_split]; omega⟩
  have hdec := chosenReal_decoded hf
  rw [if_pos (by omega)] at hdec
  refine ⟨_, ?_, codec_of (encodeReal_appends hf) (decodeReal_reads (chosenReal_ok d) hdec)⟩
  have := dblExp_lt d
  obtain ⟨o1, o2, -⟩ := octetsInt_real (e := (dblExp d : Int) - 1075) (by omega) (by omega)
  simp only [BinaryReal.code, BinaryReal.contents, twosCode, chosenReal, List.length_append, bitsMsb_length,
    List.length_cons, List.length_nil]
  omega

/-- -1234.5 -/
example : 52 ≤ (0xC0934A0000000000#64 : Dbl).toNat / 2 ^ 52 % 2 ^ 11 ∧ IsFinite 0xC0934A0000000000#64 := by
  unfold IsFinite; decide

/-- C19 for the zero, the infinities and NaN; every NaN comes back as the same one. -/
theorem C19_special :
    Codec (encodeReal 0#64) decodeReal 0#64 (bitsMsb 8 0) ∧
    Codec (encodeReal 0x7FF0000000000000#64) decodeReal 0x7FF0000000000000#64 (bitsMsb 8 1 ++ bitsMsb 8 0x40) ∧
    Codec (encodeReal 0xFFF0000000000000#64) decodeReal 0xFFF0000000000000#64 (bitsMsb 8 1 ++ bitsMsb 8 0x41) ∧
    ∀ d : Dbl, ¬ IsFinite d → d.toNat % 2 ^ 52 ≠ 0 →
      Codec (encodeReal d) decodeReal 0x7FF8000000000000#64 (bitsMsb 8 1 ++ bitsMsb 8 0x42) := by
  refine ⟨codec_of (encodeReal_zero (by decide)) decodeReal_zero, ?_, ?_, ?_⟩
  · have := encodeReal_special (d := 0x7FF0000000000000#64) (n := 0x40) (by omega)
      (by unfold encodeReal
          rw [if_neg (by decide +kernel), if_neg (by decide +kernel), if_neg (by decide +kernel), if_pos (by decide +kernel)]
          rfl)
    exact codec_of this (decodeReal_special (n := 0x40#8) (Or.inl ⟨rfl, rfl⟩))
  · have := encodeReal_special (d := 0xFFF0000000000000#64) (n := 0x41) (by omega)
      (by unfold encodeReal
          rw [if_neg (by decide +kernel), if_neg (by decide +kernel), if_neg (by decide +kernel), if_neg (by decide +kernel),
            if_pos (by decide +kernel)]
          rfl)
    exact codec_of this (decodeReal_special (n := 0x41#8) (Or.inr (Or.inl ⟨rfl, by decide +kernel⟩)))
  · intro d h1 h2
    have hnan : dblIsNan d = true := by
      obtain ⟨e1, e2, -⟩ := fields_raw d
      unfold IsFinite at h1
      exact decide_eq_true (by rw [dblMag_split]; omega)
    have := encodeReal_special (d := d) (n := 0x42) (by omega) (by unfold encodeReal; rw [if_pos hnan]; rfl)
    exact codec_of this (decodeReal_special (n := 0x42#8) (Or.inr (Or.inr (Or.inl ⟨rfl, rfl⟩))))

/-- The code violates C19: every finite number except 0 that is smaller than `2 ^ -971` in magnitude (exponent field
below 52, all subnormal numbers among them) is encoded, accepted by the decoder, and comes back as 0. -/
theorem C19_violation_small (d : Dbl) (h1 : d.toNat / 2 ^ 52 % 2 ^ 11 < 52) (h2 : doubleValue d ≠ 0) :
    ∃ z code, doubleValue z = 0 ∧ Codec (encodeReal d) decodeReal z code := by
  obtain ⟨e1, -, -⟩ := fields_raw d
  have hf : FinNonzero d := finNonzero_of (by unfold IsFinite; omega) h2
  have hdec := chosenReal_decoded hf
  rw [if_neg (by omega)] at hdec
  refine ⟨_, _, ?_, codec_of (encodeReal_appends hf) (decodeReal_reads (chosenReal_ok d) hdec)⟩
  cases dblSign d
  · have : dblMake false 0 = 0#64 := by decide
    rw [this]; unfold doubleValue; simp
  · have : dblMake true 0 = 0x8000000000000000#64 := by decide
    rw [this]; unfold doubleValue; simp

/-- 1e-300 -/
example : (0x01A56E1FC2F8F359#64 : Dbl).toNat / 2 ^ 52 % 2 ^ 11 < 52 ∧ doubleValue 0x01A56E1FC2F8F359#64 ≠ 0 :=
  ⟨by decide, doubleValue_ne_zero (by unfold FinNonzero; decide)⟩

/-- The code violates C19: the negative zero comes back as the positive one. -/
theorem C19_violation_negative_zero : Codec (encodeReal 0x8000000000000000#64) decodeReal 0#64 (bitsMsb 8 0) :=
  codec_of (encodeReal_zero (by decide)) decodeReal_zero

/-! ## C55: the contents octets denote the value -/

theorem chosen_value (d : Dbl) : (chosenReal d).value =
    (if d.toNat / 2 ^ 63 = 1 then -1 else 1) * ((2 ^ 52 + d.toNat % 2 ^ 52 : ℕ) : ℚ) *
      (2 : ℚ) ^ (((d.toNat / 2 ^ 52 % 2 ^ 11 : ℕ) : ℤ) - 1075) := by
  obtain ⟨e1, e2, e3⟩ := fields_raw d
  unfold BinaryReal.value
  have h1 : (chosenReal d).neg = dblSign d := rfl
  have h2 : (chosenReal d).mantissa = 2 ^ 52 + dblFrac d := rfl
  have h3 : (chosenReal d).scale = 0 := rfl
  have h4 : (chosenReal d).baseLog = 1 := rfl
  have h5 : (chosenReal d).exponent = (dblExp d : ℤ) - 1075 := rfl
  rw [h1, h2, h3, h4, h5, pow_zero, pow_one, mul_one, e1, e2]
  simp only [e3]

/-- C55: for every finite double with an exponent field of at least 1 (all but the subnormal numbers) `EncodeReal` writes
the X.690 binary encoding of exactly its value. Missing: the subnormal numbers (`C55_violation_subnormal`). -/
theorem C55_partial (d : Dbl) (h1 : 1 ≤ d.toNat / 2 ^ 52 % 2 ^ 11) (h2 : IsFinite d) :
    ∃ r : BinaryReal, r.Ok ∧ r.value = doubleValue d ∧ Appends (encodeReal d) () r.code := by
  obtain ⟨e1, -, -⟩ := fields_raw d
  have hf : FinNonzero d := ⟨by rw [e1]; exact h2, by rw [dblMag_split]; omega⟩
  refine ⟨chosenReal d, chosenReal_ok d, ?_, encodeReal_appends hf⟩
  rw [chosen_value]
  unfold doubleValue
  have h0 : ¬ d.toNat / 2 ^ 52 % 2 ^ 11 = 0 := by omega
  dsimp only
  rw [if_neg h0]

/-- 0.1 -/
example : 1 ≤ (0x3FB999999999999A#64 : Dbl).toNat / 2 ^ 52 % 2 ^ 11 ∧ IsFinite 0x3FB999999999999A#64 := by
  unfold IsFinite; decide

/-- The code violates C55: for every subnormal number the encoder writes the encoding of another number. -/
theorem C55_violation_subnormal (d : Dbl) (h1 : d.toNat / 2 ^ 52 % 2 ^ 11 = 0) (h2 : d.toNat % 2 ^ 52 ≠ 0) :
    ∃ r : BinaryReal, r.Ok ∧ r.value ≠ doubleValue d ∧ Appends (encodeReal d) () r.code := by
  obtain ⟨e1, e2, -⟩ := fields_raw d
  have hf : FinNonzero d := ⟨by rw [e1]; omega, by rw [dblMag_split]; omega⟩
  refine ⟨chosenReal d, chosenReal_ok d, ?_, encodeReal_appends hf⟩
  rw [chosen_value]
  unfold doubleValue
  dsimp only
  rw [if_pos h1, h1]
  intro e
  have hs : (if d.toNat / 2 ^ 63 = 1 then (-1 : ℚ) else 1) ≠ 0 := by split <;> norm_num
  rw [mul_assoc, mul_assoc] at e
  have e' := mul_left_cancel₀ hs e
  have hp : (2 : ℚ) ^ (-1074 : ℤ) = 2 * (2 : ℚ) ^ (((0 : ℕ) : ℤ) - 1075) := by
    rw [show (-1074 : ℤ) = 1 + (((0 : ℕ) : ℤ) - 1075) by norm_num, zpow_add₀ (by norm_num)]
    norm_num
  rw [hp, ← mul_assoc] at e'
  have e'' := mul_right_cancel₀ (zpow_ne_zero _ (by norm_num)) e'
  have : 2 ^ 52 + d.toNat % 2 ^ 52 = d.toNat % 2 ^ 52 * 2 := by exact_mod_cast e''
  have hlt := Nat.mod_lt d.toNat (show 0 < 2 ^ 52 by decide)
  omega

example : (0x0000000000000001#64 : Dbl).toNat / 2 ^ 52 % 2 ^ 11 = 0 ∧ (0x0000000000000001#64 : Dbl).toNat % 2 ^ 52 ≠ 0 := by
  decide

/-! ## C56: canonical form -/

/-- C56, what holds of the canonical form: base 2, no scaling, exponent and mantissa in the least number of octets that hold
them. Missing: the mantissa is not made odd (`C56_violation`), so its octets are not the fewest for the number. -/
theorem C56_partial (d : Dbl) (h1 : IsFinite d) (h2 : doubleValue d ≠ 0) :
    ∃ r : BinaryReal, r.Ok ∧ Appends (encodeReal d) () r.code ∧ r.baseCode = 0 ∧ r.scale = 0 ∧
      (∀ n, 1 ≤ n → FitsTwos (8 * n) r.exponent → r.expOctets ≤ n) ∧ (∀ n, r.mantissa < 2 ^ (8 * n) → r.manOctets ≤ n) := by
  refine ⟨chosenReal d, chosenReal_ok d, encodeReal_appends (finNonzero_of h1 h2), rfl, rfl, ?_, ?_⟩
  · intro n hn hf
    exact (octetsInt_le_iff _ n hn).2 hf.2
  · intro n hn
    show 7 ≤ n
    have hm : 2 ^ 52 ≤ (chosenReal d).mantissa := by show 2 ^ 52 ≤ 2 ^ 52 + dblFrac d; omega
    apply Decidable.byContradiction
    intro h
    have : 2 ^ (8 * n) ≤ 2 ^ 48 := Nat.pow_le_pow_right (by omega) (by omega)
    omega

example : IsFinite 0x4008000000000000#64 ∧ doubleValue 0x4008000000000000#64 ≠ 0 :=
  ⟨by unfold IsFinite; decide, doubleValue_ne_zero (by unfold FinNonzero; decide)⟩

/-- The code violates C56: 1.0 is written with the mantissa `2 ^ 52` and the exponent -52 (09 80 CC 10 00 00 00 00 00 00)
instead of 03 80 00 01. -/
theorem C56_violation :
    Appends (encodeReal 0x3FF0000000000000#64) () (bytesBits [0x09#8, 0x80#8, 0xCC#8, 0x10#8, 0#8, 0#8, 0#8, 0#8, 0#8, 0#8]) ∧
    (∀ r : BinaryReal, r.Ok → r.Canonical →
      r.code ≠ bytesBits [0x09#8, 0x80#8, 0xCC#8, 0x10#8, 0#8, 0#8, 0#8, 0#8, 0#8, 0#8]) := by
  constructor
  · have h := encodeReal_appends (d := 0x3FF0000000000000#64) (by unfold FinNonzero; decide)
    refine h.congr ?_
    decide +kernel
  · intro r hok hc e
    have hl := congrArg List.length e
    have hoct := hok.octets
    have hlen := hok.length
    simp only [BinaryReal.code, BinaryReal.contents, twosCode, List.length_append, bitsMsb_length,
      List.length_cons, List.length_nil, bytesBits_length] at hl
    have hlast := congrArg List.getLast? e
    have hman : r.manOctets ≠ 0 := by omega
    obtain ⟨k, hk⟩ : ∃ k, 8 * r.manOctets = k + 1 := ⟨8 * r.manOctets - 1, by omega⟩
    have hlb : (bitsMsb (8 * r.manOctets) r.mantissa).getLast? = some true := by
      rw [hk]
      rw [bitsMsb_append, List.getLast?_append, bitsMsb_succ, bitsMsb_zero_width]
      have : r.mantissa.testBit 0 = true := by rw [Nat.testBit_zero, hc.2.2.1]; rfl
      rw [this]; rfl
    rw [BinaryReal.code, BinaryReal.contents, ← List.append_assoc, List.getLast?_append, hlb, Option.some_or] at hlast
    revert hlast
    decide +kernel

/-! ## C57: encodings of other implementations -/

/-- C57: `DecodeReal` reads every X.690 binary encoding (base 2, 8 or 16, any scaling factor, any number of leading zero
octets, one to three exponent octets) whose mantissa `N * 2 ^ F` has at most 64 bits and whose power of two is at least -1023
as the double nearest to the value it denotes (below the point `2 ^ 1024 - 2 ^ 970` where the nearest is an infinity), and
refuses it when it is truncated. Missing: smaller powers of two (`C57_violation_small`), longer mantissas
(`C57_violation_mantissa`), the form with an exponent length octet (`C57_violation_long_exponent`), decimal encodings
(`C57_violation_decimal`). -/
theorem C57_partial (r : BinaryReal) (h : r.Ok) (h2 : r.mantissa * 2 ^ r.scale < 2 ^ 64)
    (h3 : -1023 ≤ (r.baseLog : Int) * r.exponent) (h4 : |r.value| < (2 : ℚ) ^ (1024 : ℤ) - (2 : ℚ) ^ (970 : ℤ)) :
    ∃ d, Nearest d r.value ∧ Reads decodeReal (true, d) r.code ∧ Short decodeReal r.code := by
  obtain ⟨d, hdec, hn⟩ := BinaryReal.decoded_nearest h h2 h3 h4
  exact ⟨d, hn, decodeReal_reads h hdec⟩

/-- `-5 * 2 ^ 3 * 16 ^ -2` -/
example : (⟨true, 2, 3, 2, -2, 1, 5⟩ : BinaryReal).Ok ∧ 5 * 2 ^ 3 < 2 ^ 64 ∧
    |(⟨true, 2, 3, 2, -2, 1, 5⟩ : BinaryReal).value| < (2 : ℚ) ^ (1024 : ℤ) - (2 : ℚ) ^ (970 : ℤ) := by
  refine ⟨⟨by decide, by decide, by decide, ⟨by decide, by decide, by decide⟩, by decide, by decide⟩, by decide, ?_⟩
  refine lt_of_lt_of_le ?_ limit_lt.1
  rw [BinaryReal.abs_value]
  simp only [BinaryReal.baseLog]
  norm_num
  exact lt_of_lt_of_le (by norm_num : (5 / 32 : ℚ) < 1) (one_le_pow₀ (by norm_num))

/-- `(2 ^ 53 + 1)`, half way between two doubles -/
example : (⟨false, 0, 0, 1, 0, 7, 2 ^ 53 + 1⟩ : BinaryReal).Ok ∧
    |(⟨false, 0, 0, 1, 0, 7, 2 ^ 53 + 1⟩ : BinaryReal).value| < (2 : ℚ) ^ (1024 : ℤ) - (2 : ℚ) ^ (970 : ℤ) := by
  refine ⟨⟨by decide, by decide, by decide, ⟨by decide, by decide, by decide⟩, by decide, by decide⟩, ?_⟩
  refine lt_of_lt_of_le ?_ limit_lt.1
  rw [BinaryReal.abs_value]
  simp only [BinaryReal.baseLog]
  have : (2 : ℚ) ^ (54 : ℤ) ≤ (2 : ℚ) ^ (1023 : ℤ) := zpow_le_zpow_right₀ (by norm_num) (by norm_num)
  refine lt_of_lt_of_le ?_ this
  norm_num

/-- C57: in particular a value that some double has is read as a double with exactly that value. -/
theorem C57_exact_partial (r : BinaryReal) (h : r.Ok) (h2 : r.mantissa * 2 ^ r.scale < 2 ^ 64)
    (h3 : -1023 ≤ (r.baseLog : Int) * r.exponent) (d0 : Dbl) (h0 : IsFinite d0) (h4 : doubleValue d0 = r.value) :
    ∃ d, IsFinite d ∧ doubleValue d = r.value ∧ Reads decodeReal (true, d) r.code ∧ Short decodeReal r.code := by
  obtain ⟨d, hn, hr⟩ := C57_partial r h h2 h3 (h4 ▸ abs_doubleValue_lt h0)
  exact ⟨d, hn.1, hn.exact h0 h4, hr⟩

/-- 3.0 as `6 * 2 ^ -1` -/
example : (⟨false, 0, 0, 1, -1, 1, 6⟩ : BinaryReal).Ok ∧ IsFinite 0x4008000000000000#64 ∧
    doubleValue 0x4008000000000000#64 = (⟨false, 0, 0, 1, -1, 1, 6⟩ : BinaryReal).value := by
  refine ⟨⟨by decide, by decide, by decide, ⟨by decide, by decide, by decide⟩, by decide, by decide⟩, by unfold IsFinite; decide, ?_⟩
  rw [BinaryReal.value_eq]
  simp only [BinaryReal.baseLog]
  unfold doubleValue
  norm_num

/-- C57: a value of `2 ^ 1024 - 2 ^ 970` or more in magnitude, where IEEE 754 rounds to an infinity, becomes the infinity of
its sign. -/
theorem C57_too_large (r : BinaryReal) (h : r.Ok) (h2 : r.mantissa * 2 ^ r.scale < 2 ^ 64)
    (h4 : (2 : ℚ) ^ (1024 : ℤ) - (2 : ℚ) ^ (970 : ℤ) ≤ |r.value|) :
    Reads decodeReal (true, if r.neg then 0xFFF0000000000000#64 else 0x7FF0000000000000#64) r.code :=
  (decodeReal_reads h (BinaryReal.decoded_overflow h h2 h4)).1

/-- `3 * 8 ^ 341` -/
example : (⟨false, 1, 0, 2, 341, 1, 3⟩ : BinaryReal).Ok ∧ 3 * 2 ^ 0 < 2 ^ 64 ∧
    (2 : ℚ) ^ (1024 : ℤ) - (2 : ℚ) ^ (970 : ℤ) ≤ |(⟨false, 1, 0, 2, 341, 1, 3⟩ : BinaryReal).value| := by
  refine ⟨⟨by decide, by decide, by decide, ⟨by decide, by decide, by decide⟩, by decide, by decide⟩, by decide, ?_⟩
  refine le_trans limit_lt.2.1.le ?_
  rw [BinaryReal.abs_value]
  simp only [BinaryReal.baseLog]
  norm_num
  have h : (2 : ℚ) ^ 1024 = 2 ^ 1023 * 2 := pow_succ _ _
  have hp : (0 : ℚ) < 2 ^ 1023 := pow_pos (by norm_num) _
  rw [h]
  generalize (2 : ℚ) ^ 1023 = y at hp
  linarith

/-- C57: contents that are too short for the exponent that the header announces are refused. -/
theorem C57_short_exponent (n : Nat) (h : Byte) (h1 : 1 ≤ n) (h2 : n ≤ 255) (h3 : 128 ≤ h.toNat) (h4 : n < 2 + h.toNat % 4) :
    Reads decodeReal (false, 0#64) (bitsMsb 8 n ++ bitsMsb 8 h.toNat) := by
  have e1 : bitsMsb 8 n = byteBits (BitVec.ofNat 8 n) := by
    rw [byteBits, BitVec.toNat_ofNat, Nat.mod_eq_of_lt (by omega)]
  have e2 : bitsMsb 8 h.toNat = byteBits h ++ [] := by rw [List.append_nil, byteBits]
  have hn : (BitVec.ofNat 8 n : Byte).toNat = n := by rw [BitVec.toNat_ofNat, Nat.mod_eq_of_lt (by omega)]
  have hne : (BitVec.ofNat 8 n : Byte) ≠ 0#8 := by
    intro e
    have := congrArg BitVec.toNat e
    rw [hn] at this
    simp at this
    omega
  have hh : ∀ k : Byte, k.toNat < 128 → h ≠ k := by
    intro k hk e
    subst e
    omega
  have hl : (h &&& 0x03#8).toNat = h.toNat % 4 := by
    rw [BitVec.toNat_and]
    exact Nat.and_two_pow_sub_one_eq_mod h.toNat 2
  rw [e1, e2]
  unfold decodeReal
  refine (readByte_reads _).bind ?_
  rw [if_pos rfl, if_neg hne]
  refine (readByte_reads _).bind ?_
  rw [if_pos rfl]
  simp only [if_neg (hh 0x40#8 (by decide)), if_neg (hh 0x41#8 (by decide)), if_neg (hh 0x42#8 (by decide)), if_neg (hh 0x43#8 (by decide))]
  unfold decodeRealBinary
  simp only [hl, hn]
  rw [if_pos (by omega)]
  exact Reads.pure _

/-- 82: three exponent octets announced, two octets left. -/
example : (1 ≤ 3 ∧ 3 ≤ 255) ∧ 128 ≤ (0x82#8 : Byte).toNat ∧ 3 < 2 + (0x82#8 : Byte).toNat % 4 := by decide

/-- The code violates C57: every encoding with a power of two below -1023 is read as 0, although its value is not 0 and
for example `(2 ^ 53 - 1) * 2 ^ -1024` is far from the smallest doubles. -/
theorem C57_violation_small (r : BinaryReal) (h : r.Ok) (h1 : 0 < r.mantissa) (h2 : r.mantissa * 2 ^ r.scale < 2 ^ 53)
    (h3 : (r.baseLog : Int) * r.exponent < -1023) :
    r.value ≠ 0 ∧ Reads decodeReal (true, if r.neg then 0x8000000000000000#64 else 0#64) r.code := by
  constructor
  · rw [r.value_eq]
    have hpos : r.mantissa * 2 ^ r.scale ≠ 0 := (Nat.mul_pos h1 (Nat.two_pow_pos _)).ne'
    refine mul_ne_zero (mul_ne_zero (by split <;> norm_num) (by exact_mod_cast hpos)) (zpow_ne_zero _ (by norm_num))
  · have hdec := BinaryReal.decoded_eq h h1 h2
    rw [if_neg (by omega)] at hdec
    have hres : dblMake r.neg 0 = if r.neg then 0x8000000000000000#64 else 0#64 := by cases r.neg <;> decide
    rw [hres] at hdec
    exact (decodeReal_reads h hdec).1

example : (⟨false, 0, 0, 2, -1024, 7, 2 ^ 53 - 1⟩ : BinaryReal).Ok :=
  ⟨by decide, by decide, by decide, ⟨by decide, by decide, by decide⟩, by decide, by decide⟩

/-- The code violates C57: `2 ^ 64` with its nine mantissa octets is read as 0. -/
theorem C57_violation_mantissa :
    (⟨false, 0, 0, 1, 0, 9, 2 ^ 64⟩ : BinaryReal).Ok ∧ (⟨false, 0, 0, 1, 0, 9, 2 ^ 64⟩ : BinaryReal).value = 2 ^ 64 ∧
    Reads decodeReal (true, 0#64) (⟨false, 0, 0, 1, 0, 9, 2 ^ 64⟩ : BinaryReal).code := by
  have hok : (⟨false, 0, 0, 1, 0, 9, 2 ^ 64⟩ : BinaryReal).Ok :=
    ⟨by decide, by decide, by decide, ⟨by decide, by decide, by decide⟩, by decide, by decide⟩
  refine ⟨hok, ?_, (decodeReal_reads hok rfl).1⟩
  rw [BinaryReal.value_eq]
  simp only [BinaryReal.baseLog]
  norm_num

/-- The code violates C57: 1.0 in the form with an exponent length octet (X.690 8.5.7.4 d: 83, exponent length 01, exponent
00, mantissa 01) is refused, the exponent would be four octets for this decoder. -/
theorem C57_violation_long_exponent :
    ∃ s', decodeReal (bitStreamAttach [0x04#8, 0x83#8, 0x01#8, 0x00#8, 0x01#8] 5) = .ok ((false, 0#64), s') := ⟨_, rfl⟩

/-- The code violates C57: the decimal encoding of 12 (X.690 8.5.8: 01, then the characters 1 and 2) is read as 0. -/
theorem C57_violation_decimal :
    ∃ s', decodeReal (bitStreamAttach [0x03#8, 0x01#8, 0x31#8, 0x32#8] 4) = .ok ((true, 0#64), s') := ⟨_, rfl⟩

/-! ## C58: hostile input -/

/-- C58: whatever the input, unless the two low bits of the first contents octet are both set, `DecodeReal` completes without
undefined behaviour, stays inside the buffer and leaves it alone. Missing: the other octets (`C58_violation_negate`,
`C58_violation_multiply`), and inputs without a readable byte behind them (`C58_violation_past_end`). -/
theorem C58_partial (s : BitStream) (hwf : Wf s) (hp : s.pos ≤ 8 * s.count) (hsl : Slack s)
    (h : bitAt s.buf (s.pos + 14) = false ∨ bitAt s.buf (s.pos + 15) = false) :
    ∃ r s', decodeReal s = .ok (r, s') ∧ s'.buf = s.buf ∧ s'.count = s.count ∧
      (r.1 = true → s'.currentBit < 8 ∧ s'.pos ≤ 8 * s.count ∧ s.pos ≤ s'.pos) := decodeReal_safe hwf hp hsl h

example : ∃ s : BitStream, Wf s ∧ s.pos ≤ 8 * s.count ∧ Slack s ∧ bitAt s.buf (s.pos + 15) = false :=
  ⟨bitStreamAttach [0xFF#8, 0xFE#8, 0x81#8, 0x00#8] 3, ⟨by decide, by decide⟩, by decide, by unfold Slack; decide, by decide⟩

/-- The code violates C58: `exponent = -exponent` overflows (83, exponent 80 00 00 00). -/
theorem C58_violation_negate :
    decodeReal (bitStreamAttach [0x06#8, 0x83#8, 0x80#8, 0#8, 0#8, 0#8, 1#8, 0#8] 7) = .ub := Res.eq_ub (by decide +kernel)

/-- The code violates C58: `expFactor*exponent` overflows (A3: base 16, exponent 7F FF FF FF). -/
theorem C58_violation_multiply :
    decodeReal (bitStreamAttach [0x06#8, 0xA3#8, 0x7F#8, 0xFF#8, 0xFF#8, 0xFF#8, 1#8, 0#8] 7) = .ub :=
  Res.eq_ub (by decide +kernel)

/-- The code violates C58: at the end of the input the sign of the exponent is read from the byte behind it. -/
theorem C58_violation_past_end : decodeReal (bitStreamAttach [0x03#8, 0x80#8] 2) = .ub := Res.eq_ub (by decide +kernel)

/-! ## C59: equality of REAL -/

/-- C59: every number equals itself (also infinity; no NaN equals anything). -/
theorem C59_reflexive (d : Dbl) (h : IsFinite d ∨ d.toNat % 2 ^ 52 = 0) : asn1RealEqual d d = true := by
  have hnan : dblIsNan d = false := by
    obtain ⟨e1, e2, -⟩ := fields_raw d
    have := dblMag_split d
    have := dblFrac_lt d
    have := dblExp_lt d
    unfold IsFinite at h
    rw [← e1, ← e2] at h
    exact decide_eq_false (by omega)
  unfold asn1RealEqual
  rw [if_pos (by simp [dblEq, hnan])]

theorem C59_nan (d e : Dbl) (h : ¬ IsFinite d) (h' : d.toNat % 2 ^ 52 ≠ 0) :
    asn1RealEqual d e = false ∧ asn1RealEqual e d = false := by
  have hnan : dblIsNan d = true := by
    obtain ⟨e1, e2, -⟩ := fields_raw d
    unfold IsFinite at h
    exact decide_eq_true (by rw [dblMag_split]; omega)
  have habs : dblIsNan (dblAbs d) = true := by
    unfold dblIsNan at hnan ⊢
    rw [dblAbs_eq, dblMag_make _ (dblMag_lt d)]; exact hnan
  have hn : dblIsNan dblNan = true := by decide +kernel
  constructor
  · simp [asn1RealEqual, dblEq, dblLt, dblLe, dblDiv, hnan, habs, hn]
  · simp [asn1RealEqual, dblEq, dblLt, dblLe, dblDiv, hnan, habs, hn]

example : ¬ IsFinite 0x7FF8000000000000#64 ∧ (0x7FF8000000000000#64 : Dbl).toNat % 2 ^ 52 ≠ 0 := by
  unfold IsFinite; decide

/-- 0 divided by anything, and infinity as a divisor, are never near 1. -/
theorem div_zero_small {b : Dbl} (hb : dblMag b ≠ 0) : dblLe 0x3FEFFFEB074A771D#64 (dblDiv (dblAbs 0#64) (dblAbs b)) = false := by
  have hs : dblSign (dblAbs b) = false := by rw [dblAbs_eq, dblSign_make _ (dblMag_lt b)]
  have hm : dblMag (dblAbs b) = dblMag b := by rw [dblAbs_eq, dblMag_make _ (dblMag_lt b)]
  have hz : dblAbs 0#64 = 0#64 := by decide
  rw [hz]
  unfold dblDiv
  rw [show dblIsNan 0#64 = false by decide +kernel, show dblIsInf 0#64 = false by decide +kernel,
    show dblSign 0#64 = false by decide +kernel, hs, hm]
  have h0 : dblMag 0#64 = 0 := by decide
  split
  · decide +kernel
  · rw [if_neg (by simp)]
    split
    · decide +kernel
    · decide +kernel

theorem dblEq_comm (a b : Dbl) : dblEq a b = dblEq b a := by
  unfold dblEq
  rw [Bool.and_comm (!dblIsNan a), decide_eq_decide.2 (eq_comm (a := dblKey a))]

theorem dblAbs_key (a : Dbl) : dblKey (dblAbs a) = (dblMag a : Int) := by
  unfold dblKey
  rw [dblAbs_eq, dblSign_make _ (dblMag_lt a), dblMag_make _ (dblMag_lt a)]
  rfl

theorem dblAbs_nan (a : Dbl) : dblIsNan (dblAbs a) = dblIsNan a := by
  unfold dblIsNan
  rw [dblAbs_eq, dblMag_make _ (dblMag_lt a)]

/-- C59: the comparison does not depend on the order of its arguments. -/
theorem C59_symmetric (a b : Dbl) : asn1RealEqual a b = asn1RealEqual b a := by
  by_cases ha : dblIsNan a = true
  · obtain ⟨e1, e2, -⟩ := fields_raw a
    have hm := ha
    rw [dblIsNan, decide_eq_true_eq] at hm
    have := dblMag_split a
    have := dblFrac_lt a
    have := dblExp_lt a
    obtain ⟨h1, h2⟩ := C59_nan a b (by unfold IsFinite; omega) (by omega)
    rw [h1, h2]
  by_cases hb : dblIsNan b = true
  · obtain ⟨e1, e2, -⟩ := fields_raw b
    have hm := hb
    rw [dblIsNan, decide_eq_true_eq] at hm
    have := dblMag_split b
    have := dblFrac_lt b
    have := dblExp_lt b
    obtain ⟨h1, h2⟩ := C59_nan b a (by unfold IsFinite; omega) (by omega)
    rw [h1, h2]
  have ha' : dblIsNan a = false := by simpa using ha
  have hb' : dblIsNan b = false := by simpa using hb
  have hz : dblIsNan 0#64 = false := by decide +kernel
  by_cases hab : dblKey a = dblKey b
  · unfold asn1RealEqual
    rw [if_pos (by simp [dblEq, ha', hb', hab]), if_pos (by simp [dblEq, ha', hb', hab])]
  have hk0 := key_zero.1
  have n1 : dblEq a b = false := by simp [dblEq, hab]
  have n2 : dblEq b a = false := by rw [dblEq_comm]; exact n1
  have l0 : ∀ x, dblIsNan x = false → dblLt 0#64 x = decide (0 < dblKey x) := fun x hx => by
    simp [dblLt, hx, hz, hk0]
  have l1 : ∀ x, dblIsNan x = false → dblLt x 0#64 = decide (dblKey x < 0) := fun x hx => by
    simp [dblLt, hx, hz, hk0]
  have l2 : ∀ x y, dblIsNan x = false → dblIsNan y = false →
      dblLt (dblAbs x) (dblAbs y) = decide (dblMag x < dblMag y) := fun x y hx hy => by
    simp [dblLt, hx, hy, dblAbs_key, dblAbs_nan]
  have q0 : ∀ x, dblIsNan x = false → dblEq x 0#64 = decide (dblKey x = 0) := fun x hx => by
    simp [dblEq, hx, hz, hk0]
  have key0 : ∀ x, dblKey x = 0 ↔ dblMag x = 0 := fun x => by unfold dblKey; split <;> omega
  have absz : ∀ x, dblMag x = 0 → dblAbs x = dblAbs 0#64 := fun x hx => by
    rw [dblAbs_eq, dblAbs_eq, hx, show dblMag 0#64 = 0 by decide]
  unfold asn1RealEqual
  simp only [n1, n2, Bool.false_eq_true, if_false]
  rw [q0 a ha', q0 b hb', l0 a ha', l0 b hb', l1 a ha', l1 b hb',
    l2 b a hb' ha', l2 a b ha' hb']
  by_cases a0 : dblKey a = 0
  · have b0 : dblKey b ≠ 0 := fun h => hab (a0.trans h.symm)
    have am := (key0 a).1 a0
    have bm : dblMag b ≠ 0 := fun h => b0 ((key0 b).2 h)
    have hdiv := div_zero_small bm
    rw [← absz a am] at hdiv
    simp only [a0, b0, decide_true, if_true, decide_false, Bool.false_eq_true, if_false, Int.lt_irrefl, Bool.false_and,
      Bool.and_false, Bool.or_false, am, show 0 < dblMag b by omega, hdiv, Nat.not_lt_zero]
  · by_cases b0 : dblKey b = 0
    · have bm := (key0 b).1 b0
      have am : dblMag a ≠ 0 := fun h => a0 ((key0 a).2 h)
      have hdiv := div_zero_small am
      rw [← absz b bm] at hdiv
      simp only [a0, b0, decide_true, if_true, decide_false, Bool.false_eq_true, if_false, Int.lt_irrefl, Bool.false_and,
        Bool.and_false, Bool.or_false, bm, show 0 < dblMag a by omega, hdiv, Nat.not_lt_zero]
    · simp only [a0, b0, decide_false, Bool.false_eq_true, if_false]
      have hsw : ((decide (0 < dblKey a) && decide (dblKey b < 0)) || (decide (dblKey a < 0) && decide (0 < dblKey b)))
          = ((decide (0 < dblKey b) && decide (dblKey a < 0)) || (decide (dblKey b < 0) && decide (0 < dblKey a))) := by
        rw [Bool.or_comm, Bool.and_comm, Bool.and_comm (decide (0 < dblKey a))]
      rw [hsw]
      by_cases hop : ((decide (0 < dblKey b) && decide (dblKey a < 0)) || (decide (dblKey b < 0) && decide (0 < dblKey a))) = true
      · rw [if_pos hop, if_pos hop]
      · rw [if_neg hop, if_neg hop]
        have hm : dblMag a ≠ dblMag b := by
          intro e
          apply hop
          simp only [Bool.or_eq_true, Bool.and_eq_true, decide_eq_true_eq]
          unfold dblKey at hab a0 b0 ⊢
          split at hab <;> split at hab <;> simp_all <;> omega
        by_cases hlt : dblMag b < dblMag a
        · rw [decide_eq_true hlt, decide_eq_false (by omega), if_pos rfl, if_neg (by simp)]
        · rw [decide_eq_false hlt, decide_eq_true (by omega), if_pos rfl, if_neg (by simp)]

/-- The code violates C59: 1.0 equals 0.999992, which equals 0.999984, which does not equal 1.0. -/
theorem C59_violation :
    asn1RealEqual 0x3FF0000000000000#64 0x3FEFFFEF39085F4A#64 = true ∧
    asn1RealEqual 0x3FEFFFEF39085F4A#64 0x3FEFFFDE7210BE94#64 = true ∧
    asn1RealEqual 0x3FF0000000000000#64 0x3FEFFFDE7210BE94#64 = false := by decide +kernel

end Asn1
