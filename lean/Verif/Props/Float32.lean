import Verif.Proof.Float32Nearest
import Verif.Props.Real
import Verif.Props.AcnInt
/-!
# C111: REAL in a C `float`
-/
namespace Asn1

/-- C111, the call of the encoder with a `float`: the `double` it receives is finite and is the same number. -/
theorem C111_value (f : Flt) (h : FiniteFloat f) : IsFinite (floatToDouble f) ∧ doubleValue (floatToDouble f) = floatValue f :=
  ⟨(floatToDouble_value h).1, (floatToDouble_value h).2.1⟩

/-- -6.5 and the smallest number of all. -/
example : FiniteFloat 0xC0D00000#32 ∧ FiniteFloat 0x00000001#32 ∧ floatValue 0xC0D00000#32 = -6.5 ∧ floatToDouble 0xC0D00000#32 = 0xC01A000000000000#64 ∧
    floatToDouble 0x00000001#32 = 0x36A0000000000000#64 := by
  refine ⟨by unfold FiniteFloat; decide, by unfold FiniteFloat; decide, ?_, by decide +kernel, by decide +kernel⟩
  simp only [floatValue, show (0xC0D00000#32).toNat = 3234856960 from rfl]
  norm_num

/-- C111, uPER, for every `float` that is a number other than zero, and for +0 and the infinities: what `EncodeReal` writes has at most 11
octets, `DecodeReal_fp32` reads back the same bits of the `float`, and rejects what is cut short. Missing: -0, for which it is false
(`C111_zero_violation`), and NaN, whose payload is not sent. -/
theorem C111_uper_partial (f : Flt) (h : FiniteFloat f ∧ floatValue f ≠ 0 ∨ f = 0#32 ∨ f = 0x7F800000#32 ∨ f = 0xFF800000#32) :
    ∃ code, code.length ≤ 8 * 11 ∧ Codec (encodeReal (floatToDouble f)) decodeRealFp32 f code := by
  obtain ⟨s1, s2, s3, -⟩ := C19_special
  rcases h with ⟨h1, h2⟩ | rfl | rfl | rfl
  · obtain ⟨v1, -, v3⟩ := floatToDouble_value h1
    obtain ⟨code, c1, c2⟩ := C19_partial (floatToDouble f) (v3 h2) v1
    have c3 := c2.convert doubleToFloat
    rw [floatToDouble_back (Or.inl h1)] at c3
    exact ⟨code, c1, c3⟩
  · refine ⟨_, ?_, s1.convert doubleToFloat⟩
    decide
  · refine ⟨_, ?_, s2.convert doubleToFloat⟩
    decide
  · refine ⟨_, ?_, s3.convert doubleToFloat⟩
    decide

/-- A small number whose `double` image is normal although the `float` image is not. -/
example : FiniteFloat 0x00000001#32 ∧ floatValue 0x00000001#32 ≠ 0 := by
  refine ⟨by unfold FiniteFloat; decide, ?_⟩
  simp only [floatValue, show (0x00000001#32).toNat = 1 from rfl]
  norm_num

/-- C111, ACN (IEEE754-1985-32): for every `float` except the NaNs, both byte orders, the encoder writes the four octets of the `float`, the
decoder into a `double` gives back the `double` with its value, the decoder into a `float` (`..._fp32`, `acnDecRealBig 4` and
`acnDecRealLittle 4`) gives back the `float`; what is cut short is rejected. -/
theorem C111_acn (f : Flt) (h : NumberFloat f) :
    Appends (acnEncReal32Big (floatToDouble f)) () (bytesBits (bigImage 4 f.toNat)) ∧
    Appends (acnEncReal32Little (floatToDouble f)) () (bytesBits (bigImage 4 f.toNat).reverse) ∧
    RoundTrip (acnEncReal32Big (floatToDouble f)) () acnDecReal32Big (floatToDouble f) 32 ∧
    RoundTrip (acnEncReal32Little (floatToDouble f)) () acnDecReal32Little (floatToDouble f) 32 ∧
    RoundTrip (acnEncReal32Big (floatToDouble f)) () (acnDecRealBig 4) f 32 ∧
    RoundTrip (acnEncReal32Little (floatToDouble f)) () (acnDecRealLittle 4) f 32 ∧
    RejectsTruncated (acnEncReal32Big (floatToDouble f)) () acnDecReal32Big 32 ∧
    RejectsTruncated (acnEncReal32Little (floatToDouble f)) () acnDecReal32Little 32 := by
  obtain ⟨a1, a2, r1, r2, t1, t2, -, -⟩ := C40_ieee754 4 f
  unfold acnEncReal32Big acnEncReal32Little
  rw [floatToDouble_back h]
  exact ⟨a1, a2, r1.convert floatToDouble, r2.convert floatToDouble, r1, r2, t1.convert floatToDouble, t2.convert floatToDouble⟩

example : NumberFloat 0xC0D00000#32 ∧ NumberFloat 0x80000000#32 ∧ NumberFloat 0xFF800000#32 := by
  unfold NumberFloat; decide

/-- C111, a peer with more digits, uPER: what is sent as a finite `double` below the range in which a `float` becomes infinite, and from
`2 ^ -971` on, is read as the nearest `float`, ties to even. Missing: larger numbers (`C111_large_violation`), smaller ones (C19). -/
theorem C111_nearest_partial (d : Dbl) (h1 : 52 ≤ d.toNat / 2 ^ 52 % 2 ^ 11) (h2 : IsFinite d)
    (h3 : |doubleValue d| < (2 : ℚ) ^ (128 : ℤ) - (2 : ℚ) ^ (103 : ℤ)) :
    ∃ f code, NearestFloat f (doubleValue d) ∧ code.length ≤ 8 * 11 ∧ Codec (encodeReal d) decodeRealFp32 f code := by
  obtain ⟨code, c1, c2⟩ := C19_partial d h1 h2
  exact ⟨_, code, doubleToFloat_nearest h2 h3, c1, c2.convert doubleToFloat⟩

/-- C111, ACN (IEEE754-1985-32), for a `double` with more digits: the encoders write the octets of the nearest `float`, ties to even, and the
decoders give back the `double` with the value of that `float`. -/
theorem C111_acn_nearest_partial (d : Dbl) (h2 : IsFinite d) (h3 : |doubleValue d| < (2 : ℚ) ^ (128 : ℤ) - (2 : ℚ) ^ (103 : ℤ)) :
    ∃ f, NearestFloat f (doubleValue d) ∧ doubleValue (floatToDouble f) = floatValue f ∧
      Appends (acnEncReal32Big d) () (bytesBits (bigImage 4 f.toNat)) ∧
      Appends (acnEncReal32Little d) () (bytesBits (bigImage 4 f.toNat).reverse) ∧
      RoundTrip (acnEncReal32Big d) () acnDecReal32Big (floatToDouble f) 32 ∧
      RoundTrip (acnEncReal32Little d) () acnDecReal32Little (floatToDouble f) 32 := by
  have hn := doubleToFloat_nearest h2 h3
  obtain ⟨a1, a2, r1, r2, -⟩ := C40_ieee754 4 (doubleToFloat d)
  exact ⟨doubleToFloat d, hn, (floatToDouble_value hn.1).2.1, a1, a2, r1.convert floatToDouble, r2.convert floatToDouble⟩

/-- 0.1 as a `double` meets the conditions; it is no `float`. -/
example : 52 ≤ (0x3FB999999999999A#64 : Dbl).toNat / 2 ^ 52 % 2 ^ 11 ∧ IsFinite 0x3FB999999999999A#64 ∧
    |doubleValue 0x3FB999999999999A#64| < (2 : ℚ) ^ (128 : ℤ) - (2 : ℚ) ^ (103 : ℤ) ∧
    doubleToFloat 0x3FB999999999999A#64 = 0x3DCCCCCD#32 ∧ floatToDouble 0x3DCCCCCD#32 ≠ 0x3FB999999999999A#64 := by
  refine ⟨by decide, by unfold IsFinite; decide, ?_, by decide +kernel, by decide +kernel⟩
  simp only [doubleValue, show (0x3FB999999999999A#64).toNat = 4591870180066957722 from rfl]
  norm_num

/-- C111 is false for -0: it is sent and read as +0. -/
theorem C111_zero_violation : ∃ code, Codec (encodeReal (floatToDouble 0x80000000#32)) decodeRealFp32 0x00000000#32 code := by
  exact ⟨_, C19_violation_negative_zero.convert doubleToFloat⟩

/-- A finite number that no `float` can hold, sent by a peer whose REAL is a `double`, is read as infinity, and the decoder reports success
(2 to the power 200). -/
theorem C111_large_violation : IsFinite 0x4C70000000000000#64 ∧
    ∃ code, Codec (encodeReal 0x4C70000000000000#64) decodeRealFp32 0x7F800000#32 code := by
  have hf : IsFinite 0x4C70000000000000#64 := by unfold IsFinite; decide
  refine ⟨hf, ?_⟩
  obtain ⟨code, -, c2⟩ := C19_partial 0x4C70000000000000#64 (by decide) hf
  have c3 := c2.convert doubleToFloat
  have : doubleToFloat 0x4C70000000000000#64 = 0x7F800000#32 := by decide +kernel
  rw [this] at c3
  exact ⟨code, c3⟩

end Asn1
