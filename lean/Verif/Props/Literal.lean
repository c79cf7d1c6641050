import Verif.Proof.Literal
/-!
# C108: the literals of an ASN.1 file stand for the values that X.680 gives them
-/
namespace Asn1

/-- `'…'B` stands for its bits: blanks and line breaks do not count, the order is that of the text. -/
theorem C108_bits {body : List Char} {l : List Bool} (h : BText body l) : bitLiteral ('\'' :: body ++ ['\'', 'B']) = l := h.bits 'B'

example : BText "01 1".toList [false, true, true] := .zero (.one (.blank (by decide) (.one .nil)))
example : bitLiteral "'01 1\n0'B".toList = [false, true, true, false] := by decide +kernel

/-- `'…'H` is accepted and stands for octets. Their bits are the bits of the digits in order, and four zeros after an odd number
of digits. -/
theorem C108_hex {body : List Char} {ds : List (Fin 16)} (h : HText body ds) :
    ∃ o, octetLiteral ('\'' :: body ++ ['\'', 'H']) = some o ∧ o.length = (ds.length + 1) / 2 ∧
      bytesBits o = ds.flatMap hexDigitBits ++ List.replicate (4 * (ds.length % 2)) false := by
  refine ⟨hexOctets ds, ?_, hexOctets_length ds, hexOctets_bits ds⟩
  unfold octetLiteral
  rw [actualString_eq]
  exact tuples_octets h.chars

example : HText "A B7".toList [10, 11, 7] :=
  .digit (by decide) (.blank (by decide) (.digit (by decide) (.digit (by decide) .nil)))
example : octetLiteral "'A B7'H".toList = some [0xAB, 0x70] := by decide +kernel

/-- The octets in which the bits of a literal are written to the generated code: the bits in order, zeros after them up to the
next octet and no more. -/
theorem C108_octets (l : List Bool) : (bitsToOctets l).length = (l.length + 7) / 8 ∧
    ∃ k < 8, bytesBits (bitsToOctets l) = l ++ List.replicate k false := by
  unfold bitsToOctets
  refine ⟨by rw [hexOctets_length, nibbles_length]; omega, ?_⟩
  refine ⟨(4 - l.length % 4) % 4 + 4 * ((bitsToNibbles l).length % 2), ?_, ?_⟩
  · rw [nibbles_length]; omega
  · rw [hexOctets_bits, nibbles_bits, List.append_assoc, List.replicate_append_replicate]

example : bitsToOctets [true, false, true, true, true] = [0xB8] := by decide

/-- A number of any length is accepted exactly if it fits the word size, and stands for itself. -/
theorem C108_int (wide : Bool) {cs : List Char} {i : Int} (h : IntText cs i) :
    (Supported wide i → intLiteral wide cs = some i) ∧ (¬ Supported wide i → intLiteral wide cs = none) := by
  simp only [intLiteral, h.parse, Option.bind_eq_bind, Option.bind_some, Supported]
  cases wide <;> simp only [if_true, if_false, Bool.false_eq_true, reduceIte] <;> constructor <;> intro hs
  · rw [if_neg (by omega)]
  · rw [if_pos (by omega)]
  · rw [if_neg (by omega)]
  · rw [if_pos (by omega)]

example : IntText "-120".toList (-120) := by
  have h : Decimal "120".toList 120 := .digit (x := 1) (n := 20) (by decide) (.digit (x := 2) (n := 0) (by decide) (.digit (x := 0) (n := 0) (by decide) .nil))
  exact .neg (by decide) h
example : intLiteral true "18446744073709551615".toList = some 18446744073709551615 ∧
    intLiteral true "18446744073709551616".toList = none ∧ intLiteral false "-2147483648".toList = some (-2147483648) ∧
    intLiteral false "-2147483649".toList = none := by
  refine ⟨?_, ?_, ?_, ?_⟩ <;> decide +kernel

/-- A character string in one line without quotation marks stands for its characters. Missing: quotation marks
(`C108_quote_violation`) and strings of several lines (`C108_lines_violation`). -/
theorem C108_string_partial {l v : List Char} (hq : '"' ∉ l) : CText l [] v ↔ stringLiteral (stringText l []) = v := by
  have h1 : stringLiteral (stringText l []) = l := by simp [stringLiteral, stringText]
  have h2 : ∀ {l v : List Char}, '"' ∉ l → (Unquoted l v ↔ l = v) := by
    intro l
    induction l with
    | nil =>
      intro v _
      constructor
      · intro h; cases h; rfl
      · rintro rfl; exact .nil
    | cons c cs ih =>
      intro v hq
      simp only [List.mem_cons, not_or] at hq
      constructor
      · intro h
        cases h with
        | char hc h => rw [(ih hq.2).1 h]
        | quote h => exact absurd rfl hq.1
      · rintro rfl
        exact .char (fun h => hq.1 h.symm) ((ih hq.2).2 rfl)
  rw [h1]
  exact h2 hq

example : '"' ∉ "two words".toList ∧ stringLiteral "\"two words\"".toList = "two words".toList := by decide +kernel

/-- **Violation.** `"say ""hi"""` stands for `say "hi"`; the compiler keeps all the quotation marks. -/
theorem C108_quote_violation : CText "a\"\"b".toList [] "a\"b".toList ∧
    stringLiteral (stringText "a\"\"b".toList []) = "a\"\"b".toList :=
  ⟨.char (by decide) (.quote (.char (by decide) .nil)), by decide +kernel⟩

/-- **Violation.** A line break inside a string, with the blanks around it, stands for nothing; the compiler keeps it. -/
theorem C108_lines_violation : CText "ab ".toList [" cd".toList] "abcd".toList ∧
    stringLiteral (stringText "ab ".toList [" cd".toList]) = "ab \n cd".toList :=
  ⟨.char (by decide) (.char (by decide) (.char (by decide) (.char (by decide) .nil))), by decide +kernel⟩

/-- `{mantissa m, base 2, exponent e}` becomes the double nearest to m × 2^e, ties to even, whatever the size of m, if 2^e and the
result are in the range of doubles. Missing: other exponents (`C108_tiny_violation`, `C108_zero_violation`). -/
theorem C108_real2_partial {pow : Nat → Int → BitVec 64} (hpow : PowExact pow) {m e : Int} (h1 : -1074 ≤ e) (h2 : e ≤ 1023)
    (hm : |(m : ℚ)| < (2 : ℚ) ^ (1024 : ℤ) - (2 : ℚ) ^ (970 : ℤ))
    (hv : |(m : ℚ) * (2 : ℚ) ^ e| < (2 : ℚ) ^ (1024 : ℤ) - (2 : ℚ) ^ (970 : ℤ)) :
    ∃ d, realLiteral pow m 2 e = some d ∧ Nearest d (m * (2 : ℚ) ^ e) := by
  refine ⟨_, by unfold realLiteral; rw [if_pos rfl], ?_⟩
  have hex : ∃ d, IsFinite d ∧ doubleValue d = ((2 : Nat) : ℚ) ^ e := by
    by_cases he : e ≤ 971
    · obtain ⟨d, hd, e'⟩ := double_exists (q := 1) (p := e) (by norm_num) h1 he
      exact ⟨d, hd, by rw [e']; norm_num⟩
    · obtain ⟨d, hd, e'⟩ := double_exists (q := 2 ^ 52) (p := e - 52) (by norm_num) (by omega) (by omega)
      refine ⟨d, hd, ?_⟩
      rw [e', show e = 52 + (e - 52) by ring, zpow_add₀ (by norm_num)]
      norm_num
  obtain ⟨hf, hb⟩ := hpow 2 e (by decide) hex
  have hb' : doubleValue (pow 2 e) = (2 : ℚ) ^ e := by rw [hb]; norm_num
  by_cases hs : m.natAbs < 2 ^ 53
  · have := dblMul_int hs hf (by rw [hb']; exact hv)
    rwa [hb'] at this
  · exact dblMul_pow2 (by omega) h1 hf hb' hm hv

/-- A library function that meets the assumption. -/
example : PowExact roundPow := roundPow_exact
example : realLiteral roundPow 5 2 (-3) = some 0x3FE4000000000000 := by decide +kernel

/-- `{mantissa m, base 10, exponent e}` becomes the double nearest to m × 10^e for mantissas below 2^53 and exponents from 0 to 22.
Missing: other exponents (`C108_tenth_violation`) and longer mantissas, where two roundings follow each other. -/
theorem C108_real10_partial {pow : Nat → Int → BitVec 64} (hpow : PowExact pow) {m : Int} {e : Nat} (hm : m.natAbs < 2 ^ 53) (he : e ≤ 22) :
    ∃ d, realLiteral pow m 10 e = some d ∧ Nearest d (m * (10 : ℚ) ^ e) := by
  refine ⟨_, by unfold realLiteral; rw [if_neg (by decide), if_pos rfl], ?_⟩
  have h5 : 5 ^ e < 2 ^ 53 := lt_of_le_of_lt (Nat.pow_le_pow_right (by decide) he) (by norm_num)
  have hex : ∃ d, IsFinite d ∧ doubleValue d = ((10 : Nat) : ℚ) ^ (e : Int) := by
    obtain ⟨d, hd, e'⟩ := double_exists (q := 5 ^ e) (p := e) h5 (by omega) (by omega)
    refine ⟨d, hd, ?_⟩
    rw [e', zpow_natCast, zpow_natCast]
    push_cast
    rw [← mul_pow]
    norm_num
  obtain ⟨hf, hb⟩ := hpow 10 e (by decide) hex
  have hb' : doubleValue (pow 10 e) = (10 : ℚ) ^ e := by rw [hb, zpow_natCast]; norm_num
  have := dblMul_int hm hf (by
    rw [hb', abs_mul]
    have hn : |(m : ℚ)| = ((m.natAbs : Nat) : ℚ) := by rw [← Int.cast_abs, Nat.cast_natAbs]
    have h10 : |(10 : ℚ) ^ e| ≤ 10 ^ 22 := by
      rw [abs_of_pos (by positivity)]
      exact pow_le_pow_right₀ (by norm_num) he
    have hmq : |(m : ℚ)| ≤ 2 ^ 53 := by rw [hn]; exact_mod_cast hm.le
    calc |(m : ℚ)| * |(10 : ℚ) ^ e| ≤ 2 ^ 53 * 10 ^ 22 := mul_le_mul hmq h10 (abs_nonneg _) (by norm_num)
      _ < (2 : ℚ) ^ (200 : ℤ) := by norm_num
      _ ≤ (2 : ℚ) ^ (970 : ℤ) := zpow_le_zpow_right₀ (by norm_num) (by norm_num)
      _ = (2 : ℚ) ^ (971 : ℤ) - (2 : ℚ) ^ (970 : ℤ) := by
        rw [show (971 : ℤ) = 970 + 1 by norm_num, zpow_add_one₀ (by norm_num)]; ring
      _ ≤ _ := sub_le_sub_right (zpow_le_zpow_right₀ (by norm_num) (by norm_num)) _)
  rwa [hb'] at this

example : realLiteral roundPow 25 10 2 = some 0x40A3880000000000 := by decide +kernel

/-- A base other than 2 and 10 is refused (X.680, 21.5 allows no other). -/
theorem C108_base {pow : Nat → Int → BitVec 64} {m b e : Int} : (realLiteral pow m b e).isSome ↔ b = 2 ∨ b = 10 := by
  unfold realLiteral
  split
  · simp [*]
  · split <;> simp [*]

/-- **Violation.** `{mantissa 3, base 10, exponent -1}` is 0.3. Even with the best power function the compiler makes of it the double
after the nearest one, since it multiplies by a rounded 0.1. `0.3` in a literal and in a constraint can so be two values. -/
theorem C108_tenth_violation : PowExact roundPow ∧ realLiteral roundPow 3 10 (-1) = some 0x3FD3333333333334 ∧
    Nearest 0x3FD3333333333333 (3 * (10 : ℚ) ^ (-1 : ℤ)) ∧ ¬ Nearest 0x3FD3333333333334 (3 * (10 : ℚ) ^ (-1 : ℤ)) := by
  have e1 : (0x3FD3333333333333 : BitVec 64) = dblMake false (roundMag 3 10 0) := by decide +kernel
  have hlim : ((3 : Nat) : ℚ) * (2 : ℚ) ^ (0 : ℤ) < ((10 : Nat) : ℚ) * ((2 : ℚ) ^ (1024 : ℤ) - (2 : ℚ) ^ (970 : ℤ)) := by
    have h1 : (2 : ℚ) ^ (971 : ℤ) ≤ (2 : ℚ) ^ (1024 : ℤ) := zpow_le_zpow_right₀ (by norm_num) (by norm_num)
    have h2 : (2 : ℚ) ^ (971 : ℤ) = (2 : ℚ) ^ (970 : ℤ) * 2 := by
      rw [show (971 : ℤ) = 970 + 1 by norm_num, zpow_add_one₀ (by norm_num)]
    have h3 : (2 : ℚ) ^ (0 : ℤ) ≤ (2 : ℚ) ^ (970 : ℤ) := zpow_le_zpow_right₀ (by norm_num) (by norm_num)
    rw [zpow_zero] at h3 ⊢
    rw [h2] at h1
    clear h2
    generalize (2 : ℚ) ^ (1024 : ℤ) = A at *
    generalize (2 : ℚ) ^ (970 : ℤ) = B at *
    push_cast
    linarith
  have hn := roundMag_nearest (n := 3) (d := 10) (e := 0) (by decide) (by decide) false hlim
  have hv : (if false = true then (-1 : ℚ) else 1) * (((3 : Nat) : ℚ) / ((10 : Nat) : ℚ)) * (2 : ℚ) ^ (0 : ℤ) = 3 * (10 : ℚ) ^ (-1 : ℤ) := by
    norm_num
  rw [hv, ← e1] at hn
  refine ⟨roundPow_exact, by decide +kernel, hn, ?_⟩
  intro h
  have hf : IsFinite (0x3FD3333333333333 : BitVec 64) := hn.1
  have k1 : doubleValue (0x3FD3333333333333 : BitVec 64) = (0x13333333333333 : Nat) * (2 : ℚ) ^ (-54 : ℤ) := by
    rw [doubleValue_parts hf]
    have a : dblSign (0x3FD3333333333333 : BitVec 64) = false := by decide +kernel
    have b : dblMant (0x3FD3333333333333 : BitVec 64) = 0x13333333333333 := by decide +kernel
    have c : dblPow (0x3FD3333333333333 : BitVec 64) = -54 := by decide +kernel
    rw [a, b, c]; simp
  have k2 : doubleValue (0x3FD3333333333334 : BitVec 64) = (0x13333333333334 : Nat) * (2 : ℚ) ^ (-54 : ℤ) := by
    rw [doubleValue_parts h.1]
    have a : dblSign (0x3FD3333333333334 : BitVec 64) = false := by decide +kernel
    have b : dblMant (0x3FD3333333333334 : BitVec 64) = 0x13333333333334 := by decide +kernel
    have c : dblPow (0x3FD3333333333334 : BitVec 64) = -54 := by decide +kernel
    rw [a, b, c]; simp
  have h2 := (h.2 _ hf).1
  rw [k1, k2] at h2
  norm_num [abs_of_pos, abs_of_neg] at h2

/-- **Violation.** `{mantissa 1024, base 2, exponent -1080}` is 2^-1070, which is a double, but becomes 0. -/
theorem C108_tiny_violation : PowExact roundPow ∧ realLiteral roundPow 1024 2 (-1080) = some 0 ∧
    ∃ d, IsFinite d ∧ doubleValue d = 1024 * (2 : ℚ) ^ (-1080 : ℤ) ∧ doubleValue 0 ≠ doubleValue d := by
  refine ⟨roundPow_exact, by decide +kernel, ?_⟩
  obtain ⟨d, hd, e⟩ := double_exists (q := 1) (p := -1070) (by norm_num) (by norm_num) (by norm_num)
  have e2 : doubleValue d = 1024 * (2 : ℚ) ^ (-1080 : ℤ) := by
    rw [e, show (-1070 : ℤ) = 10 + -1080 by norm_num, zpow_add₀ (by norm_num)]; norm_num
  refine ⟨d, hd, e2, ?_⟩
  rw [e, show doubleValue 0 = 0 from (zero_value false).2]
  have : (0 : ℚ) < (2 : ℚ) ^ (-1070 : ℤ) := zpow_pos (by norm_num) _
  rw [Nat.cast_one, one_mul]
  exact this.ne

/-- **Violation.** `{mantissa 0, base 2, exponent 2000}` is zero, but becomes "not a number" (0 times infinity). -/
theorem C108_zero_violation : PowExact roundPow ∧ ∃ d, realLiteral roundPow 0 2 2000 = some d ∧ ¬ IsFinite d := by
  refine ⟨roundPow_exact, _, rfl, ?_⟩
  rw [isFinite_iff]
  decide +kernel

end Asn1
