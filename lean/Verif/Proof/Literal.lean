import Verif.Model.Literal
import Verif.Proof.FloatNearest
import Verif.Proof.Notation
/-!
Lemmas about literals.
-/
namespace Asn1

theorem actualString_eq (body : List Char) (q : Char) :
    actualString ('\'' :: body ++ ['\'', q]) = body.filter fun c => !(c == '\r' || c == '\n' || c == '\t' || c == ' ') := by
  simp [actualString]

theorem blank_filtered {c : Char} (h : c ∈ blankChars) : (!(c == '\r' || c == '\n' || c == '\t' || c == ' ')) = false := by
  have : ∀ c ∈ blankChars, (!(c == '\r' || c == '\n' || c == '\t' || c == ' ')) = false := by decide
  exact this c h

theorem BText.bits {body : List Char} {l : List Bool} (h : BText body l) (q : Char) :
    bitLiteral ('\'' :: body ++ ['\'', q]) = l := by
  unfold bitLiteral
  rw [actualString_eq]
  induction h with
  | nil => rfl
  | blank hc _ ih => rw [List.filter_cons, blank_filtered hc]; exact ih
  | zero _ ih => rw [List.filter_cons_of_pos (by decide), List.map_cons, ih]; rfl
  | one _ ih => rw [List.filter_cons_of_pos (by decide), List.map_cons, ih]; rfl

theorem hexChars_parse : ∀ p ∈ hexChars, parseHexChar p.1 = some p.2.val ∧
    (!(p.1 == '\r' || p.1 == '\n' || p.1 == '\t' || p.1 == ' ')) = true := by decide +kernel

/-- The characters without white space. -/
theorem HText.chars {body : List Char} {ds : List (Fin 16)} (h : HText body ds) :
    List.Forall₂ (fun c (x : Fin 16) => (c, x) ∈ hexChars)
      (body.filter fun c => !(c == '\r' || c == '\n' || c == '\t' || c == ' ')) ds := by
  induction h with
  | nil => exact .nil
  | blank hc _ ih => rw [List.filter_cons, blank_filtered hc]; exact ih
  | digit hc _ ih =>
    have h := (hexChars_parse _ hc).2
    rw [List.filter_cons, if_pos h]
    exact .cons hc ih

theorem tuples_octets : ∀ {cs : List Char} {ds : List (Fin 16)}, List.Forall₂ (fun c (x : Fin 16) => (c, x) ∈ hexChars) cs ds →
    (getTuples '0' cs).mapM parseHexByte = some (hexOctets ds)
  | [], _, h => by cases h; rfl
  | [a], _, h => by
    cases h with
    | cons h1 h2 =>
      cases h2
      have e := (hexChars_parse _ h1).1
      have e0 : parseHexChar '0' = some 0 := by decide +kernel
      simp [getTuples, parseHexByte, e, e0, hexOctets]
  | a :: b :: rest, _, h => by
    cases h with
    | cons h1 h2 =>
      cases h2 with
      | cons h2 h3 =>
        have e1 := (hexChars_parse _ h1).1
        have e2 := (hexChars_parse _ h2).1
        have e3 := tuples_octets h3
        simp [getTuples, parseHexByte, e1, e2, hexOctets, e3]

theorem nibbles_bits : ∀ l : List Bool,
    (bitsToNibbles l).flatMap hexDigitBits = l ++ List.replicate ((4 - l.length % 4) % 4) false
  | [] => rfl
  | [a] => by cases a <;> rfl
  | [a, b] => by cases a <;> cases b <;> rfl
  | [a, b, c] => by cases a <;> cases b <;> cases c <;> rfl
  | a :: b :: c :: d :: rest => by
    have e : hexDigitBits (Fin.ofNat 16 (a.toNat * 8 + b.toNat * 4 + c.toNat * 2 + d.toNat)) = [a, b, c, d] := by
      cases a <;> cases b <;> cases c <;> cases d <;> rfl
    rw [bitsToNibbles, List.flatMap_cons, e, nibbles_bits rest]
    simp only [List.length_cons, List.cons_append, List.nil_append]
    rw [show (4 - (rest.length + 1 + 1 + 1 + 1) % 4) % 4 = (4 - rest.length % 4) % 4 by omega]

theorem nibbles_length : ∀ l : List Bool, (bitsToNibbles l).length = (l.length + 3) / 4
  | [] => rfl
  | [a] => by simp [bitsToNibbles]
  | [a, b] => by simp [bitsToNibbles]
  | [a, b, c] => by simp [bitsToNibbles]
  | a :: b :: c :: d :: rest => by
    rw [bitsToNibbles, List.length_cons, nibbles_length rest]
    simp only [List.length_cons]
    omega

theorem decimalChars_parse : ∀ p ∈ decimalChars, parseDigit p.1 = some p.2 ∧ p.1 ≠ '-' ∧ p.1 ≠ '+' := by decide +kernel

theorem Decimal.parse {cs : List Char} {n : Nat} (h : Decimal cs n) : ∀ acc, parseDigits acc cs = some (acc * 10 ^ cs.length + n) := by
  induction h with
  | nil => intro acc; simp [parseDigits]
  | @digit c x cs n hc _ ih =>
    intro acc
    simp only [parseDigits, (decimalChars_parse _ hc).1, Option.bind_eq_bind, Option.bind_some, ih, List.length_cons]
    congr 1
    rw [Nat.pow_succ]
    ring

theorem IntText.parse {cs : List Char} {i : Int} (h : IntText cs i) : parseBigInt cs = some i := by
  cases h with
  | pos hne hd =>
    cases hd with
    | nil => exact absurd rfl hne
    | digit hc hd =>
      have h1 := decimalChars_parse _ hc
      have h2 := (Decimal.digit hc hd).parse 0
      simp only [parseBigInt, if_neg h1.2.1, if_neg h1.2.2, h2]
      simp
  | neg hne hd =>
    have h2 := hd.parse 0
    simp only [parseBigInt, if_neg hne, h2]
    simp

/-! ## REAL -/

theorem parity_of_value {d d' : Dbl} (h : IsFinite d) (h' : IsFinite d') (e : doubleValue d = doubleValue d') :
    d.toNat % 2 = d'.toNat % 2 := by
  have par : ∀ d : Dbl, d.toNat % 2 = dblMant d % 2 := by
    intro d
    unfold dblMant dblFrac dblMag
    split <;> omega
  have bound : ∀ d : Dbl, dblMant d < 2 ^ 53 := by
    intro d
    have := dblFrac_lt d
    unfold dblMant
    split <;> omega
  have low : ∀ d : Dbl, -1074 ≤ dblPow d ∧ (-1074 < dblPow d → 2 ^ 52 ≤ dblMant d) := by
    intro d
    unfold dblPow dblMant
    split <;> constructor <;> intros <;> omega
  have habs : (dblMant d : ℚ) * (2 : ℚ) ^ dblPow d = (dblMant d' : ℚ) * (2 : ℚ) ^ dblPow d' := by
    have h1 : ∀ d : Dbl, IsFinite d → |doubleValue d| = (dblMant d : ℚ) * (2 : ℚ) ^ dblPow d := by
      intro d hd
      have hp : (0 : ℚ) < (2 : ℚ) ^ dblPow d := zpow_pos (by norm_num) _
      have hk : |(dblMant d : ℚ)| = (dblMant d : ℚ) := abs_of_nonneg (Nat.cast_nonneg _)
      rw [doubleValue_parts hd, abs_mul, abs_mul, abs_of_pos hp, hk]
      cases dblSign d <;> simp
    rw [← h1 d h, ← h1 d' h', e]
  -- equal values have equal mantissas
  have wlog : ∀ {d d' : Dbl}, dblPow d ≤ dblPow d' → (dblMant d : ℚ) * (2 : ℚ) ^ dblPow d = (dblMant d' : ℚ) * (2 : ℚ) ^ dblPow d' →
      dblMant d = dblMant d' := by
    intro d d' hle heq
    have h1 : dblMant d = dblMant d' * 2 ^ (dblPow d' - dblPow d).toNat := by
      have h2 := mul_pow_toNat (dblMant d') hle
      rw [← heq] at h2
      have h3 := mul_right_cancel₀ (zpow_pos (by norm_num : (0 : ℚ) < 2) (dblPow d)).ne' h2
      exact_mod_cast h3.symm
    by_cases hc : dblPow d = dblPow d'
    · rw [h1, hc]; simp
    · exfalso
      have h2 := (low d').2 (by have := (low d).1; omega)
      have h3 := bound d
      have h4 : 2 ≤ 2 ^ (dblPow d' - dblPow d).toNat := by
        calc 2 = 2 ^ 1 := rfl
          _ ≤ _ := Nat.pow_le_pow_right (by decide) (by omega)
      have h5 : 2 ^ 52 * 2 ≤ dblMant d' * 2 ^ (dblPow d' - dblPow d).toNat := Nat.mul_le_mul h2 h4
      omega
  rw [par d, par d']
  rcases le_total (dblPow d) (dblPow d') with hle | hle
  · rw [wlog hle habs]
  · rw [wlog hle habs.symm]

theorem Nearest.congr {d d' : Dbl} {v : ℚ} (h : Nearest d v) (h' : IsFinite d') (e : doubleValue d' = doubleValue d) : Nearest d' v := by
  refine ⟨h', fun x hx => ?_⟩
  rw [e, parity_of_value h' h.1 e]
  exact h.2 x hx

/-- A product of doubles that is a double. -/
theorem dblMul_exact {a b d : Dbl} (ha : IsFinite a) (hb : IsFinite b) (hd : IsFinite d)
    (e : doubleValue d = doubleValue a * doubleValue b) : IsFinite (dblMul a b) ∧ doubleValue (dblMul a b) = doubleValue d := by
  have h1 := dblMul_nearest ha hb (by rw [← e]; exact abs_doubleValue_lt hd)
  exact ⟨h1.1, by rw [h1.exact hd e, e]⟩

/-- A factor that is not rounded, times a number. -/
theorem dblMul_int {m : Int} (hm : m.natAbs < 2 ^ 53) {b : Dbl} (hb : IsFinite b)
    (hv : |(m : ℚ) * doubleValue b| < (2 : ℚ) ^ (1024 : ℤ) - (2 : ℚ) ^ (970 : ℤ)) : Nearest (dblMul (dblOfInt m) b) (m * doubleValue b) := by
  obtain ⟨d, hd, e⟩ := double_exists (q := m.natAbs) (p := 0) hm (by norm_num) (by norm_num)
  have hn : ((m.natAbs : Nat) : ℚ) = |(m : ℚ)| := by rw [← Int.cast_abs, Nat.cast_natAbs]
  rw [zpow_zero, mul_one, hn] at e
  have hlim : |(m : ℚ)| < (2 : ℚ) ^ (1024 : ℤ) - (2 : ℚ) ^ (970 : ℤ) := by
    have := abs_doubleValue_lt hd
    rwa [e, abs_abs] at this
  have h1 : Nearest (dblOfInt m) m := dblOfInt_nearest hlim
  have hex : doubleValue (dblOfInt m) = m := by
    rcases le_total 0 (m : ℚ) with h0 | h0
    · exact h1.exact hd (by rw [e, abs_of_nonneg h0])
    · refine h1.exact (d0 := dblNeg d) ?_ ?_
      · rw [isFinite_iff] at hd ⊢
        have hmg : dblMag (dblNeg d) = dblMag d := by rw [dblNeg_eq, dblMag_make _ (dblMag_lt d)]
        unfold dblIsNan dblIsInf at hd ⊢
        rw [hmg]; exact hd
      · have hmg : dblMag (dblNeg d) = dblMag d := by rw [dblNeg_eq, dblMag_make _ (dblMag_lt d)]
        have hsg : dblSign (dblNeg d) = !dblSign d := by rw [dblNeg_eq, dblSign_make _ (dblMag_lt d)]
        have hfin : IsFinite (dblNeg d) := by
          rw [isFinite_iff] at hd ⊢
          unfold dblIsNan dblIsInf at hd ⊢
          rw [hmg]; exact hd
        have hmt : dblMant (dblNeg d) = dblMant d := by unfold dblMant dblExp dblFrac; rw [hmg]
        have hpw : dblPow (dblNeg d) = dblPow d := by unfold dblPow dblExp; rw [hmg]
        have : doubleValue (dblNeg d) = -doubleValue d := by
          rw [doubleValue_parts hfin, doubleValue_parts hd, hsg, hmt, hpw]
          cases dblSign d <;> simp
        rw [this, e, abs_of_nonpos h0, neg_neg]
  have h2 := dblMul_nearest h1.1 hb (by rw [hex]; exact hv)
  rwa [hex] at h2

/-- Any integer times a power of two: rounding it first makes no difference. -/
theorem dblMul_pow2 {m e : Int} (hm : 2 ^ 53 ≤ m.natAbs) (he : -1074 ≤ e) {b : Dbl} (hb : IsFinite b) (hbv : doubleValue b = (2 : ℚ) ^ e)
    (hm2 : |(m : ℚ)| < (2 : ℚ) ^ (1024 : ℤ) - (2 : ℚ) ^ (970 : ℤ))
    (hv : |(m : ℚ) * (2 : ℚ) ^ e| < (2 : ℚ) ^ (1024 : ℤ) - (2 : ℚ) ^ (970 : ℤ)) :
    Nearest (dblMul (dblOfInt m) b) (m * (2 : ℚ) ^ e) := by
  have hn : ((m.natAbs : Nat) : ℚ) = |(m : ℚ)| := by rw [← Int.cast_abs, Nat.cast_natAbs]
  have hp : (0 : ℚ) < (2 : ℚ) ^ e := zpow_pos (by norm_num) _
  have hpos : 0 < m.natAbs := by
    have : 0 < 2 ^ 53 := by decide
    omega
  have h0 : m ≠ 0 := by intro h; subst h; exact absurd hpos (by decide)
  have ed : dblOfInt m = dblMake (decide (m < 0)) (roundMag m.natAbs 1 0) := by unfold dblOfInt; rw [if_neg h0]
  have b1 : ((m.natAbs : Nat) : ℚ) * (2 : ℚ) ^ (0 : ℤ) < ((1 : Nat) : ℚ) * ((2 : ℚ) ^ (1024 : ℤ) - (2 : ℚ) ^ (970 : ℤ)) := by
    rw [hn, zpow_zero, mul_one, Nat.cast_one, one_mul]; exact hm2
  have b2 : ((m.natAbs : Nat) : ℚ) * (2 : ℚ) ^ e < ((1 : Nat) : ℚ) * ((2 : ℚ) ^ (1024 : ℤ) - (2 : ℚ) ^ (970 : ℤ)) := by
    rw [hn, Nat.cast_one, one_mul]
    rwa [abs_mul, abs_of_pos hp] at hv
  obtain ⟨N, D, hN, hD, -, -, -, f1, v1, -⟩ := roundMag_value hpos Nat.one_pos (decide (m < 0)) b1
  obtain ⟨N', D', hN', hD', -, -, -, f2, v2, -⟩ := roundMag_value hpos Nat.one_pos (decide (m < 0)) b2
  have hnear := roundMag_nearest (e := e) hpos Nat.one_pos (decide (m < 0)) b2
  have hl : 53 ≤ Nat.log2 m.natAbs := (Nat.le_log2 (by omega)).2 hm
  have hfl := floorLog2_pow (m := m.natAbs) 0 0 hpos
  rw [Nat.pow_zero, Nat.mul_one] at hfl
  have l1 : lastBit m.natAbs 1 0 = (Nat.log2 m.natAbs : Int) - 52 := by unfold lastBit; rw [hfl]; omega
  have l2 : lastBit m.natAbs 1 e = (Nat.log2 m.natAbs : Int) - 52 + e := by unfold lastBit; rw [hfl]; omega
  have eN : N' = N := by
    rw [hN, hN', l1, l2]
    congr 2; omega
  have eD : D' = D := by
    rw [hD, hD', l1, l2]
    congr 2; omega
  have hval : doubleValue (dblMake (decide (m < 0)) (roundMag m.natAbs 1 e)) = doubleValue (dblOfInt m) * doubleValue b := by
    rw [ed, v1, v2, hbv, eN, eD, l1, l2, zpow_add₀ (by norm_num)]
    ring
  obtain ⟨g1, g2⟩ := dblMul_exact (a := dblOfInt m) (b := b) (by rw [ed]; exact f1) hb f2 hval
  have hme : (if decide (m < 0) = true then (-1 : ℚ) else 1) * (((m.natAbs : Nat) : ℚ) / (1 : Nat)) * (2 : ℚ) ^ e = m * (2 : ℚ) ^ e := by
    rw [hn]
    by_cases hs : m < 0
    · have : (m : ℚ) < 0 := by exact_mod_cast hs
      simp [hs, abs_of_neg this]
    · have : (0 : ℚ) ≤ m := by exact_mod_cast (not_lt.1 hs)
      simp [hs, abs_of_nonneg this]
  rw [hme] at hnear
  exact hnear.congr g1 g2

/-- `roundPow` is right. -/
theorem roundPow_nearest (b : Nat) (e : Int) (hb : 0 < b) (hv : (b : ℚ) ^ e < (2 : ℚ) ^ (1024 : ℤ) - (2 : ℚ) ^ (970 : ℤ)) :
    Nearest (roundPow b e) ((b : ℚ) ^ e) := by
  unfold roundPow
  split
  · rename_i h
    obtain ⟨k, rfl⟩ := Int.eq_ofNat_of_zero_le h
    have hbk : 0 < b ^ k := Nat.pow_pos hb
    have := roundMag_nearest (n := b ^ k) (d := 1) (e := 0) hbk Nat.one_pos false
      (by rw [zpow_zero, mul_one, Nat.cast_one, one_mul]; push_cast; rwa [zpow_natCast] at hv)
    simpa using this
  · rename_i h
    obtain ⟨k, rfl⟩ : ∃ k : Nat, e = -(k : Int) := ⟨(-e).toNat, by omega⟩
    have hbk : 0 < b ^ k := Nat.pow_pos hb
    have hbq : (0 : ℚ) < (b : ℚ) ^ k := by exact_mod_cast hbk
    rw [zpow_neg, zpow_natCast] at hv ⊢
    have := roundMag_nearest (n := 1) (d := b ^ k) (e := 0) Nat.one_pos hbk false
      (by
        rw [zpow_zero, mul_one, Nat.cast_one]; push_cast
        rwa [inv_lt_iff_one_lt_mul₀ hbq, mul_comm] at hv)
    simpa using this

theorem roundPow_exact : PowExact roundPow := by
  intro b e hb ⟨d, hd, hv⟩
  have hpos : (0 : ℚ) < (b : ℚ) ^ e := zpow_pos (by exact_mod_cast hb) _
  have hlim := abs_doubleValue_lt hd
  rw [hv, abs_of_pos hpos] at hlim
  have h := roundPow_nearest b e hb hlim
  exact ⟨h.1, h.exact hd hv⟩

end Asn1
