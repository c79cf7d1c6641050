import Verif.Model.Real
import Verif.Proof.Run
/-!
# Floating point lemmas: products and quotients that are exact
-/
namespace Asn1

theorem rne_mul {q d : Nat} (hd : 0 < d) : rne (q * d) d = q := by
  unfold rne
  rw [Nat.mul_mod_left, Nat.mul_div_cancel _ hd, if_pos (Or.inl (by omega))]

theorem log2_mul_pow {m : Nat} (i : Nat) (hm : 0 < m) : Nat.log2 (m * 2 ^ i) = Nat.log2 m + i := by
  have hp : 0 < m * 2 ^ i := Nat.mul_pos hm (Nat.two_pow_pos i)
  rw [Nat.log2_eq_iff (by omega)]
  have h1 := Nat.log2_self_le (n := m) (by omega)
  have h2 := Nat.lt_log2_self (n := m)
  refine ⟨?_, ?_⟩
  · rw [Nat.pow_add]; exact Nat.mul_le_mul_right _ h1
  · rw [show m.log2 + i + 1 = (m.log2 + 1) + i by omega, Nat.pow_add]
    exact (Nat.mul_lt_mul_right (Nat.two_pow_pos i)).2 h2

theorem floorLog2_pow {m : Nat} (i j : Nat) (hm : 0 < m) :
    floorLog2 (m * 2 ^ i) (2 ^ j) = (Nat.log2 m : Int) + i - j := by
  unfold floorLog2
  rw [log2_mul_pow i hm, Nat.log2_two_pow]
  dsimp only
  rw [if_pos]
  · push_cast; rfl
  · have h1 := Nat.log2_self_le (n := m) (by omega)
    have e1 : 2 ^ j * 2 ^ ((((m.log2 + i : Nat) : Int) - (j : Int)).toNat)
        = 2 ^ m.log2 * (2 ^ i * 2 ^ ((-(((m.log2 + i : Nat) : Int) - (j : Int))).toNat)) := by
      rw [← Nat.pow_add, ← Nat.pow_add, ← Nat.pow_add]
      congr 1
      omega
    rw [e1, Nat.mul_assoc m]
    exact Nat.mul_le_mul_right _ h1

/-- The exponent (of the last place) of the double with the value `m * 2 ^ x`. -/
def lastPlace (m : Nat) (x : Int) : Int := max ((Nat.log2 m : Int) + x - 52) (-1074)

/-- The magnitude of the double with the value `m * 2 ^ x`. -/
def exactMag (m : Nat) (x : Int) : Nat :=
  min ((lastPlace m x + 1074).toNat * 2 ^ 52 + m * 2 ^ (x - lastPlace m x).toNat) (2047 * 2 ^ 52)

theorem log2_le_52 {m : Nat} (hm : 0 < m) (hm2 : m < 2 ^ 53) : Nat.log2 m ≤ 52 := by
  have := (Nat.log2_lt (n := m) (k := 53) (by omega)).2 hm2
  omega

theorem roundMag_exact {m : Nat} (i j : Nat) {e x : Int} (hm : 0 < m) (hm2 : m < 2 ^ 53)
    (hx : x = e + i - j) (h : -1074 ≤ x) : roundMag (m * 2 ^ i) (2 ^ j) e = exactMag m x := by
  have hl := log2_le_52 hm hm2
  unfold roundMag exactMag
  rw [floorLog2_pow i j hm]
  dsimp only
  have e0 : (Nat.log2 m : Int) + i - j + e - 52 = (Nat.log2 m : Int) + x - 52 := by omega
  rw [e0]
  show min ((lastPlace m x + 1074).toNat * 2 ^ 52 +
    rne (m * 2 ^ i * 2 ^ (e - lastPlace m x).toNat) (2 ^ j * 2 ^ (lastPlace m x - e).toNat)) (2047 * 2 ^ 52) = _
  have hle : lastPlace m x ≤ x := by unfold lastPlace; omega
  have e1 : m * 2 ^ i * 2 ^ (e - lastPlace m x).toNat
      = m * 2 ^ (x - lastPlace m x).toNat * (2 ^ j * 2 ^ (lastPlace m x - e).toNat) := by
    rw [Nat.mul_assoc, Nat.mul_assoc, ← Nat.pow_add, ← Nat.pow_add, ← Nat.pow_add]
    congr 2
    omega
  rw [e1, rne_mul (Nat.mul_pos (Nat.two_pow_pos _) (Nat.two_pow_pos _))]

theorem shifted_lt {m : Nat} {x : Int} (hm : 0 < m) (hm2 : m < 2 ^ 53) :
    m * 2 ^ (x - lastPlace m x).toNat < 2 ^ 53 := by
  have hl := log2_le_52 hm hm2
  have h2 := Nat.lt_log2_self (n := m)
  have hle : (x - lastPlace m x).toNat ≤ 52 - m.log2 := by unfold lastPlace; omega
  calc m * 2 ^ (x - lastPlace m x).toNat < 2 ^ (m.log2 + 1) * 2 ^ (x - lastPlace m x).toNat :=
        (Nat.mul_lt_mul_right (Nat.two_pow_pos _)).2 h2
    _ ≤ 2 ^ (m.log2 + 1) * 2 ^ (52 - m.log2) :=
        Nat.mul_le_mul_left _ (Nat.pow_le_pow_right (by omega) hle)
    _ = 2 ^ 53 := by rw [← Nat.pow_add]; congr 1; omega

theorem shifted_ge {m : Nat} {x : Int} (hm : 0 < m) (hm2 : m < 2 ^ 53) (h : -1074 < lastPlace m x) :
    2 ^ 52 ≤ m * 2 ^ (x - lastPlace m x).toNat := by
  have hl := log2_le_52 hm hm2
  have h1 := Nat.log2_self_le (n := m) (by omega)
  have he : (x - lastPlace m x).toNat = 52 - m.log2 := by unfold lastPlace at *; omega
  rw [he]
  calc 2 ^ 52 = 2 ^ m.log2 * 2 ^ (52 - m.log2) := by rw [← Nat.pow_add]; congr 1; omega
    _ ≤ _ := Nat.mul_le_mul_right _ h1

/-! ## Fields -/

theorem dblMake_toNat (s : Bool) {mag : Nat} (h : mag < 2 ^ 63) :
    (dblMake s mag).toNat = (if s then 2 ^ 63 else 0) + mag := by
  unfold dblMake
  rw [BitVec.toNat_ofNat, Nat.mod_eq_of_lt]
  split <;> omega

theorem dblMag_make (s : Bool) {mag : Nat} (h : mag < 2 ^ 63) : dblMag (dblMake s mag) = mag := by
  unfold dblMag
  rw [dblMake_toNat s h]
  split <;> omega

theorem dblSign_make (s : Bool) {mag : Nat} (h : mag < 2 ^ 63) : dblSign (dblMake s mag) = s := by
  unfold dblSign
  rw [dblMake_toNat s h]
  cases s
  · rw [if_neg (by simp)]; exact decide_eq_false (by omega)
  · rw [if_pos rfl]; exact decide_eq_true (by omega)

/-- A double is its sign and its magnitude. -/
theorem dblMake_fields (d : Dbl) : dblMake (dblSign d) (dblMag d) = d := by
  apply BitVec.eq_of_toNat_eq
  have h : dblMag d < 2 ^ 63 := Nat.mod_lt _ (by decide)
  rw [dblMake_toNat _ h]
  have hd := d.isLt
  unfold dblSign dblMag
  by_cases hs : 2 ^ 63 ≤ d.toNat
  · rw [decide_eq_true hs, if_pos rfl]; omega
  · rw [decide_eq_false hs, if_neg (by simp)]; omega

theorem fields_of_mag {d : Dbl} {a q : Nat} (h : dblMag d = a * 2 ^ 52 + q) (hq : q < 2 ^ 53)
    (ha : a = 0 ∨ 2 ^ 52 ≤ q) (hf : a ≤ 2045) :
    dblMant d = q ∧ dblPow d = (a : Int) - 1074 ∧ dblIsNan d = false ∧ dblIsInf d = false := by
  have hn : dblIsNan d = false := by unfold dblIsNan; rw [h]; exact decide_eq_false (by omega)
  have hi : dblIsInf d = false := by unfold dblIsInf; rw [h]; exact decide_eq_false (by omega)
  by_cases hq2 : q < 2 ^ 52
  · have : a = 0 := by omega
    subst this
    have e1 : dblExp d = 0 := by unfold dblExp; rw [h]; omega
    have e2 : dblFrac d = q := by unfold dblFrac; rw [h]; omega
    refine ⟨by rw [dblMant, if_pos e1, e2], by rw [dblPow, if_pos e1]; omega, hn, hi⟩
  · have e1 : dblExp d = a + 1 := by unfold dblExp; rw [h]; omega
    have e2 : dblFrac d = q - 2 ^ 52 := by unfold dblFrac; rw [h]; omega
    refine ⟨by rw [dblMant, if_neg (by omega), e2]; omega, by rw [dblPow, if_neg (by omega), e1]; omega, hn, hi⟩

/-! ## Conversion, powers of two, product and quotient -/

theorem dblOfU64_fields {m : U64} (hm : 0 < m.toNat) (hm2 : m.toNat < 2 ^ 53) :
    dblMant (dblOfU64 m) = m.toNat * 2 ^ (52 - Nat.log2 m.toNat) ∧
    dblPow (dblOfU64 m) = (Nat.log2 m.toNat : Int) - 52 ∧
    dblIsNan (dblOfU64 m) = false ∧ dblIsInf (dblOfU64 m) = false ∧ dblMag (dblOfU64 m) ≠ 0 ∧
    dblSign (dblOfU64 m) = false := by
  have hl := log2_le_52 hm hm2
  have hne : m ≠ 0#64 := by intro h; subst h; simp at hm
  have e := roundMag_exact (m := m.toNat) 0 0 (e := 0) (x := 0) hm hm2 (by omega) (by omega)
  rw [Nat.pow_zero, Nat.mul_one] at e
  have hp : lastPlace m.toNat 0 = (Nat.log2 m.toNat : Int) - 52 := by unfold lastPlace; omega
  have hlt := shifted_lt (x := 0) hm hm2
  have hge := shifted_ge (x := 0) hm hm2 (by rw [hp]; omega)
  have hs : (0 - lastPlace m.toNat 0).toNat = 52 - Nat.log2 m.toNat := by rw [hp]; omega
  rw [hs] at hlt hge
  have emag : exactMag m.toNat 0 = (Nat.log2 m.toNat + 1022) * 2 ^ 52 + m.toNat * 2 ^ (52 - Nat.log2 m.toNat) := by
    unfold exactMag
    rw [hs, show (lastPlace m.toNat 0 + 1074).toNat = Nat.log2 m.toNat + 1022 by rw [hp]; omega]
    omega
  have ed : dblOfU64 m = dblMake false (exactMag m.toNat 0) := by
    unfold dblOfU64
    rw [if_neg hne, e]
  have hb : exactMag m.toNat 0 < 2 ^ 63 := by rw [emag]; omega
  have hmag : dblMag (dblOfU64 m) = (Nat.log2 m.toNat + 1022) * 2 ^ 52 + m.toNat * 2 ^ (52 - Nat.log2 m.toNat) := by
    rw [ed, dblMag_make _ hb, emag]
  obtain ⟨f1, f2, f3, f4⟩ := fields_of_mag hmag hlt (Or.inr hge) (by omega)
  refine ⟨f1, by rw [f2]; omega, f3, f4, by rw [hmag]; omega, by rw [ed, dblSign_make _ hb]⟩

/-- The double `2 ^ k`. -/
def pow2 (k : Nat) : Dbl := dblMake false ((k + 1022) * 2 ^ 52 + 2 ^ 52)

theorem pow2_fields {k : Nat} (h : k ≤ 1023) :
    dblMant (pow2 k) = 2 ^ 52 ∧ dblPow (pow2 k) = (k : Int) - 52 ∧ dblIsNan (pow2 k) = false ∧
    dblIsInf (pow2 k) = false ∧ dblMag (pow2 k) ≠ 0 ∧ dblSign (pow2 k) = false := by
  have hb : (k + 1022) * 2 ^ 52 + 2 ^ 52 < 2 ^ 63 := by omega
  have hm := dblMag_make false hb
  obtain ⟨f1, f2, f3, f4⟩ := fields_of_mag (d := pow2 k) hm (by omega) (Or.inr (by omega)) (by omega)
  refine ⟨f1, by rw [f2]; omega, f3, f4, ?_, dblSign_make _ hb⟩
  unfold pow2; rw [hm]; omega

theorem pow2_zero : pow2 0 = 0x3FF0000000000000#64 := by decide +kernel
theorem pow2_one : pow2 1 = 0x4000000000000000#64 := by decide +kernel
theorem pow2_inf : pow2 1024 = dblInf := by decide +kernel

theorem dblMul_finite {a b : Dbl} (ha : dblIsNan a = false ∧ dblIsInf a = false ∧ dblMag a ≠ 0)
    (hb : dblIsNan b = false ∧ dblIsInf b = false ∧ dblMag b ≠ 0) :
    dblMul a b = dblMake (dblSign a != dblSign b) (roundMag (dblMant a * dblMant b) 1 (dblPow a + dblPow b)) := by
  unfold dblMul
  rw [if_neg (by simp [ha.1, hb.1]), if_neg (by simp [ha.2.1, hb.2.1]), if_neg (by simp [ha.2.2, hb.2.2])]

theorem dblDiv_finite {a b : Dbl} (ha : dblIsNan a = false ∧ dblIsInf a = false ∧ dblMag a ≠ 0)
    (hb : dblIsNan b = false ∧ dblIsInf b = false ∧ dblMag b ≠ 0) :
    dblDiv a b = dblMake (dblSign a != dblSign b) (roundMag (dblMant a) (dblMant b) (dblPow a - dblPow b)) := by
  unfold dblDiv
  rw [if_neg (by simp [ha.1, hb.1]), if_neg (by simp [ha.2.1]), if_neg (by simp [hb.2.1]), if_neg hb.2.2,
    if_neg ha.2.2]

theorem dblMul_inf {a : Dbl} (ha : dblIsNan a = false ∧ dblIsInf a = false ∧ dblMag a ≠ 0) (hs : dblSign a = false) :
    dblMul a dblInf = dblInf := by
  unfold dblMul
  rw [if_neg (by simp [ha.1]; decide +kernel), if_pos (by simp [show dblIsInf dblInf = true by decide +kernel]),
    if_neg (by simp [ha.2.2]; decide +kernel), hs]
  decide +kernel

theorem dblDiv_inf {a : Dbl} (ha : dblIsNan a = false ∧ dblIsInf a = false ∧ dblMag a ≠ 0) (hs : dblSign a = false) :
    dblDiv a dblInf = 0#64 := by
  unfold dblDiv
  rw [if_neg (by simp [ha.1]; decide +kernel), if_neg (by simp [ha.2.1]),
    if_pos (by decide +kernel), hs]
  decide +kernel

theorem pow2_double {k : Nat} (h : k ≤ 1023) : dblMul (pow2 k) 0x4000000000000000#64 = pow2 (k + 1) := by
  rw [← pow2_one]
  obtain ⟨a1, a2, a3, a4, a5, a6⟩ := pow2_fields h
  obtain ⟨b1, b2, b3, b4, b5, b6⟩ := pow2_fields (k := 1) (by omega)
  rw [dblMul_finite ⟨a3, a4, a5⟩ ⟨b3, b4, b5⟩, a1, a2, a6, b1, b2, b6]
  have e := roundMag_exact (m := 2 ^ 52) 52 0 (e := (k : Int) - 52 + ((1 : Nat) - 52 : Int)) (x := (k : Int) - 51) (by decide) (by decide)
    (by omega) (by omega)
  rw [Nat.pow_zero] at e
  rw [e]
  have hl : Nat.log2 (2 ^ 52) = 52 := Nat.log2_two_pow
  have hp : lastPlace (2 ^ 52) ((k : Int) - 51) = (k : Int) - 51 := by unfold lastPlace; rw [hl]; omega
  have he : exactMag (2 ^ 52) ((k : Int) - 51) = (k + 1 + 1022) * 2 ^ 52 + 2 ^ 52 := by
    unfold exactMag
    rw [hp, Int.sub_self, show ((k : Int) - 51 + 1074).toNat = k + 1023 by omega,
      show (0 : Int).toNat = 0 from rfl]
    omega
  rw [he]; rfl

theorem inf_double : dblMul dblInf 0x4000000000000000#64 = dblInf := by decide +kernel

theorem powLoop_inf : ∀ n, powLoop n dblInf = dblInf
  | 0 => rfl
  | n + 1 => by rw [powLoop, inf_double]; exact powLoop_inf n

theorem powLoop_pow2 : ∀ (n k : Nat), k ≤ 1024 → powLoop n (pow2 k) = pow2 (min (k + n) 1024)
  | 0, k, h => by rw [powLoop]; congr 1; omega
  | n + 1, k, h => by
    rw [powLoop]
    by_cases hk : k ≤ 1023
    · rw [pow2_double hk, powLoop_pow2 n (k + 1) (by omega)]
      congr 1; omega
    · have : k = 1024 := by omega
      subst this
      rw [pow2_inf, inf_double, powLoop_inf, ← pow2_inf]
      congr 1; omega

theorem powLoop_one (n : Nat) : powLoop n 0x3FF0000000000000#64 = pow2 (min n 1024) := by
  rw [← pow2_zero, powLoop_pow2 n 0 (by omega)]
  congr 1; omega

/-- What the decoder computes from a mantissa of at most 53 bits: exact (or infinite, when it is too large) for an
exponent of at least -1023, otherwise 0. -/
theorem getDouble_eq {m : U64} {x : Int} (hm : 0 < m.toNat) (hm2 : m.toNat < 2 ^ 53) (hx1 : -(2 ^ 31) < x)
    (hx2 : x < 2 ^ 31) :
    getDoubleByMantissaAndExp m x = pure (if -1023 ≤ x then dblMake false (exactMag m.toNat x) else 0#64) := by
  have hl := log2_le_52 hm hm2
  have hne : m ≠ 0#64 := by intro h; subst h; simp at hm
  obtain ⟨a1, a2, a3, a4, a5, a6⟩ := dblOfU64_fields hm hm2
  unfold getDoubleByMantissaAndExp
  rw [if_neg hne]
  by_cases h0 : x ≥ 0
  · rw [if_pos h0, if_pos (by omega), powLoop_one]
    congr 1
    by_cases hk : x ≤ 1023
    · rw [show min x.toNat 1024 = x.toNat by omega]
      obtain ⟨b1, b2, b3, b4, b5, b6⟩ := pow2_fields (k := x.toNat) (by omega)
      rw [dblMul_finite ⟨a3, a4, a5⟩ ⟨b3, b4, b5⟩, a1, a2, a6, b1, b2, b6]
      have e := roundMag_exact (m := m.toNat) (52 - Nat.log2 m.toNat + 52) 0
        (e := (Nat.log2 m.toNat : Int) - 52 + ((x.toNat : Int) - 52)) (x := x) hm hm2 (by omega) (by omega)
      rw [Nat.pow_zero, Nat.pow_add, ← Nat.mul_assoc] at e
      rw [e]; rfl
    · rw [show min x.toNat 1024 = 1024 by omega, pow2_inf, dblMul_inf ⟨a3, a4, a5⟩ a6]
      have : exactMag m.toNat x = 2047 * 2 ^ 52 := by
        have hp : lastPlace m.toNat x = (Nat.log2 m.toNat : Int) + x - 52 := by unfold lastPlace; omega
        have hge := shifted_ge (x := x) hm hm2 (by rw [hp]; omega)
        unfold exactMag
        have : 2046 ≤ (lastPlace m.toNat x + 1074).toNat := by rw [hp]; omega
        omega
      rw [this]
      decide +kernel
  · rw [if_neg h0]
    unfold chk32
    rw [if_pos (by omega), pure_bind, powLoop_one]
    congr 1
    by_cases hk : -1023 ≤ x
    · rw [if_pos hk, show min (-x).toNat 1024 = (-x).toNat by omega]
      obtain ⟨b1, b2, b3, b4, b5, b6⟩ := pow2_fields (k := (-x).toNat) (by omega)
      rw [dblDiv_finite ⟨a3, a4, a5⟩ ⟨b3, b4, b5⟩, a1, a2, a6, b1, b2, b6]
      rw [roundMag_exact (m := m.toNat) (52 - Nat.log2 m.toNat) 52
        (e := (Nat.log2 m.toNat : Int) - 52 - (((-x).toNat : Int) - 52)) (x := x) hm hm2 (by omega) (by omega)]
      rfl
    · rw [if_neg hk, show min (-x).toNat 1024 = 1024 by omega, pow2_inf, dblDiv_inf ⟨a3, a4, a5⟩ a6]

/-! ## Sign, comparison, fields -/

theorem dblMag_lt (d : Dbl) : dblMag d < 2 ^ 63 := Nat.mod_lt _ (by decide)

theorem pow_add_eq_or {n a : Nat} (h : a < 2 ^ n) : 2 ^ n + a = 2 ^ n ||| a := by
  have := Nat.two_pow_add_eq_or_of_lt h 1
  rwa [Nat.mul_one] at this

theorem dblNeg_make (s : Bool) {mag : Nat} (h : mag < 2 ^ 63) : dblNeg (dblMake s mag) = dblMake (!s) mag := by
  apply BitVec.eq_of_toNat_eq
  unfold dblNeg
  rw [BitVec.toNat_xor, dblMake_toNat _ h, dblMake_toNat _ h]
  rw [show (0x8000000000000000#64).toNat = 2 ^ 63 from rfl]
  cases s
  · simp only [Bool.not_false, if_true, Bool.false_eq_true, if_false, Nat.zero_add]
    rw [pow_add_eq_or h]
    apply Nat.eq_of_testBit_eq
    intro i
    simp only [Nat.testBit_xor, Nat.testBit_or, Nat.testBit_two_pow]
    by_cases hi : 63 = i
    · subst hi; rw [Nat.testBit_lt_two_pow h]; simp
    · simp [hi]
  · simp only [Bool.not_true, if_true, Bool.false_eq_true, if_false, Nat.zero_add]
    rw [pow_add_eq_or h]
    apply Nat.eq_of_testBit_eq
    intro i
    simp only [Nat.testBit_xor, Nat.testBit_or, Nat.testBit_two_pow]
    by_cases hi : 63 = i
    · subst hi; rw [Nat.testBit_lt_two_pow h]; simp
    · simp [hi]

theorem dblNeg_eq (d : Dbl) : dblNeg d = dblMake (!dblSign d) (dblMag d) := by
  have h := dblNeg_make (dblSign d) (dblMag_lt d)
  rw [dblMake_fields] at h
  exact h

theorem dblAbs_eq (d : Dbl) : dblAbs d = dblMake false (dblMag d) := by
  apply BitVec.eq_of_toNat_eq
  unfold dblAbs
  rw [dblMake_toNat _ (dblMag_lt d), BitVec.toNat_and, show (0x7FFFFFFFFFFFFFFF#64).toNat = 2 ^ 63 - 1 from rfl,
    Nat.and_two_pow_sub_one_eq_mod]
  simp [dblMag]

theorem dblFrac_lt (d : Dbl) : dblFrac d < 2 ^ 52 := Nat.mod_lt _ (by decide)

theorem dblExp_lt (d : Dbl) : dblExp d < 2048 := by
  have := dblMag_lt d
  unfold dblExp
  omega

theorem dblMag_split (d : Dbl) : dblMag d = dblExp d * 2 ^ 52 + dblFrac d := by
  unfold dblExp dblFrac; omega

theorem calculate_exponent (d : Dbl) : (calculateMantissaAndExponent d).1 = (dblExp d : Int) - 1075 := by
  unfold calculateMantissaAndExponent
  have h := dblExp_lt d
  have e : (d &&& 0x7FF0000000000000#64) >>> 52 = BitVec.ofNat 64 (dblExp d) := by
    apply BitVec.eq_of_toNat_eq
    rw [BitVec.toNat_ushiftRight, BitVec.toNat_and, Nat.shiftRight_and_distrib, BitVec.toNat_ofNat, BitVec.toNat_ofNat,
      show (0x7FF0000000000000 % 2 ^ 64) >>> 52 = 2 ^ 11 - 1 from rfl, Nat.and_two_pow_sub_one_eq_mod,
      Nat.shiftRight_eq_div_pow, Nat.mod_eq_of_lt (by omega : dblExp d < 2 ^ 64)]
    unfold dblExp dblMag
    omega
  simp only [e]
  simp only [BitVec.toInt, BitVec.toNat_setWidth, BitVec.toNat_sub, BitVec.toNat_ofNat]
  omega

theorem calculate_mantissa (d : Dbl) : (calculateMantissaAndExponent d).2.toNat = 2 ^ 52 + dblFrac d := by
  unfold calculateMantissaAndExponent
  dsimp only
  rw [BitVec.toNat_or, BitVec.toNat_and, show (0x000FFFFFFFFFFFFF#64).toNat = 2 ^ 52 - 1 from rfl,
    Nat.and_two_pow_sub_one_eq_mod, show (0x0010000000000000#64).toNat = 2 ^ 52 from rfl, Nat.or_comm,
    ← pow_add_eq_or (Nat.mod_lt _ (by decide))]
  congr 1
  unfold dblFrac dblMag
  omega

theorem dblExp_make (s : Bool) {mag : Nat} (h : mag < 2 ^ 63) : dblExp (dblMake s mag) = mag / 2 ^ 52 := by
  unfold dblExp; rw [dblMag_make s h]

theorem dblFrac_make (s : Bool) {mag : Nat} (h : mag < 2 ^ 63) : dblFrac (dblMake s mag) = mag % 2 ^ 52 := by
  unfold dblFrac; rw [dblMag_make s h]

end Asn1
