import Verif.Proof.Real3
import Mathlib.Tactic.Linarith
import Mathlib.Tactic.LinearCombination
/-!
# REAL: mantissas of 54 to 64 bits
-/
namespace Asn1

/-- `rne` is the integer nearest to `n / d`, even if there are two. -/
theorem rne_nearest (n : Nat) {d : Nat} (hd : 0 < d) (k : Int) :
    |(rne n d : Int) * d - n| ≤ |k * d - n| ∧
    (|k * d - n| = |(rne n d : Int) * d - n| → k ≠ rne n d → rne n d % 2 = 0) := by
  have h1 : (n : Int) = (d : Int) * (n / d : Nat) + (n % d : Nat) := by exact_mod_cast (Nat.div_add_mod n d).symm
  have h2 := Nat.mod_lt n hd
  have hd' : (0 : Int) < d := by exact_mod_cast hd
  have hr : |(rne n d : Int) * d - n| = (min (n % d) (d - n % d) : Nat) ∧
      ((rne n d : Int) = (n / d : Nat) ∧ 2 * (n % d) ≤ d ∧ (2 * (n % d) = d → n / d % 2 = 0) ∨
       (rne n d : Int) = (n / d : Nat) + 1 ∧ d ≤ 2 * (n % d) ∧ (2 * (n % d) = d → n / d % 2 = 1)) := by
    unfold rne
    generalize n / d = q at *
    generalize n % d = r at *
    split
    · rename_i h
      have e : ((q : Nat) : Int) * d - n = -(r : Int) := by rw [h1]; ring
      rw [e, abs_neg, abs_of_nonneg (by omega)]
      refine ⟨by omega, Or.inl ⟨rfl, by omega, by omega⟩⟩
    · rename_i h
      have e : ((q + 1 : Nat) : Int) * d - n = (d : Int) - r := by rw [h1]; push_cast; ring
      rw [e, abs_of_nonneg (by omega)]
      refine ⟨by omega, Or.inr ⟨by push_cast; rfl, by omega, by omega⟩⟩
  have hk : (k = (n / d : Nat) ∧ |k * d - n| = (n % d : Nat)) ∨ (k = (n / d : Nat) + 1 ∧ |k * d - n| = d - (n % d : Nat)) ∨
      (k < (n / d : Nat) ∧ (d : Int) + (n % d : Nat) ≤ |k * d - n|) ∨
      ((n / d : Nat) + 1 < k ∧ (d : Int) + d - (n % d : Nat) ≤ |k * d - n|) := by
    generalize n / d = q at *
    generalize n % d = r at *
    rcases lt_trichotomy k (q : Int) with hlt | heq | hgt
    · refine Or.inr (Or.inr (Or.inl ⟨hlt, ?_⟩))
      have : (k + 1) * (d : Int) ≤ q * d := mul_le_mul_of_nonneg_right (by omega) hd'.le
      rw [abs_of_nonpos (by nlinarith)]
      nlinarith
    · refine Or.inl ⟨heq, ?_⟩
      have e : k * d - n = -(r : Int) := by rw [h1, heq]; ring
      rw [e, abs_neg, abs_of_nonneg (by omega)]
    · by_cases h : k = q + 1
      · refine Or.inr (Or.inl ⟨h, ?_⟩)
        have e : k * d - n = (d : Int) - r := by rw [h1, h]; ring
        rw [e, abs_of_nonneg (by omega)]
      · refine Or.inr (Or.inr (Or.inr ⟨by omega, ?_⟩))
        have : ((q : Int) + 2) * (d : Int) ≤ k * d := mul_le_mul_of_nonneg_right (by omega) hd'.le
        rw [abs_of_nonneg (by nlinarith)]
        nlinarith
  obtain ⟨hr1, hr2⟩ := hr
  rw [hr1]
  generalize |k * (d : Int) - n| = z at *
  generalize rne n d = w at *
  generalize n / d = q at *
  generalize n % d = r at *
  clear h1 hr1
  constructor
  · omega
  · omega

/-! ## What the decoder computes -/

theorem rne_bounds {m : Nat} (h1 : 2 ^ 52 ≤ m) :
    2 ^ 52 ≤ rne m (2 ^ (Nat.log2 m - 52)) ∧ rne m (2 ^ (Nat.log2 m - 52)) ≤ 2 ^ 53 := by
  have hl1 := Nat.log2_self_le (n := m) (by omega)
  have hl2 := Nat.lt_log2_self (n := m)
  have hl : 52 ≤ Nat.log2 m := by
    apply Decidable.byContradiction
    intro h
    have : 2 ^ (Nat.log2 m + 1) ≤ 2 ^ 52 := Nat.pow_le_pow_right (by omega) (by omega)
    omega
  have hp := Nat.two_pow_pos (Nat.log2 m - 52)
  have e1 : 2 ^ Nat.log2 m = 2 ^ 52 * 2 ^ (Nat.log2 m - 52) := by rw [← Nat.pow_add]; congr 1; omega
  have e2 : 2 ^ (Nat.log2 m + 1) = 2 ^ 53 * 2 ^ (Nat.log2 m - 52) := by rw [← Nat.pow_add]; congr 1; omega
  rw [e1] at hl1
  rw [e2] at hl2
  have a1 : 2 ^ 52 ≤ m / 2 ^ (Nat.log2 m - 52) := (Nat.le_div_iff_mul_le hp).2 hl1
  have a2 : m / 2 ^ (Nat.log2 m - 52) < 2 ^ 53 := (Nat.div_lt_iff_lt_mul hp).2 hl2
  unfold rne
  split <;> omega

/-- The 53 bit integer `q` and the exponent `j` of the double nearest to an integer of 54 to 64 bits. -/
def roundedMant (m : Nat) : Nat :=
  if rne m (2 ^ (Nat.log2 m - 52)) < 2 ^ 53 then rne m (2 ^ (Nat.log2 m - 52)) else 2 ^ 52

def roundedExp (m : Nat) : Nat :=
  if rne m (2 ^ (Nat.log2 m - 52)) < 2 ^ 53 then Nat.log2 m - 52 else Nat.log2 m - 51

theorem rounded_eq {m : Nat} (h1 : 2 ^ 53 ≤ m) :
    roundedMant m * 2 ^ roundedExp m = rne m (2 ^ (Nat.log2 m - 52)) * 2 ^ (Nat.log2 m - 52) ∧
    2 ^ 52 ≤ roundedMant m ∧ roundedMant m < 2 ^ 53 ∧
    (roundedMant m % 2 = rne m (2 ^ (Nat.log2 m - 52)) % 2) ∧
    (roundedExp m + 1074) * 2 ^ 52 + roundedMant m =
      (Nat.log2 m - 52 + 1074) * 2 ^ 52 + rne m (2 ^ (Nat.log2 m - 52)) := by
  obtain ⟨b1, b2⟩ := rne_bounds (m := m) (by omega)
  have hl : 53 ≤ Nat.log2 m := (Nat.le_log2 (by omega)).2 h1
  unfold roundedMant roundedExp
  generalize rne m (2 ^ (Nat.log2 m - 52)) = q at *
  split
  · exact ⟨rfl, b1, by omega, rfl, rfl⟩
  · have : q = 2 ^ 53 := by omega
    subst this
    refine ⟨?_, by omega, by omega, by decide, by omega⟩
    rw [show Nat.log2 m - 51 = Nat.log2 m - 52 + 1 by omega, Nat.pow_succ]
    omega

theorem log2_rounded {m : Nat} (h1 : 2 ^ 53 ≤ m) : Nat.log2 (roundedMant m) = 52 :=
  (Nat.log2_eq_iff (by have := rounded_eq h1; omega)).2 (by have := rounded_eq h1; omega)

theorem dblOfU64_big {m : U64} (h1 : 2 ^ 53 ≤ m.toNat) :
    dblMant (dblOfU64 m) = roundedMant m.toNat ∧ dblPow (dblOfU64 m) = roundedExp m.toNat ∧
    dblIsNan (dblOfU64 m) = false ∧ dblIsInf (dblOfU64 m) = false ∧ dblMag (dblOfU64 m) ≠ 0 ∧
    dblSign (dblOfU64 m) = false := by
  have hlt := m.isLt
  have hl : 53 ≤ Nat.log2 m.toNat := (Nat.le_log2 (by omega)).2 h1
  have hl2 : Nat.log2 m.toNat < 64 := (Nat.log2_lt (by omega)).2 hlt
  have hne : m ≠ 0#64 := by intro h; subst h; simp at h1
  obtain ⟨b1, b2⟩ := rne_bounds (m := m.toNat) (by omega)
  obtain ⟨c1, c2, c3, c4, c5⟩ := rounded_eq h1
  have hf : floorLog2 m.toNat 1 = Nat.log2 m.toNat := by
    have := floorLog2_pow (m := m.toNat) 0 0 (by omega)
    rw [Nat.pow_zero, Nat.mul_one] at this
    rw [this]; omega
  have hx : max (((Nat.log2 m.toNat : Nat) : Int) + 0 - 52) (-1074) = ((Nat.log2 m.toNat - 52 : Nat) : Int) := by omega
  have hmag : roundMag m.toNat 1 0 = (roundedExp m.toNat + 1074) * 2 ^ 52 + roundedMant m.toNat := by
    rw [c5]
    unfold roundMag
    dsimp only
    rw [hf, hx, show ((0 : Int) - ((Nat.log2 m.toNat - 52 : Nat) : Int)).toNat = 0 by omega, Nat.pow_zero, Nat.mul_one,
      Nat.one_mul, show (((Nat.log2 m.toNat - 52 : Nat) : Int) - 0).toNat = Nat.log2 m.toNat - 52 by omega,
      show (((Nat.log2 m.toNat - 52 : Nat) : Int) + 1074).toNat = Nat.log2 m.toNat - 52 + 1074 by omega]
    clear hx hf c5 c4 c3 c2 c1
    generalize rne m.toNat (2 ^ (Nat.log2 m.toNat - 52)) = q at *
    have ha : Nat.log2 m.toNat - 52 + 1074 ≤ 1085 := by omega
    generalize Nat.log2 m.toNat - 52 + 1074 = a at *
    exact Nat.min_eq_left (by omega)
  have he : roundedExp m.toNat ≤ 12 := by unfold roundedExp; split <;> omega
  have hb : roundMag m.toNat 1 0 < 2 ^ 63 := by rw [hmag]; omega
  have ed : dblOfU64 m = dblMake false (roundMag m.toNat 1 0) := by unfold dblOfU64; rw [if_neg hne]
  have hm : dblMag (dblOfU64 m) = (roundedExp m.toNat + 1074) * 2 ^ 52 + roundedMant m.toNat := by
    rw [ed, dblMag_make _ hb, hmag]
  obtain ⟨f1, f2, f3, f4⟩ := fields_of_mag hm c3 (Or.inr c2) (by omega)
  exact ⟨f1, by rw [f2]; omega, f3, f4, by rw [hm]; omega, by rw [ed, dblSign_make _ hb]⟩

/-- What the decoder computes from a mantissa of 54 to 64 bits. -/
theorem getDouble_big {m : U64} {x : Int} (hm : 2 ^ 53 ≤ m.toNat) (hx1 : -(2 ^ 31) < x) (hx2 : x < 2 ^ 31) :
    getDoubleByMantissaAndExp m x =
      pure (if -1023 ≤ x then dblMake false (exactMag (roundedMant m.toNat) (roundedExp m.toNat + x)) else 0#64) := by
  have hne : m ≠ 0#64 := by intro h; subst h; simp at hm
  obtain ⟨a1, a2, a3, a4, a5, a6⟩ := dblOfU64_big hm
  obtain ⟨-, c2, c3, -, -⟩ := rounded_eq hm
  have hl := log2_rounded hm
  unfold getDoubleByMantissaAndExp
  rw [if_neg hne]
  generalize roundedMant m.toNat = q at *
  generalize roundedExp m.toNat = j at *
  by_cases h0 : x ≥ 0
  · rw [if_pos h0, if_pos (by omega), powLoop_one]
    congr 1
    by_cases hk : x ≤ 1023
    · rw [show min x.toNat 1024 = x.toNat by omega]
      obtain ⟨b1, b2, b3, b4, b5, b6⟩ := pow2_fields (k := x.toNat) (by omega)
      rw [dblMul_finite ⟨a3, a4, a5⟩ ⟨b3, b4, b5⟩, a1, a2, a6, b1, b2, b6]
      have e := roundMag_exact (m := q) 52 0 (e := (j : Int) + ((x.toNat : Int) - 52)) (x := j + x) (by omega) c3 (by omega) (by omega)
      rw [Nat.pow_zero] at e
      rw [e]; rfl
    · rw [show min x.toNat 1024 = 1024 by omega, pow2_inf, dblMul_inf ⟨a3, a4, a5⟩ a6]
      have : exactMag q (j + x) = 2047 * 2 ^ 52 := by
        have hp : lastPlace q (j + x) = (j : Int) + x := by unfold lastPlace; rw [hl]; omega
        have hge := shifted_ge (m := q) (x := j + x) (by omega) c3 (by rw [hp]; omega)
        unfold exactMag
        have ha : 2046 ≤ (lastPlace q (j + x) + 1074).toNat := by rw [hp]; omega
        clear a1 a2
        generalize q * 2 ^ (j + x - lastPlace q (j + x)).toNat = w at *
        generalize (lastPlace q (j + x) + 1074).toNat = a at *
        exact Nat.min_eq_right (by omega)
      rw [this]
      decide +kernel
  · rw [if_neg h0]
    unfold chk32
    rw [if_pos (by omega), pure_bind, powLoop_one]
    congr 1
    by_cases hk : -1023 ≤ x
    · rw [if_pos hk, show min (-x).toNat 1024 = (-x).toNat by omega]
      obtain ⟨b1, b2, b3, b4, b5, b6⟩ := pow2_fields (k := (-x).toNat) (by omega)
      rw [dblDiv_finite ⟨a3, a4, a5⟩ ⟨b3, b4, b5⟩, a1, a2, a6, b1, b2, b6]
      have e := roundMag_exact (m := q) 0 52 (e := (j : Int) - (((-x).toNat : Int) - 52)) (x := j + x) (by omega) c3 (by omega) (by omega)
      rw [Nat.pow_zero, Nat.mul_one] at e
      rw [e]; rfl
    · rw [if_neg hk, show min (-x).toNat 1024 = 1024 by omega, pow2_inf, dblDiv_inf ⟨a3, a4, a5⟩ a6]

theorem BinaryReal.decoded_big {r : BinaryReal} (h : r.Ok) (hm : 2 ^ 53 ≤ r.mantissa * 2 ^ r.scale)
    (hm2 : r.mantissa * 2 ^ r.scale < 2 ^ 64) :
    r.decoded = pure (dblMake r.neg (if -1023 ≤ (r.baseLog : Int) * r.exponent
      then exactMag (roundedMant (r.mantissa * 2 ^ r.scale)) (roundedExp (r.mantissa * 2 ^ r.scale) + r.baseLog * r.exponent) else 0)) := by
  unfold BinaryReal.decoded
  obtain ⟨p1, p2⟩ := BinaryReal.power_bounds h
  have et : (BitVec.ofNat 64 (r.mantissa * 2 ^ r.scale)).toNat = r.mantissa * 2 ^ r.scale := by
    rw [BitVec.toNat_ofNat, Nat.mod_eq_of_lt (by omega)]
  rw [getDouble_big (by rw [et]; exact hm) p1 p2, pure_bind, et]
  congr 1
  have hb : exactMag (roundedMant (r.mantissa * 2 ^ r.scale)) (roundedExp (r.mantissa * 2 ^ r.scale) + r.baseLog * r.exponent) < 2 ^ 63 := by
    unfold exactMag; omega
  have hz : (0#64 : Dbl) = dblMake false 0 := by decide
  cases r.neg
  · rw [if_neg (by simp)]; split
    · rfl
    · exact hz
  · rw [if_pos rfl]
    split
    · rw [dblNeg_make _ hb]; rfl
    · rw [hz, dblNeg_make _ (by omega)]; rfl

/-! ## Nearest -/

/-- Every finite double is a 53 bit integer times a power of two from -1074 to 971. -/
theorem doubleValue_form (d : Dbl) (h : IsFinite d) :
    ∃ (k p : Int), doubleValue d = (k : ℚ) * (2 : ℚ) ^ p ∧ |k| < 2 ^ 53 ∧ p ≤ 971 := by
  unfold IsFinite at h
  have hlt := Nat.mod_lt d.toNat (show 0 < 2 ^ 52 by decide)
  have he := Nat.mod_lt (d.toNat / 2 ^ 52) (show 0 < 2 ^ 11 by decide)
  unfold doubleValue
  dsimp only
  generalize d.toNat / 2 ^ 52 % 2 ^ 11 = e at *
  generalize d.toNat % 2 ^ 52 = f at *
  by_cases h0 : e = 0
  · rw [if_pos h0]
    refine ⟨(if d.toNat / 2 ^ 63 = 1 then -1 else 1) * (f : Int), -1074, ?_, ?_, by omega⟩
    · push_cast; rfl
    · split
      · rw [abs_mul, abs_neg, abs_one, one_mul, abs_of_nonneg (by omega)]; omega
      · rw [abs_mul, abs_one, one_mul, abs_of_nonneg (by omega)]; omega
  · rw [if_neg h0]
    refine ⟨(if d.toNat / 2 ^ 63 = 1 then -1 else 1) * ((2 ^ 52 + f : Nat) : Int), (e : Int) - 1075, ?_, ?_, by omega⟩
    · push_cast; congr 2
    · split
      · rw [abs_mul, abs_neg, abs_one, one_mul, abs_of_nonneg (by omega)]; omega
      · rw [abs_mul, abs_one, one_mul, abs_of_nonneg (by omega)]; omega

/-- The general step: `v = σ * m / 2 ^ i * u`, `d = σ * q * u`, with `q` the rounded `m / 2 ^ i`. -/
theorem nearest_of {σ : Int} (hσ : σ = 1 ∨ σ = -1) {m i : Nat} {y : Int} (hm : 2 ^ 52 * 2 ^ i ≤ m) {d d' : Dbl}
    (hd : doubleValue d = (σ : ℚ) * (rne m (2 ^ i) : ℚ) * (2 : ℚ) ^ (y + i))
    (hd' : IsFinite d') :
    |doubleValue d - (σ : ℚ) * m * (2 : ℚ) ^ y| ≤ |doubleValue d' - (σ : ℚ) * m * (2 : ℚ) ^ y| ∧
    (|doubleValue d' - (σ : ℚ) * m * (2 : ℚ) ^ y| = |doubleValue d - (σ : ℚ) * m * (2 : ℚ) ^ y| →
      doubleValue d' ≠ doubleValue d → rne m (2 ^ i) % 2 = 0) := by
  have hu : (0 : ℚ) < (2 : ℚ) ^ y := zpow_pos (by norm_num) _
  have hσ1 : |(σ : ℚ)| = 1 := by rcases hσ with h | h <;> rw [h] <;> simp
  have hσ2 : σ * σ = 1 := by rcases hσ with h | h <;> rw [h] <;> rfl
  have hp : (2 : ℚ) ^ (y + (i : Int)) = (2 : ℚ) ^ i * (2 : ℚ) ^ y := by
    rw [zpow_add₀ (by norm_num), zpow_natCast, mul_comm]
  -- distance of an integer multiple of `u`
  have dist : ∀ k : Int, |((k : ℚ) * (2 : ℚ) ^ (y + (i : Int))) - (σ : ℚ) * m * (2 : ℚ) ^ y| =
      ((|(σ * k) * ((2 ^ i : Nat) : Int) - m| : Int) : ℚ) * (2 : ℚ) ^ y := by
    intro k
    have e : (k : ℚ) * (2 : ℚ) ^ (y + (i : Int)) - (σ : ℚ) * m * (2 : ℚ) ^ y =
        (σ : ℚ) * ((((σ * k) * ((2 ^ i : Nat) : Int) - m : Int)) : ℚ) * (2 : ℚ) ^ y := by
      rw [hp]; push_cast
      have : (σ : ℚ) * σ = 1 := by exact_mod_cast hσ2
      linear_combination (-(k : ℚ) * 2 ^ i * (2 : ℚ) ^ y) * this
    rw [e, abs_mul, abs_mul, hσ1, one_mul, abs_of_pos hu, Int.cast_abs]
  have near := rne_nearest m (Nat.two_pow_pos i)
  have dd := dist (σ * (rne m (2 ^ i) : Int))
  have ed : doubleValue d = ((σ * (rne m (2 ^ i) : Int) : Int) : ℚ) * (2 : ℚ) ^ (y + (i : Int)) := by rw [hd]; push_cast; rfl
  rw [← ed, ← mul_assoc, hσ2, one_mul] at dd
  obtain ⟨k, p, e, hk, -⟩ := doubleValue_form d' hd'
  by_cases hpp : y + i ≤ p
  · -- an integer multiple
    have e' : doubleValue d' = ((k * 2 ^ (p - (y + i)).toNat : Int) : ℚ) * (2 : ℚ) ^ (y + (i : Int)) := by
      rw [e]; push_cast
      rw [mul_assoc, ← zpow_natCast, ← zpow_add₀ (by norm_num), Int.toNat_of_nonneg (by omega)]
      congr 2; omega
    rw [e', dist, dd]
    generalize (k * 2 ^ (p - (y + i)).toNat : Int) = k' at *
    obtain ⟨n1, n2⟩ := near (σ * k')
    constructor
    · exact mul_le_mul_of_nonneg_right (by exact_mod_cast n1) hu.le
    · intro heq hne
      have h1 := mul_right_cancel₀ hu.ne' heq
      refine n2 (by exact_mod_cast h1) ?_
      intro hc
      apply hne
      rw [ed, ← hc, ← mul_assoc, hσ2, one_mul]
  · -- smaller than every candidate
    have hlow := dist (σ * 2 ^ 52)
    rw [← mul_assoc, hσ2, one_mul] at hlow
    obtain ⟨n1, -⟩ := near (2 ^ 52)
    have hmi : (0 : Int) ≤ (m : Int) - 2 ^ 52 * ((2 ^ i : Nat) : Int) := by
      have : ((2 ^ 52 * 2 ^ i : Nat) : Int) ≤ (m : Int) := by exact_mod_cast hm
      push_cast at this ⊢; omega
    have ea : |(2 ^ 52 : Int) * ((2 ^ i : Nat) : Int) - m| = (m : Int) - 2 ^ 52 * ((2 ^ i : Nat) : Int) := by
      rw [abs_sub_comm, abs_of_nonneg hmi]
    have hsmall : |doubleValue d'| < (2 : ℚ) ^ 52 * (2 : ℚ) ^ (y + (i : Int)) := by
      rw [e, abs_mul, abs_of_pos (zpow_pos (by norm_num) p : (0 : ℚ) < (2 : ℚ) ^ p)]
      have h1 : |(k : ℚ)| < 2 ^ 53 := by rw [← Int.cast_abs]; exact_mod_cast hk
      have h2 : (2 : ℚ) ^ p ≤ (2 : ℚ) ^ (y + (i : Int) - 1) := zpow_le_zpow_right₀ (by norm_num) (by omega)
      calc |(k : ℚ)| * (2 : ℚ) ^ p < 2 ^ 53 * (2 : ℚ) ^ p := mul_lt_mul_of_pos_right h1 (zpow_pos (by norm_num) _)
        _ ≤ 2 ^ 53 * (2 : ℚ) ^ (y + (i : Int) - 1) := mul_le_mul_of_nonneg_left h2 (by norm_num)
        _ = _ := by rw [zpow_sub_one₀ (by norm_num)]; ring
    have hv : |(σ : ℚ) * m * (2 : ℚ) ^ y| = (m : ℚ) * (2 : ℚ) ^ y := by
      rw [abs_mul, abs_mul, hσ1, one_mul, abs_of_pos hu, abs_of_nonneg (by positivity)]
    have hstrict : |doubleValue d - (σ : ℚ) * m * (2 : ℚ) ^ y| < |doubleValue d' - (σ : ℚ) * m * (2 : ℚ) ^ y| := by
      rw [dd]
      have t1 : ((|(rne m (2 ^ i) : Int) * ((2 ^ i : Nat) : Int) - m| : Int) : ℚ) * (2 : ℚ) ^ y ≤
          (((m : Int) - 2 ^ 52 * ((2 ^ i : Nat) : Int) : Int) : ℚ) * (2 : ℚ) ^ y := by
        refine mul_le_mul_of_nonneg_right ?_ hu.le
        rw [← ea]; exact_mod_cast n1
      have t2 := abs_sub_abs_le_abs_sub ((σ : ℚ) * m * (2 : ℚ) ^ y) (doubleValue d')
      rw [abs_sub_comm ((σ : ℚ) * m * (2 : ℚ) ^ y), hv] at t2
      rw [hp] at hsmall
      have t3 : (((m : Int) - 2 ^ 52 * ((2 ^ i : Nat) : Int) : Int) : ℚ) * (2 : ℚ) ^ y =
          (m : ℚ) * (2 : ℚ) ^ y - (2 : ℚ) ^ 52 * ((2 : ℚ) ^ i * (2 : ℚ) ^ y) := by push_cast; ring
      rw [t3] at t1
      linarith
    exact ⟨hstrict.le, fun h => absurd h hstrict.ne'⟩

/-! ## The largest doubles -/

theorem rne_lt_iff {m D : Nat} (hD : 0 < D) (h : m < 2 ^ 53 * D) : rne m D < 2 ^ 53 ↔ 2 * m < (2 ^ 54 - 1) * D := by
  have h1 := Nat.div_add_mod m D
  have h2 := Nat.mod_lt m hD
  have h3 : m / D < 2 ^ 53 := (Nat.div_lt_iff_lt_mul hD).2 h
  unfold rne
  generalize m / D = q at *
  generalize m % D = r at *
  by_cases hq : q = 2 ^ 53 - 1
  · subst hq
    split <;> constructor <;> intro <;> omega
  · have h4 : D * q ≤ D * (2 ^ 53 - 2) := Nat.mul_le_mul_left _ (by omega)
    have : (if 2 * r < D ∨ 2 * r = D ∧ q % 2 = 0 then q else q + 1) < 2 ^ 53 := by split <;> omega
    refine ⟨fun _ => ?_, fun _ => this⟩
    omega

/-- The limit above which doubles overflow, in integers. -/
theorem limit_iff {m i : Nat} {x : Int} (h : (i : Int) + x = 971) :
    (m : ℚ) * (2 : ℚ) ^ x < (2 : ℚ) ^ (1024 : ℤ) - (2 : ℚ) ^ (970 : ℤ) ↔ 2 * m < (2 ^ 54 - 1) * 2 ^ i := by
  have hx : x = 970 + 1 - (i : Int) := by omega
  have hu : (0 : ℚ) < (2 : ℚ) ^ (970 : ℤ) := zpow_pos (by norm_num) _
  have hi : (0 : ℚ) < (2 : ℚ) ^ i := pow_pos (by norm_num) _
  have e1 : (2 : ℚ) ^ (1024 : ℤ) - (2 : ℚ) ^ (970 : ℤ) = (2 ^ 54 - 1) * (2 : ℚ) ^ (970 : ℤ) := by
    rw [show (1024 : ℤ) = 54 + 970 by norm_num, zpow_add₀ (by norm_num)]
    generalize (2 : ℚ) ^ (970 : ℤ) = u
    norm_num; ring
  have e2 : (m : ℚ) * (2 : ℚ) ^ x = 2 * m / (2 : ℚ) ^ i * (2 : ℚ) ^ (970 : ℤ) := by
    rw [hx, zpow_sub₀ (by norm_num), zpow_add₀ (by norm_num), zpow_natCast]
    generalize (2 : ℚ) ^ (970 : ℤ) = u
    rw [zpow_one]; field_simp
  rw [e1, e2, mul_lt_mul_iff_left₀ hu, div_lt_iff₀ hi]
  constructor
  · intro h
    have : ((2 * m : Nat) : ℚ) < (((2 ^ 54 - 1) * 2 ^ i : Nat) : ℚ) := by push_cast; norm_num at h ⊢; exact h
    exact_mod_cast this
  · intro h
    have : ((2 * m : Nat) : ℚ) < (((2 ^ 54 - 1) * 2 ^ i : Nat) : ℚ) := by exact_mod_cast h
    push_cast at this; norm_num at this ⊢; exact this

theorem limit_lt : (2 : ℚ) ^ (1023 : ℤ) ≤ (2 : ℚ) ^ (1024 : ℤ) - (2 : ℚ) ^ (970 : ℤ) ∧
    (2 : ℚ) ^ (1024 : ℤ) - (2 : ℚ) ^ (970 : ℤ) < (2 : ℚ) ^ (1024 : ℤ) ∧
    (2 : ℚ) ^ (1024 : ℤ) - (2 : ℚ) ^ (971 : ℤ) < (2 : ℚ) ^ (1024 : ℤ) - (2 : ℚ) ^ (970 : ℤ) := by
  have e1 : (2 : ℚ) ^ (1024 : ℤ) = 2 * (2 : ℚ) ^ (1023 : ℤ) := by
    rw [show (1024 : ℤ) = 1 + 1023 by norm_num, zpow_add₀ (by norm_num), zpow_one]
  have e2 : (2 : ℚ) ^ (971 : ℤ) = 2 * (2 : ℚ) ^ (970 : ℤ) := by
    rw [show (971 : ℤ) = 1 + 970 by norm_num, zpow_add₀ (by norm_num), zpow_one]
  have e3 : (2 : ℚ) ^ (970 : ℤ) ≤ (2 : ℚ) ^ (1023 : ℤ) := zpow_le_zpow_right₀ (by norm_num) (by norm_num)
  have hu : (0 : ℚ) < (2 : ℚ) ^ (970 : ℤ) := zpow_pos (by norm_num) _
  rw [e1, e2]
  clear e1 e2
  generalize (2 : ℚ) ^ (970 : ℤ) = u at *
  generalize (2 : ℚ) ^ (1023 : ℤ) = v at *
  exact ⟨by linarith, by linarith, by linarith⟩

theorem lt_pow_log2 (m : Nat) (x : Int) : (m : ℚ) * (2 : ℚ) ^ x < (2 : ℚ) ^ ((Nat.log2 m : Int) + 1 + x) := by
  have h1 : (m : ℚ) < ((2 ^ (Nat.log2 m + 1) : Nat) : ℚ) := by exact_mod_cast Nat.lt_log2_self (n := m)
  rw [zpow_add₀ (by norm_num) ((Nat.log2 m : Int) + 1), show ((Nat.log2 m : Int) + 1) = ((Nat.log2 m + 1 : Nat) : Int) by push_cast; rfl,
    zpow_natCast]
  push_cast at h1
  exact mul_lt_mul_of_pos_right h1 (zpow_pos (by norm_num) _)

theorem roundedExp_limit {m : Nat} {x : Int} (hm : 2 ^ 53 ≤ m) :
    (m : ℚ) * (2 : ℚ) ^ x < (2 : ℚ) ^ (1024 : ℤ) - (2 : ℚ) ^ (970 : ℤ) ↔ (52 : Int) + roundedExp m + x ≤ 1023 := by
  have hl : 53 ≤ Nat.log2 m := (Nat.le_log2 (by omega)).2 hm
  have hl2 := Nat.lt_log2_self (n := m)
  have hmd : m < 2 ^ 53 * 2 ^ (Nat.log2 m - 52) := by
    rw [← Nat.pow_add, show 53 + (Nat.log2 m - 52) = Nat.log2 m + 1 by omega]; exact hl2
  obtain ⟨l1, l2, -⟩ := limit_lt
  have hre : roundedExp m = Nat.log2 m - 52 ∨ roundedExp m = Nat.log2 m - 51 := by unfold roundedExp; split <;> simp
  rcases lt_trichotomy ((Nat.log2 m : Int) + x) 1023 with h | h | h
  · refine ⟨fun _ => by omega, fun _ => ?_⟩
    refine lt_of_lt_of_le (lt_pow_log2 m x) (le_trans ?_ l1)
    exact zpow_le_zpow_right₀ (by norm_num) (by omega)
  · rw [limit_iff (i := Nat.log2 m - 52) (by omega), ← rne_lt_iff (Nat.two_pow_pos _) hmd]
    unfold roundedExp
    split
    · rename_i hq; exact ⟨fun _ => by omega, fun _ => hq⟩
    · rename_i hq; exact ⟨fun hc => absurd hc hq, fun hc => absurd hc (by omega)⟩
  · refine ⟨fun hc => ?_, fun hc => by omega⟩
    have := log2_add_le (x := x) (by omega : 0 < m) (lt_trans hc l2)
    omega

/-- A 53 bit integer never gets between the largest double and the limit. -/
theorem small_limit {m : Nat} {x : Int} (hm : 0 < m) (hm2 : m < 2 ^ 53)
    (h : (2 : ℚ) ^ (1024 : ℤ) - (2 : ℚ) ^ (970 : ℤ) ≤ (m : ℚ) * (2 : ℚ) ^ x) : (2 : ℚ) ^ (1024 : ℤ) ≤ (m : ℚ) * (2 : ℚ) ^ x := by
  have hl := log2_le_52 hm hm2
  obtain ⟨l1, l2, l3⟩ := limit_lt
  by_contra hc
  have h1 := log2_add_le (x := x) hm (not_le.1 hc)
  have h2 : (1023 : Int) < (Nat.log2 m : Int) + 1 + x := by
    have := lt_of_le_of_lt (le_trans l1 h) (lt_pow_log2 m x)
    exact (zpow_lt_zpow_iff_right₀ (by norm_num : (1 : ℚ) < 2)).1 this
  have hx : x = (1023 : Int) - (Nat.log2 m : Int) := by omega
  have hM : m + 1 ≤ 2 ^ (Nat.log2 m + 1) := Nat.lt_log2_self
  have e : ((m + 1 : Nat) : ℚ) * (2 : ℚ) ^ x ≤ (2 : ℚ) ^ (1024 : ℤ) := by
    have h3 : ((m + 1 : Nat) : ℚ) ≤ ((2 ^ (Nat.log2 m + 1) : Nat) : ℚ) := by exact_mod_cast hM
    calc ((m + 1 : Nat) : ℚ) * (2 : ℚ) ^ x ≤ ((2 ^ (Nat.log2 m + 1) : Nat) : ℚ) * (2 : ℚ) ^ x :=
          mul_le_mul_of_nonneg_right h3 (zpow_nonneg (by norm_num) _)
      _ = (2 : ℚ) ^ (1024 : ℤ) := by
          push_cast
          rw [← zpow_natCast, ← zpow_add₀ (by norm_num)]
          congr 1
          push_cast
          omega
  have hx2 : (2 : ℚ) ^ (971 : ℤ) ≤ (2 : ℚ) ^ x := zpow_le_zpow_right₀ (by norm_num) (by omega)
  push_cast at e
  rw [add_mul, one_mul] at e
  replace hc := not_le.1 hc
  clear l1 l2 h1 h2 hx hM
  generalize (2 : ℚ) ^ x = a at *
  generalize (2 : ℚ) ^ (1024 : ℤ) = b at *
  generalize (2 : ℚ) ^ (971 : ℤ) = c at *
  generalize (2 : ℚ) ^ (970 : ℤ) = d at *
  linarith

/-! ## Together -/

theorem nearest_exact {d : Dbl} (h : IsFinite d) {v : ℚ} (e : doubleValue d = v) : Nearest d v := by
  refine ⟨h, fun d' _ => ⟨?_, ?_⟩⟩
  · rw [e, sub_self, abs_zero]; exact abs_nonneg _
  · intro h1 h2
    rw [e, sub_self, abs_zero, abs_eq_zero, sub_eq_zero] at h1
    exact absurd (h1.trans e.symm) h2

theorem Nearest.exact {d d0 : Dbl} {v : ℚ} (h : Nearest d v) (h0 : IsFinite d0) (e : doubleValue d0 = v) : doubleValue d = v := by
  have := (h.2 d0 h0).1
  rw [e, sub_self, abs_zero] at this
  exact sub_eq_zero.1 (abs_eq_zero.1 (le_antisymm this (abs_nonneg _)))

theorem BinaryReal.decoded_zero {r : BinaryReal} (hm : r.mantissa = 0) :
    r.decoded = pure (if r.neg then 0x8000000000000000#64 else 0#64) := by
  unfold BinaryReal.decoded getDoubleByMantissaAndExp
  rw [hm, Nat.zero_mul, if_pos rfl, pure_bind]
  cases r.neg <;> rfl

theorem zero_value (b : Bool) : IsFinite (if b then 0x8000000000000000#64 else 0#64) ∧
    doubleValue (if b then 0x8000000000000000#64 else 0#64) = 0 := by
  cases b <;> exact ⟨by unfold IsFinite; decide, by unfold doubleValue; simp⟩

/-- What the decoder computes for a mantissa of at most 64 bits and a power of at least -1023. -/
theorem BinaryReal.decoded_nearest {r : BinaryReal} (h : r.Ok) (hm : r.mantissa * 2 ^ r.scale < 2 ^ 64)
    (hx : -1023 ≤ (r.baseLog : Int) * r.exponent) (hv : |r.value| < (2 : ℚ) ^ (1024 : ℤ) - (2 : ℚ) ^ (970 : ℤ)) :
    ∃ d, r.decoded = pure d ∧ Nearest d r.value := by
  rcases Nat.eq_zero_or_pos r.mantissa with h0 | hpos0
  · refine ⟨_, decoded_zero h0, nearest_exact (zero_value _).1 ?_⟩
    rw [(zero_value _).2, r.value_eq, h0, Nat.zero_mul]; simp
  have hpos : 0 < r.mantissa * 2 ^ r.scale := Nat.mul_pos hpos0 (Nat.two_pow_pos _)
  rw [r.abs_value] at hv
  by_cases hs : r.mantissa * 2 ^ r.scale < 2 ^ 53
  · have hdec := BinaryReal.decoded_eq h hpos0 hs
    rw [if_pos hx] at hdec
    obtain ⟨v1, v2⟩ := exactMag_value r.neg hpos hs (x := (r.baseLog : Int) * r.exponent) (by omega)
      (log2_add_le hpos (lt_trans hv limit_lt.2.1))
    exact ⟨_, hdec, nearest_exact v1 (by rw [v2, r.value_eq])⟩
  · have hs : 2 ^ 53 ≤ r.mantissa * 2 ^ r.scale := by omega
    have hdec := BinaryReal.decoded_big h hs hm
    rw [if_pos hx] at hdec
    have hlim := (roundedExp_limit hs).1 hv
    obtain ⟨c1, c2, c3, c4, c5⟩ := rounded_eq hs
    have hl := log2_rounded hs
    have hl53 : 53 ≤ Nat.log2 (r.mantissa * 2 ^ r.scale) := (Nat.le_log2 (by omega)).2 hs
    have hlow : 2 ^ 52 * 2 ^ (Nat.log2 (r.mantissa * 2 ^ r.scale) - 52) ≤ r.mantissa * 2 ^ r.scale := by
      rw [← Nat.pow_add, show 52 + (Nat.log2 (r.mantissa * 2 ^ r.scale) - 52) = Nat.log2 (r.mantissa * 2 ^ r.scale) by omega]
      exact Nat.log2_self_le (by omega)
    have hval := r.value_eq
    generalize r.mantissa * 2 ^ r.scale = m at *
    generalize (r.baseLog : Int) * r.exponent = x at *
    obtain ⟨v1, v2⟩ := exactMag_value r.neg (m := roundedMant m) (by omega) c3 (x := roundedExp m + x) (by omega) (by rw [hl]; omega)
    have hp : lastPlace (roundedMant m) (roundedExp m + x) = roundedExp m + x := by unfold lastPlace; rw [hl]; omega
    have hmag : exactMag (roundedMant m) (roundedExp m + x) = ((roundedExp m : Int) + x + 1074).toNat * 2 ^ 52 + roundedMant m := by
      unfold exactMag
      rw [hp, Int.sub_self, show (0 : Int).toNat = 0 from rfl, Nat.pow_zero, Nat.mul_one]
      have : ((roundedExp m : Int) + x + 1074).toNat ≤ 2045 := by omega
      generalize ((roundedExp m : Int) + x + 1074).toNat = a at *
      exact Nat.min_eq_left (by omega)
    have hodd : (dblMake r.neg (exactMag (roundedMant m) (roundedExp m + x))).toNat % 2 = rne m (2 ^ (Nat.log2 m - 52)) % 2 := by
      have hlt : exactMag (roundedMant m) (roundedExp m + x) < 2 ^ 63 := Nat.lt_of_le_of_lt (Nat.min_le_right _ _) (by decide)
      rw [dblMake_toNat _ hlt, ← c4, hmag]
      split <;> omega
    refine ⟨_, hdec, v1, fun d' hd' => ?_⟩
    have hσ : (if r.neg then (-1 : Int) else 1) = 1 ∨ (if r.neg then (-1 : Int) else 1) = -1 := by cases r.neg <;> simp
    have hd : doubleValue (dblMake r.neg (exactMag (roundedMant m) (roundedExp m + x))) =
        (((if r.neg then (-1 : Int) else 1) : Int) : ℚ) * (rne m (2 ^ (Nat.log2 m - 52)) : ℚ) *
          (2 : ℚ) ^ (x + ((Nat.log2 m - 52 : Nat) : Int)) := by
      rw [v2, zpow_add₀ (by norm_num), zpow_add₀ (by norm_num), zpow_natCast, zpow_natCast]
      have c1' : (roundedMant m : ℚ) * 2 ^ roundedExp m = (rne m (2 ^ (Nat.log2 m - 52)) : ℚ) * 2 ^ (Nat.log2 m - 52) := by
        exact_mod_cast c1
      push_cast
      linear_combination ((if r.neg = true then (-1 : ℚ) else 1) * (2 : ℚ) ^ x) * c1'
    have hvv : r.value = (((if r.neg then (-1 : Int) else 1) : Int) : ℚ) * m * (2 : ℚ) ^ x := by rw [hval]; push_cast; rfl
    rw [hvv, hodd]
    exact nearest_of hσ hlow hd hd'

/-- … and from the limit on it is infinite. -/
theorem BinaryReal.decoded_overflow {r : BinaryReal} (h : r.Ok) (hm : r.mantissa * 2 ^ r.scale < 2 ^ 64)
    (hv : (2 : ℚ) ^ (1024 : ℤ) - (2 : ℚ) ^ (970 : ℤ) ≤ |r.value|) :
    r.decoded = pure (if r.neg then 0xFFF0000000000000#64 else 0x7FF0000000000000#64) := by
  have hres : dblMake r.neg (2047 * 2 ^ 52) = if r.neg then 0xFFF0000000000000#64 else 0x7FF0000000000000#64 := by
    cases r.neg <;> decide +kernel
  rw [← hres]
  rw [r.abs_value] at hv
  have hlp : (0 : ℚ) < (2 : ℚ) ^ (1024 : ℤ) - (2 : ℚ) ^ (970 : ℤ) :=
    lt_of_lt_of_le (zpow_pos (by norm_num) _) limit_lt.1
  have hpos : 0 < r.mantissa * 2 ^ r.scale := by
    rcases Nat.eq_zero_or_pos (r.mantissa * 2 ^ r.scale) with h0 | h0
    · rw [h0, Nat.cast_zero, zero_mul] at hv; exact absurd hv (not_le.2 hlp)
    · exact h0
  have hpos0 : 0 < r.mantissa := by
    rcases Nat.eq_zero_or_pos r.mantissa with h0 | h0
    · rw [h0, Nat.zero_mul] at hpos; omega
    · exact h0
  by_cases hs : r.mantissa * 2 ^ r.scale < 2 ^ 53
  · have hl := log2_add_ge (small_limit hpos hs hv)
    have hl2 := log2_le_52 hpos hs
    have hdec := BinaryReal.decoded_eq h hpos0 hs
    rw [if_pos (by omega)] at hdec
    rw [hdec]
    congr 2
    generalize r.mantissa * 2 ^ r.scale = m at *
    generalize (r.baseLog : Int) * r.exponent = x at *
    have hp : lastPlace m x = (Nat.log2 m : Int) + x - 52 := by unfold lastPlace; omega
    have hge := shifted_ge (x := x) hpos hs (by rw [hp]; omega)
    unfold exactMag
    have ha : 2046 ≤ (lastPlace m x + 1074).toNat := by rw [hp]; omega
    generalize m * 2 ^ (x - lastPlace m x).toNat = w at *
    generalize (lastPlace m x + 1074).toNat = a at *
    exact Nat.min_eq_right (by omega)
  · have hs : 2 ^ 53 ≤ r.mantissa * 2 ^ r.scale := by omega
    have hdec := BinaryReal.decoded_big h hs hm
    have hlim := mt (roundedExp_limit hs).2 (not_lt.2 hv)
    obtain ⟨c1, c2, c3, c4, c5⟩ := rounded_eq hs
    have hl := log2_rounded hs
    have hb : roundedExp (r.mantissa * 2 ^ r.scale) ≤ 12 := by
      have : Nat.log2 (r.mantissa * 2 ^ r.scale) < 64 := (Nat.log2_lt (by omega)).2 hm
      unfold roundedExp; split <;> omega
    rw [if_pos (by omega)] at hdec
    rw [hdec]
    congr 2
    generalize r.mantissa * 2 ^ r.scale = m at *
    generalize (r.baseLog : Int) * r.exponent = x at *
    have hp : lastPlace (roundedMant m) (roundedExp m + x) = roundedExp m + x := by unfold lastPlace; rw [hl]; omega
    unfold exactMag
    rw [hp, Int.sub_self, show (0 : Int).toNat = 0 from rfl, Nat.pow_zero, Nat.mul_one]
    have ha : 2046 ≤ ((roundedExp m : Int) + x + 1074).toNat := by omega
    generalize ((roundedExp m : Int) + x + 1074).toNat = a at *
    exact Nat.min_eq_right (by omega)

/-- A finite double is below the limit. -/
theorem abs_doubleValue_lt {d : Dbl} (h : IsFinite d) : |doubleValue d| < (2 : ℚ) ^ (1024 : ℤ) - (2 : ℚ) ^ (970 : ℤ) := by
  obtain ⟨k, p, e, hk, hp⟩ := doubleValue_form d h
  refine lt_of_le_of_lt ?_ limit_lt.2.2
  rw [e, abs_mul, abs_of_pos (zpow_pos (by norm_num) p : (0 : ℚ) < (2 : ℚ) ^ p)]
  have h1 : |(k : ℚ)| ≤ 2 ^ 53 - 1 := by
    rw [← Int.cast_abs]
    have : |k| ≤ 2 ^ 53 - 1 := by omega
    exact_mod_cast this
  have h2 : (2 : ℚ) ^ p ≤ (2 : ℚ) ^ (971 : ℤ) := zpow_le_zpow_right₀ (by norm_num) hp
  have e1 : (2 : ℚ) ^ (1024 : ℤ) = 2 ^ 53 * (2 : ℚ) ^ (971 : ℤ) := by
    rw [show (1024 : ℤ) = 53 + 971 by norm_num, zpow_add₀ (by norm_num)]; rfl
  rw [e1]
  calc |(k : ℚ)| * (2 : ℚ) ^ p ≤ (2 ^ 53 - 1) * (2 : ℚ) ^ p := mul_le_mul_of_nonneg_right h1 (zpow_nonneg (by norm_num) _)
    _ ≤ (2 ^ 53 - 1) * (2 : ℚ) ^ (971 : ℤ) := mul_le_mul_of_nonneg_left h2 (by norm_num)
    _ = _ := by ring

end Asn1
