import Verif.Proof.RealFp4
import Mathlib.Tactic.Linarith
import Mathlib.Tactic.NormNum
import Mathlib.Tactic.Positivity
/-!
REAL with `FP_WORD_SIZE` 4: every binary encoding of a normal `float` whose power of two is not below -127.
-/
namespace Asn1

/-- The mantissa `n` and the significand `2 ^ 23 + m` differ by the power `j` of two. -/
def SameUpTo (n m : Nat) (j : Int) : Prop := n * 2 ^ (-j).toNat = (2 ^ 23 + m) * 2 ^ j.toNat

theorem SameUpTo.log2 {n m : Nat} {j : Int} (hm : m < 2 ^ 23) (h : SameUpTo n m j) : n ≠ 0 ∧ (Nat.log2 n : Int) = 23 + j := by
  unfold SameUpTo at h
  have hp : 0 < (2 ^ 23 + m) * 2 ^ j.toNat := Nat.mul_pos (by omega) (Nat.two_pow_pos _)
  have hne : n ≠ 0 := by
    intro e; subst e
    rw [Nat.zero_mul] at h
    omega
  refine ⟨hne, ?_⟩
  have h1 := log2_mul_pow (-j).toNat (Nat.pos_of_ne_zero hne)
  have h2 := log2_mul_pow (m := 2 ^ 23 + m) j.toNat (by omega)
  rw [h, h2, log2_eq (k := 23) (by omega) (by omega)] at h1
  omega

theorem fltOfU64_same {n : U64} {m : Nat} {j : Int} (hm : m < 2 ^ 23) (hj : j ≤ 40) (hj2 : -23 ≤ j) (hn : SameUpTo n.toNat m j) :
    floatToDouble (fltOfU64 n) = dblMake false ((1046 + j).toNat * 2 ^ 52 + m * 2 ^ 29) := by
  obtain ⟨hne', hl⟩ := hn.log2 hm
  have hne : n ≠ 0#64 := by
    intro h; subst h
    exact hne' rfl
  have e : fltOfU64 n = fltMake false ((150 + j).toNat * 2 ^ 23 + m) := by
    unfold fltOfU64
    rw [if_neg hne, hl]
    have hq : max ((23 + j) - 23) (-149) = j := by omega
    simp only [hq]
    unfold SameUpTo at hn
    rw [hn, rne_mul (Nat.two_pow_pos _), show (j + 149).toNat = (150 + j).toNat - 1 by omega]
    have e2 : ((150 + j).toNat - 1) * 2 ^ 23 + (2 ^ 23 + m) = (150 + j).toNat * 2 ^ 23 + m := by omega
    rw [e2]
  obtain ⟨k, hk, hk1, hk2⟩ : ∃ k : Nat, (150 + j).toNat = k ∧ 127 ≤ k ∧ k ≤ 190 := ⟨_, rfl, by omega, by omega⟩
  rw [hk] at e
  have hk3 : (1046 + j).toNat = k + 896 := by omega
  rw [hk3]
  have ht : (fltMake false (k * 2 ^ 23 + m)).toNat = k * 2 ^ 23 + m := by
    unfold fltMake
    rw [BitVec.toNat_ofNat, if_neg (by simp)]
    omega
  rw [e]
  unfold floatToDouble
  rw [ht]
  dsimp only
  have a1 : (k * 2 ^ 23 + m) / 2 ^ 23 % 2 ^ 8 = k := by omega
  have a2 : (k * 2 ^ 23 + m) % 2 ^ 23 = m := by omega
  have a3 : decide (2 ^ 31 ≤ k * 2 ^ 23 + m) = false := decide_eq_false (by omega)
  rw [a1, a2, a3, if_neg (by omega), if_neg (by omega)]

theorem getFloat_same {n : U64} {m : Nat} {j x : Int} (hm : m < 2 ^ 23) (hj : j ≤ 40) (hj2 : -23 ≤ j) (hn : SameUpTo n.toNat m j)
    (h1 : -127 ≤ x) (h2 : x ≤ 127) (h3 : x + j ≤ 104) (h4 : -149 ≤ x + j) :
    getFloatByMantissaAndExp n x = pure (fltMake false ((x + j + 150).toNat * 2 ^ 23 + m)) := by
  have hne : n ≠ 0#64 := by
    intro h; subst h
    exact (hn.log2 hm).1 rfl
  have hfl := fltOfU64_same hm hj hj2 hn
  obtain ⟨k, hk, hk1, hk2, hk3⟩ : ∃ k : Nat, (1046 + j).toNat = k ∧ (k : Int) = 1046 + j ∧ 1 ≤ k ∧ k ≤ 2046 := ⟨_, rfl, by omega, by omega, by omega⟩
  rw [hk] at hfl
  obtain ⟨a1, a2, a3, a4, a5⟩ := dbl_parts false (e := k) (m := m * 2 ^ 29) hk2 hk3 (by omega)
  have a6 : dblMag (dblMake false (k * 2 ^ 52 + m * 2 ^ 29)) ≠ 0 := by rw [dblMag_make _ (by omega)]; omega
  have hpos : 0 < 2 ^ 23 + m := by omega
  have hlt : 2 ^ 23 + m < 2 ^ 53 := by omega
  have a4' : dblMant (dblMake false (k * 2 ^ 52 + m * 2 ^ 29)) = (2 ^ 23 + m) * 2 ^ 29 := by rw [a4]; omega
  have back : doubleToFloat (dblMake false (exactMag (2 ^ 23 + m) (x + j))) = fltMake false ((x + j + 150).toNat * 2 ^ 23 + m) := by
    rw [exactMag_float hm h4 h3, doubleToFloat_normal false (by omega) (by omega) hm,
      show (x + j + 1046).toNat - 896 = (x + j + 150).toNat by omega]
  unfold getFloatByMantissaAndExp
  rw [if_neg hne, hfl]
  by_cases h0 : x ≥ 0
  · rw [if_pos h0, powLoop4_one, show min x.toNat 128 = x.toNat by omega, (fltPow2_facts ⟨x.toNat, by omega⟩).1]
    obtain ⟨b1, b2, b3, b4, b5, b6⟩ := pow2_fields (k := x.toNat) (by omega)
    rw [dblMul_finite ⟨a2, a3, a6⟩ ⟨b3, b4, b5⟩, a1, a4', a5, b1, b2, b6]
    have e := roundMag_exact (m := 2 ^ 23 + m) (29 + 52) 0
      (e := (k : Int) - 1075 + ((x.toNat : Int) - 52)) (x := x + j) hpos hlt (by omega) (by omega)
    rw [Nat.pow_zero, Nat.pow_add, ← Nat.mul_assoc] at e
    rw [e]
    exact congrArg pure back
  · rw [if_neg h0]
    unfold chk32
    rw [if_pos (by omega), pure_bind, powLoop4_one, show min (-x).toNat 128 = (-x).toNat by omega,
      (fltPow2_facts ⟨(-x).toNat, by omega⟩).1]
    obtain ⟨b1, b2, b3, b4, b5, b6⟩ := pow2_fields (k := (-x).toNat) (by omega)
    rw [dblDiv_finite ⟨a2, a3, a6⟩ ⟨b3, b4, b5⟩, a1, a4', a5, b1, b2, b6]
    rw [roundMag_exact (m := 2 ^ 23 + m) 29 52
      (e := (k : Int) - 1075 - (((-x).toNat : Int) - 52)) (x := x + j) hpos hlt (by omega) (by omega)]
    exact congrArg pure back

theorem sameUpTo_of_value {n m : Nat} {x p : Int} (h : (n : ℚ) * (2 : ℚ) ^ x = ((2 ^ 23 + m : Nat) : ℚ) * (2 : ℚ) ^ p) :
    SameUpTo n m (p - x) := by
  unfold SameUpTo
  have h2 : (2 : ℚ) ≠ 0 := by norm_num
  have e : (n : ℚ) = ((2 ^ 23 + m : Nat) : ℚ) * (2 : ℚ) ^ (p - x) := by
    rw [zpow_sub₀ h2, ← mul_div_assoc, ← h, mul_div_assoc, div_self (zpow_ne_zero _ h2), mul_one]
  have key : (n : ℚ) * (2 : ℚ) ^ (-(p - x)).toNat = ((2 ^ 23 + m : Nat) : ℚ) * (2 : ℚ) ^ (p - x).toNat := by
    rw [e, mul_assoc, ← zpow_natCast, ← zpow_natCast, ← zpow_add₀ h2]
    congr 2
    omega
  exact_mod_cast key

theorem sign_eq_of_value {a b : Bool} {y z : ℚ} (hy : 0 < y) (hz : 0 < z)
    (h : (if a then (-1 : ℚ) else 1) * y = (if b then (-1 : ℚ) else 1) * z) : a = b ∧ y = z := by
  cases a <;> cases b <;> simp at h ⊢ <;> linarith

theorem BinaryReal.decoded4_same {r : BinaryReal} (h2 : r.mantissa * 2 ^ r.scale < 2 ^ 64)
    (h3 : -127 ≤ (r.baseLog : Int) * r.exponent) {f : Flt} (hf : FiniteFloat f) (hn : fltExp f ≠ 0) (hv : floatValue f = r.value) :
    r.decoded4 = pure f := by
  have hF := fltFrac_lt f
  have hE : fltExp f ≤ 254 := by have := fltExp_lt f; unfold FiniteFloat at hf; unfold fltExp at *; omega
  have hsg : (if f.toNat / 2 ^ 31 = 1 then (-1 : ℚ) else 1) = if fltSign f = true then (-1 : ℚ) else 1 := by
    have hlt := f.isLt
    unfold fltSign
    by_cases hs : 2 ^ 31 ≤ f.toNat
    · rw [if_pos (show f.toNat / 2 ^ 31 = 1 by omega), if_pos (by simpa using hs)]
    · rw [if_neg (show ¬ f.toNat / 2 ^ 31 = 1 by omega), if_neg (by simpa using hs)]
  have hfv : floatValue f = (if fltSign f then (-1 : ℚ) else 1) * (((2 ^ 23 + fltFrac f : Nat) : ℚ) * (2 : ℚ) ^ ((fltExp f : Int) - 150)) := by
    unfold floatValue
    dsimp only
    rw [if_neg (show ¬ f.toNat / 2 ^ 23 % 2 ^ 8 = 0 from hn), hsg, mul_assoc]
    rfl
  unfold BinaryReal.decoded4
  rw [r.value_eq, hfv, mul_assoc] at hv
  generalize hM : r.mantissa * 2 ^ r.scale = M at *
  generalize hX : (r.baseLog : Int) * r.exponent = x at *
  have hz : (0 : ℚ) < ((2 ^ 23 + fltFrac f : Nat) : ℚ) * (2 : ℚ) ^ ((fltExp f : Int) - 150) :=
    mul_pos (Nat.cast_pos.2 (by omega)) (zpow_pos (by norm_num) _)
  have hM0 : M ≠ 0 := by
    intro e; subst e
    rw [Nat.cast_zero, zero_mul, mul_zero] at hv
    have : (if fltSign f = true then (-1 : ℚ) else 1) ≠ 0 := by split <;> norm_num
    exact (mul_ne_zero this hz.ne') hv
  have hy : (0 : ℚ) < (M : ℚ) * (2 : ℚ) ^ x := mul_pos (Nat.cast_pos.2 (by omega)) (zpow_pos (by norm_num) _)
  obtain ⟨hs, hyz⟩ := sign_eq_of_value hz hy hv
  have hsame := sameUpTo_of_value hyz.symm
  obtain ⟨-, hl⟩ := hsame.log2 hF
  have hl2 : Nat.log2 M < 64 := (Nat.log2_lt hM0).2 h2
  have hMn : (BitVec.ofNat 64 M).toNat = M := by rw [BitVec.toNat_ofNat, Nat.mod_eq_of_lt h2]
  rw [getFloat_same (j := (fltExp f : Int) - 150 - x) hF (by omega) (by omega) (by rw [hMn]; exact hsame) h3 (by omega) (by omega) (by omega),
    pure_bind, show (x + ((fltExp f : Int) - 150 - x) + 150).toNat = fltExp f by omega, ← hs]
  refine congrArg pure ?_
  have hs := fltMake_self f
  cases hsg : fltSign f
  · rw [hsg] at hs; rw [if_neg (by simp)]; exact hs
  · rw [hsg] at hs
    rw [if_pos rfl, fltNeg_make (by omega)]
    exact hs

end Asn1
