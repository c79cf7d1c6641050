import Verif.Model.Float32
import Verif.Spec.Float32
import Verif.Spec.RoundTrip
import Verif.Proof.FloatNearest
/-!
Lemmas about `float` and `double`.
-/
namespace Asn1

/-- The fields of a `float`. -/
theorem flt_fields (f : Flt) : f = fltMake (decide (2 ^ 31 ≤ f.toNat)) (f.toNat / 2 ^ 23 % 2 ^ 8 * 2 ^ 23 + f.toNat % 2 ^ 23) := by
  apply BitVec.eq_of_toNat_eq
  unfold fltMake
  have := f.isLt
  rw [BitVec.toNat_ofNat]
  by_cases h : 2 ^ 31 ≤ f.toNat
  · rw [if_pos (by simpa using h)]; omega
  · rw [if_neg (by simpa using h)]; omega

/-- A double with the given exponent and fraction. -/
theorem dbl_parts (s : Bool) {e m : Nat} (he1 : 1 ≤ e) (he2 : e ≤ 2046) (hm : m < 2 ^ 52) :
    dblSign (dblMake s (e * 2 ^ 52 + m)) = s ∧ dblIsNan (dblMake s (e * 2 ^ 52 + m)) = false ∧ dblIsInf (dblMake s (e * 2 ^ 52 + m)) = false ∧
    dblMant (dblMake s (e * 2 ^ 52 + m)) = 2 ^ 52 + m ∧ dblPow (dblMake s (e * 2 ^ 52 + m)) = (e : Int) - 1075 := by
  have hlt : e * 2 ^ 52 + m < 2 ^ 63 := by omega
  have hmag := dblMag_make s hlt
  have hexp : dblExp (dblMake s (e * 2 ^ 52 + m)) = e := by unfold dblExp; rw [hmag]; omega
  have hfr : dblFrac (dblMake s (e * 2 ^ 52 + m)) = m := by unfold dblFrac; rw [hmag]; omega
  refine ⟨dblSign_make s hlt, ?_, ?_, ?_, ?_⟩
  · unfold dblIsNan; rw [hmag]; exact decide_eq_false (by omega)
  · unfold dblIsInf; rw [hmag]; exact decide_eq_false (by omega)
  · unfold dblMant; rw [hexp, hfr, if_neg (by omega)]
  · unfold dblPow; rw [hexp, if_neg (by omega)]

theorem log2_eq {n k : Nat} (h1 : 2 ^ k ≤ n) (h2 : n < 2 ^ (k + 1)) : Nat.log2 n = k := by
  have hn : n ≠ 0 := by have := Nat.two_pow_pos k; omega
  have a := (Nat.le_log2 hn).2 h1
  have b := (Nat.log2_lt hn).2 h2
  omega

theorem mag_step {e m : Nat} (he1 : 897 ≤ e) (he2 : e ≤ 1150) (hm : m < 2 ^ 23) :
    min ((e - 897) * 2 ^ 23 + (2 ^ 23 + m)) (255 * 2 ^ 23) = (e - 896) * 2 ^ 23 + m := by
  obtain ⟨k, rfl⟩ := Nat.exists_eq_add_of_le he1
  have h1 : 897 + k - 897 = k := Nat.add_sub_cancel_left ..
  have h2 : 897 + k - 896 = k + 1 := by rw [show 897 + k = 896 + (k + 1) by omega]; exact Nat.add_sub_cancel_left ..
  rw [h1, h2]
  omega

/-- What the conversion to `float` makes of a double with a value in the range. -/
theorem doubleToFloat_normal (s : Bool) {e m : Nat} (he1 : 897 ≤ e) (he2 : e ≤ 1150) (hm : m < 2 ^ 23) :
    doubleToFloat (dblMake s (e * 2 ^ 52 + m * 2 ^ 29)) = fltMake s ((e - 896) * 2 ^ 23 + m) := by
  obtain ⟨h1, h2, h3, h4, h5⟩ := dbl_parts s (e := e) (m := m * 2 ^ 29) (by omega) (by omega) (by omega)
  unfold doubleToFloat
  rw [h1, h2, h3, h4, h5]
  have hl : Nat.log2 (2 ^ 52 + m * 2 ^ 29) = 52 := log2_eq (by omega) (by omega)
  rw [hl]
  simp only [Bool.false_eq_true, if_false]
  rw [if_neg (by omega)]
  have hq : max (((52 : Nat) : Int) + ((e : Int) - 1075) - 23) (-149) = (e : Int) - 1046 := by omega
  simp only [hq]
  have e1 : ((e : Int) - 1075 - ((e : Int) - 1046)).toNat = 0 := by omega
  have e2 : ((e : Int) - 1046 - ((e : Int) - 1075)).toNat = 29 := by omega
  have e3 : ((e : Int) - 1046 + 149).toNat = e - 897 := by omega
  rw [e1, e2, e3]
  have e4 : (2 ^ 52 + m * 2 ^ 29) * 2 ^ 0 = (2 ^ 23 + m) * 2 ^ 29 := by omega
  rw [e4, rne_mul (by decide)]
  rw [mag_step he1 he2 hm]

theorem doubleToFloat_small (s : Bool) {m : Nat} (h0 : m ≠ 0) (hm : m < 2 ^ 23) :
    doubleToFloat (dblMake s ((Nat.log2 m + 874) * 2 ^ 52 + (m * 2 ^ (52 - Nat.log2 m) - 2 ^ 52))) = fltMake s m := by
  have hk1 := Nat.log2_self_le h0
  have hk2 := @Nat.lt_log2_self m
  have hk : Nat.log2 m ≤ 22 := by have := (Nat.log2_lt h0).2 hm; omega
  generalize Nat.log2 m = k at *
  have p1 : 2 ^ k * 2 ^ (52 - k) = 2 ^ 52 := by rw [← Nat.pow_add]; congr 1; omega
  have p2 : 2 ^ (k + 1) * 2 ^ (52 - k) = 2 ^ 53 := by rw [← Nat.pow_add]; congr 1; omega
  have b1 : 2 ^ 52 ≤ m * 2 ^ (52 - k) := by rw [← p1]; exact Nat.mul_le_mul_right _ hk1
  have b2 : m * 2 ^ (52 - k) < 2 ^ 53 := by rw [← p2]; exact Nat.mul_lt_mul_of_pos_right hk2 (Nat.two_pow_pos _)
  obtain ⟨h1, h2, h3, h4, h5⟩ := dbl_parts s (e := k + 874) (m := m * 2 ^ (52 - k) - 2 ^ 52) (by omega) (by omega) (by omega)
  have h4' : dblMant (dblMake s ((k + 874) * 2 ^ 52 + (m * 2 ^ (52 - k) - 2 ^ 52))) = m * 2 ^ (52 - k) := by rw [h4]; omega
  have hl : Nat.log2 (m * 2 ^ (52 - k)) = 52 := log2_eq b1 b2
  unfold doubleToFloat
  rw [h1, h2, h3, h4', h5, hl]
  simp only [Bool.false_eq_true, if_false]
  rw [if_neg (by omega)]
  have hq : max (((52 : Nat) : Int) + (((k + 874 : Nat) : Int) - 1075) - 23) (-149) = -149 := by omega
  simp only [hq]
  have e1 : ((((k + 874 : Nat) : Int) - 1075) - (-149)).toNat = 0 := by omega
  have e2 : ((-149 : Int) - (((k + 874 : Nat) : Int) - 1075)).toNat = 52 - k := by omega
  rw [e1, e2, Nat.pow_zero, Nat.mul_one, rne_mul (Nat.two_pow_pos _)]
  exact congrArg (fltMake s) (by omega)

theorem doubleToFloat_zero (s : Bool) : doubleToFloat (dblMake s 0) = fltMake s 0 := by cases s <;> decide +kernel

theorem doubleToFloat_inf (s : Bool) : doubleToFloat (dblMake s (2047 * 2 ^ 52)) = fltMake s (255 * 2 ^ 23) := by cases s <;> decide +kernel

/-- There and back. -/
theorem floatToDouble_back {f : Flt} (h : NumberFloat f) : doubleToFloat (floatToDouble f) = f := by
  have hlt := f.isLt
  rw [flt_fields f]
  have hf := flt_fields f
  unfold floatToDouble
  dsimp only
  rw [← hf]
  by_cases h1 : f.toNat / 2 ^ 23 % 2 ^ 8 = 255
  · have h2 : f.toNat % 2 ^ 23 = 0 := by rcases h with h | h; exact absurd h1 h; exact h
    rw [if_pos h1, if_pos h2, doubleToFloat_inf]
    conv => rhs; rw [hf, h1, h2]
    rfl
  · rw [if_neg h1]
    by_cases h2 : f.toNat / 2 ^ 23 % 2 ^ 8 = 0
    · rw [if_pos h2]
      by_cases h3 : f.toNat % 2 ^ 23 = 0
      · rw [if_pos h3, doubleToFloat_zero]
        conv => rhs; rw [hf, h2, h3, Nat.zero_mul]
      · rw [if_neg h3, doubleToFloat_small _ h3 (Nat.mod_lt _ (by decide))]
        conv => rhs; rw [hf, h2]
        rw [Nat.zero_mul, Nat.zero_add]
    · rw [if_neg h2, doubleToFloat_normal _ (by omega) (by omega) (Nat.mod_lt _ (by decide))]
      conv => rhs; rw [hf]
      exact congrArg (fltMake _) (by omega)

/-- The double has the value of the float; its exponent is far from the smallest ones. -/
theorem floatToDouble_value {f : Flt} (h : FiniteFloat f) : IsFinite (floatToDouble f) ∧ doubleValue (floatToDouble f) = floatValue f ∧
    (floatValue f ≠ 0 → 52 ≤ (floatToDouble f).toNat / 2 ^ 52 % 2 ^ 11) := by
  have hlt := f.isLt
  have hm := Nat.mod_lt f.toNat (by decide : 0 < 2 ^ 23)
  have hsg : (if decide (2 ^ 31 ≤ f.toNat) = true then (-1 : ℚ) else 1) = if f.toNat / 2 ^ 31 = 1 then -1 else 1 := by
    by_cases hs : 2 ^ 31 ≤ f.toNat
    · rw [if_pos (by simpa using hs), if_pos (by omega)]
    · rw [if_neg (by simpa using hs), if_neg (by omega)]
  have expo : ∀ (s : Bool) {e m : Nat}, e ≤ 2046 → m < 2 ^ 52 → (dblMake s (e * 2 ^ 52 + m)).toNat / 2 ^ 52 % 2 ^ 11 = e := by
    intro s e m h2 h3
    rw [dblMake_toNat s (by omega)]
    cases s <;> simp only [Bool.false_eq_true, if_true, if_false] <;> omega
  have fin : ∀ (s : Bool) {e m : Nat}, 1 ≤ e → e ≤ 2046 → m < 2 ^ 52 → IsFinite (dblMake s (e * 2 ^ 52 + m)) ∧
      doubleValue (dblMake s (e * 2 ^ 52 + m)) = (if s = true then -1 else 1) * ((2 ^ 52 + m : Nat) : ℚ) * (2 : ℚ) ^ ((e : Int) - 1075) := by
    intro s e m h1 h2 h3
    have hf : IsFinite (dblMake s (e * 2 ^ 52 + m)) := by
      unfold IsFinite
      rw [expo s h2 h3]; omega
    obtain ⟨g1, -, -, g4, g5⟩ := dbl_parts s h1 h2 h3
    refine ⟨hf, ?_⟩
    rw [doubleValue_parts hf, g1, g4, g5]
  unfold FiniteFloat at h
  unfold floatToDouble floatValue
  dsimp only
  rw [if_neg h, ← hsg]
  by_cases h2 : f.toNat / 2 ^ 23 % 2 ^ 8 = 0
  · rw [if_pos h2, if_pos h2]
    by_cases h3 : f.toNat % 2 ^ 23 = 0
    · rw [if_pos h3, h3]
      have hz := zero_value (decide (2 ^ 31 ≤ f.toNat))
      have hzz : dblMake (decide (2 ^ 31 ≤ f.toNat)) 0 = if decide (2 ^ 31 ≤ f.toNat) = true then 0x8000000000000000#64 else 0#64 := by
        cases decide (2 ^ 31 ≤ f.toNat) <;> decide
      rw [hzz]
      refine ⟨hz.1, by rw [hz.2]; simp, by simp⟩
    · rw [if_neg h3]
      have hk1 := Nat.log2_self_le h3
      have hk2 := @Nat.lt_log2_self (f.toNat % 2 ^ 23)
      have hk : Nat.log2 (f.toNat % 2 ^ 23) ≤ 22 := by have := (Nat.log2_lt h3).2 hm; omega
      generalize f.toNat % 2 ^ 23 = m at *
      generalize Nat.log2 m = k at *
      have p1 : 2 ^ k * 2 ^ (52 - k) = 2 ^ 52 := by rw [← Nat.pow_add]; congr 1; omega
      have p2 : 2 ^ (k + 1) * 2 ^ (52 - k) = 2 ^ 53 := by rw [← Nat.pow_add]; congr 1; omega
      have b1 : 2 ^ 52 ≤ m * 2 ^ (52 - k) := by rw [← p1]; exact Nat.mul_le_mul_right _ hk1
      have b2 : m * 2 ^ (52 - k) < 2 ^ 53 := by rw [← p2]; exact Nat.mul_lt_mul_of_pos_right hk2 (Nat.two_pow_pos _)
      obtain ⟨g1, g2⟩ := fin (decide (2 ^ 31 ≤ f.toNat)) (e := k + 874) (m := m * 2 ^ (52 - k) - 2 ^ 52) (by omega) (by omega) (by omega)
      refine ⟨g1, ?_, fun _ => by rw [expo _ (by omega) (by omega)]; omega⟩
      rw [g2, show 2 ^ 52 + (m * 2 ^ (52 - k) - 2 ^ 52) = m * 2 ^ (52 - k) by omega]
      have : (((m * 2 ^ (52 - k) : Nat)) : ℚ) * (2 : ℚ) ^ (((k + 874 : Nat) : Int) - 1075) = (m : ℚ) * (2 : ℚ) ^ (-149 : ℤ) := by
        push_cast
        rw [mul_assoc, ← zpow_natCast, ← zpow_add₀ (by norm_num)]
        have hz : (((52 - k : Nat)) : ℤ) + ((k : ℤ) + 874 - 1075) = -149 := by omega
        rw [hz]
      rw [mul_assoc, this, ← mul_assoc]
  · rw [if_neg h2, if_neg h2]
    obtain ⟨g1, g2⟩ := fin (decide (2 ^ 31 ≤ f.toNat)) (e := f.toNat / 2 ^ 23 % 2 ^ 8 + 896) (m := f.toNat % 2 ^ 23 * 2 ^ 29) (by omega) (by omega)
      (by omega)
    refine ⟨g1, ?_, fun _ => by rw [expo _ (by omega) (by omega)]; omega⟩
    rw [g2]
    generalize f.toNat % 2 ^ 23 = m at *
    generalize f.toNat / 2 ^ 23 % 2 ^ 8 = e at *
    have e1 : 2 ^ 52 + m * 2 ^ 29 = (2 ^ 23 + m) * 2 ^ 29 := by omega
    have : (((2 ^ 23 + m) * 2 ^ 29 : Nat) : ℚ) * (2 : ℚ) ^ (((e + 896 : Nat) : Int) - 1075) = ((2 ^ 23 + m : Nat) : ℚ) * (2 : ℚ) ^ ((e : ℤ) - 150) := by
      rw [Nat.cast_mul, mul_assoc, Nat.cast_pow, Nat.cast_ofNat, ← zpow_natCast, ← zpow_add₀ (by norm_num)]
      have hz : ((29 : Nat) : ℤ) + (((e + 896 : Nat) : ℤ) - 1075) = (e : ℤ) - 150 := by omega
      rw [hz]
    rw [e1, mul_assoc, this, ← mul_assoc]

/-- A decoder followed by a conversion. -/
theorem RoundTrip.convert {ε α β : Type} {enc : M ε} {e : ε} {dec : M (Bool × α)} {v : α} {len : Nat} (h : RoundTrip enc e dec v len) (g : α → β) :
    RoundTrip enc e (do let r ← dec; pure (r.1, g r.2)) (g v) len := by
  intro s bs hs hl
  obtain ⟨s', h1, h2, h3, h4, h5⟩ := h s bs hs hl
  refine ⟨s', h1, h2, h3, h4, fun t w1 w2 w3 w4 => ?_⟩
  obtain ⟨t', d1, d2⟩ := h5 t w1 w2 w3 w4
  refine ⟨t', ?_, d2⟩
  simp only [bind, pure, d1]

theorem RejectsTruncated.convert {ε α β : Type} {enc : M ε} {e : ε} {dec : M (Bool × α)} {len : Nat} (h : RejectsTruncated enc e dec len) (g : α → β) :
    RejectsTruncated enc e (do let r ← dec; pure (r.1, g r.2)) len := by
  intro s bs hs hl
  obtain ⟨s', h1, h5⟩ := h s bs hs hl
  refine ⟨s', h1, fun t w1 w2 w3 w4 w5 w6 => ?_⟩
  obtain ⟨a, t', d1, d2⟩ := h5 t w1 w2 w3 w4 w5 w6
  refine ⟨g a, t', ?_, d2⟩
  simp only [bind, pure, d1]

theorem Codec.convert {α β : Type} {enc : M Unit} {dec : M (Bool × α)} {v : α} {code : List Bool} (h : Codec enc dec v code) (g : α → β) :
    Codec enc (do let r ← dec; pure (r.1, g r.2)) (g v) code :=
  ⟨h.1, h.2.1.convert g, h.2.2.convert g⟩

end Asn1
