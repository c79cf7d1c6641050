import Verif.Proof.Float32
/-!
The conversion of a `double` to `float` rounds to the nearest number.
-/
namespace Asn1

/-- Every finite float is a 24 bit integer times a power of two from -149 on. -/
theorem floatValue_form (d : Flt) :
    ∃ (k p : Int), floatValue d = (k : ℚ) * (2 : ℚ) ^ p ∧ |k| < 2 ^ 24 ∧ -149 ≤ p := by
  have hlt := Nat.mod_lt d.toNat (show 0 < 2 ^ 23 by decide)
  unfold floatValue
  dsimp only
  generalize d.toNat / 2 ^ 23 % 2 ^ 8 = e at *
  generalize d.toNat % 2 ^ 23 = f at *
  by_cases h0 : e = 0
  · rw [if_pos h0]
    refine ⟨(if d.toNat / 2 ^ 31 = 1 then -1 else 1) * (f : Int), -149, ?_, ?_, by omega⟩
    · push_cast; rfl
    · split
      · rw [abs_mul, abs_neg, abs_one, one_mul, abs_of_nonneg (by omega)]; omega
      · rw [abs_mul, abs_one, one_mul, abs_of_nonneg (by omega)]; omega
  · rw [if_neg h0]
    refine ⟨(if d.toNat / 2 ^ 31 = 1 then -1 else 1) * ((2 ^ 23 + f : Nat) : Int), (e : Int) - 150, ?_, ?_, by omega⟩
    · push_cast; congr 2
    · split
      · rw [abs_mul, abs_neg, abs_one, one_mul, abs_of_nonneg (by omega)]; omega
      · rw [abs_mul, abs_one, one_mul, abs_of_nonneg (by omega)]; omega

/-- `nearest_of` for any quotient: `v = σ * N / D * 2 ^ x`, `d = σ * q * 2 ^ x`, with `q` the rounded `N / D`. -/
theorem nearest32_of_quot {σ : Int} (hσ : σ = 1 ∨ σ = -1) {N D : Nat} {x : Int} (hD : 0 < D) (hN : 2 ^ 23 * D ≤ N ∨ x = -149)
    {d d' : Flt} (hd : floatValue d = (σ : ℚ) * (rne N D : ℚ) * (2 : ℚ) ^ x) {v : ℚ}
    (hv : v * D = (σ : ℚ) * N * (2 : ℚ) ^ x) :
    |floatValue d - v| ≤ |floatValue d' - v| ∧
    (|floatValue d' - v| = |floatValue d - v| → floatValue d' ≠ floatValue d → rne N D % 2 = 0) := by
  have hDq : (0 : ℚ) < D := by exact_mod_cast hD
  have hx : (0 : ℚ) < (2 : ℚ) ^ x := zpow_pos (by norm_num) _
  obtain ⟨u, hu, hpx⟩ : ∃ u : ℚ, 0 < u ∧ (2 : ℚ) ^ x = D * u := ⟨(2 : ℚ) ^ x / D, by positivity, by field_simp⟩
  have hve : v = (σ : ℚ) * N * u := by
    have : v * D = ((σ : ℚ) * N * u) * D := by rw [hv, hpx]; ring
    exact mul_right_cancel₀ hDq.ne' this
  have hσ1 : |(σ : ℚ)| = 1 := by rcases hσ with h | h <;> rw [h] <;> simp
  have hσ2 : σ * σ = 1 := by rcases hσ with h | h <;> rw [h] <;> rfl
  have dist : ∀ k : Int, |((k : ℚ) * (2 : ℚ) ^ x) - v| = ((|(σ * k) * (D : Int) - N| : Int) : ℚ) * u := by
    intro k
    have e : (k : ℚ) * (2 : ℚ) ^ x - v = (σ : ℚ) * ((((σ * k) * (D : Int) - N : Int)) : ℚ) * u := by
      rw [hpx, hve]; push_cast
      have : (σ : ℚ) * σ = 1 := by exact_mod_cast hσ2
      linear_combination (-(k : ℚ) * D * u) * this
    rw [e, abs_mul, abs_mul, hσ1, one_mul, abs_of_pos hu, Int.cast_abs]
  have near := rne_nearest N hD
  have dd := dist (σ * (rne N D : Int))
  have ed : floatValue d = ((σ * (rne N D : Int) : Int) : ℚ) * (2 : ℚ) ^ x := by rw [hd]; push_cast; rfl
  rw [← ed, ← mul_assoc, hσ2, one_mul] at dd
  obtain ⟨k, p, e, hk, hp1⟩ := floatValue_form d'
  by_cases hpp : x ≤ p
  · have e' : floatValue d' = ((k * 2 ^ (p - x).toNat : Int) : ℚ) * (2 : ℚ) ^ x := by
      rw [e]; push_cast
      rw [mul_assoc, ← zpow_natCast, ← zpow_add₀ (by norm_num), Int.toNat_of_nonneg (by omega)]
      congr 2; omega
    rw [e', dist, dd]
    generalize (k * 2 ^ (p - x).toNat : Int) = k' at *
    obtain ⟨n1, n2⟩ := near (σ * k')
    constructor
    · exact mul_le_mul_of_nonneg_right (by exact_mod_cast n1) hu.le
    · intro heq hne
      have h1 := mul_right_cancel₀ hu.ne' heq
      refine n2 (by exact_mod_cast h1) ?_
      intro hc
      apply hne
      rw [ed, ← hc, ← mul_assoc, hσ2, one_mul]
  · have hm : 2 ^ 23 * D ≤ N := by
      rcases hN with h | h
      · exact h
      · omega
    obtain ⟨n1, -⟩ := near (2 ^ 23)
    have hmi : (0 : Int) ≤ (N : Int) - 2 ^ 23 * (D : Int) := by
      have : ((2 ^ 23 * D : Nat) : Int) ≤ (N : Int) := by exact_mod_cast hm
      push_cast at this ⊢; omega
    have ea : |(2 ^ 23 : Int) * (D : Int) - N| = (N : Int) - 2 ^ 23 * (D : Int) := by
      rw [abs_sub_comm, abs_of_nonneg hmi]
    have hsmall : |floatValue d'| < (2 : ℚ) ^ 23 * (2 : ℚ) ^ x := by
      rw [e, abs_mul, abs_of_pos (zpow_pos (by norm_num) p : (0 : ℚ) < (2 : ℚ) ^ p)]
      have h1 : |(k : ℚ)| < 2 ^ 24 := by rw [← Int.cast_abs]; exact_mod_cast hk
      have h2 : (2 : ℚ) ^ p ≤ (2 : ℚ) ^ (x - 1) := zpow_le_zpow_right₀ (by norm_num) (by omega)
      calc |(k : ℚ)| * (2 : ℚ) ^ p < 2 ^ 24 * (2 : ℚ) ^ p := mul_lt_mul_of_pos_right h1 (zpow_pos (by norm_num) _)
        _ ≤ 2 ^ 24 * (2 : ℚ) ^ (x - 1) := mul_le_mul_of_nonneg_left h2 (by norm_num)
        _ = _ := by rw [zpow_sub_one₀ (by norm_num)]; ring
    have hva : |v| = (N : ℚ) * u := by
      rw [hve, abs_mul, abs_mul, hσ1, one_mul, abs_of_pos hu, abs_of_nonneg (by positivity)]
    have hstrict : |floatValue d - v| < |floatValue d' - v| := by
      rw [dd]
      have t1 : ((|(rne N D : Int) * (D : Int) - N| : Int) : ℚ) * u ≤ (((N : Int) - 2 ^ 23 * (D : Int) : Int) : ℚ) * u := by
        refine mul_le_mul_of_nonneg_right ?_ hu.le
        rw [← ea]; exact_mod_cast n1
      have t2 := abs_sub_abs_le_abs_sub v (floatValue d')
      rw [abs_sub_comm v, hva] at t2
      rw [hpx] at hsmall
      have t3 : (((N : Int) - 2 ^ 23 * (D : Int) : Int) : ℚ) * u = (N : ℚ) * u - (2 : ℚ) ^ 23 * (D * u) := by push_cast; ring
      rw [t3] at t1
      linarith
    exact ⟨hstrict.le, fun h => absurd h hstrict.ne'⟩


theorem fltMake_toNat (s : Bool) {mag : Nat} (h : mag < 2 ^ 31) :
    (fltMake s mag).toNat = (if s then 2 ^ 31 else 0) + mag := by
  unfold fltMake
  rw [BitVec.toNat_ofNat, Nat.mod_eq_of_lt]
  split <;> omega

theorem floatValue_make (s : Bool) {a q : Nat} (hq : q < 2 ^ 24) (h : 2 ^ 23 ≤ q ∨ a = 0) (ha : a ≤ 253) :
    FiniteFloat (fltMake s (a * 2 ^ 23 + q)) ∧
    floatValue (fltMake s (a * 2 ^ 23 + q)) = (if s then -1 else 1) * (q : ℚ) * (2 : ℚ) ^ ((a : Int) - 149) := by
  have hn := fltMake_toNat s (mag := a * 2 ^ 23 + q) (by omega)
  have hs : (if (fltMake s (a * 2 ^ 23 + q)).toNat / 2 ^ 31 = 1 then (-1 : ℚ) else 1) = if s then -1 else 1 := by
    rw [hn]
    cases s
    · simp only [Bool.false_eq_true, if_false]; rw [if_neg (by omega)]
    · simp only [if_true]; rw [if_pos (by omega)]
  have he : (fltMake s (a * 2 ^ 23 + q)).toNat / 2 ^ 23 % 2 ^ 8 = if q < 2 ^ 23 then a else a + 1 := by
    rw [hn]
    cases s <;> simp only [Bool.false_eq_true, if_false, if_true] <;> split <;> omega
  have hf : (fltMake s (a * 2 ^ 23 + q)).toNat % 2 ^ 23 = if q < 2 ^ 23 then q else q - 2 ^ 23 := by
    rw [hn]
    cases s <;> simp only [Bool.false_eq_true, if_false, if_true] <;> split <;> omega
  refine ⟨by unfold FiniteFloat; rw [he]; split <;> omega, ?_⟩
  unfold floatValue
  dsimp only
  rw [hs, he, hf]
  by_cases h1 : q < 2 ^ 23
  · have h0 : a = 0 := by omega
    rw [if_pos h1, if_pos h1, if_pos h0, h0]
    norm_num
  · rw [if_neg h1, if_neg h1, if_neg (by omega), Nat.add_sub_of_le (by omega)]
    rw [show (((a + 1 : Nat) : Int) - 150) = (a : Int) - 149 by omega]

/-- The bits of the rounded number. -/
theorem fltMake_bits (s : Bool) {x : Int} {q : Nat} (hx1 : -149 ≤ x) (hxmax : x ≤ 104) (hq24 : q ≤ 2 ^ 24)
    (hq23 : 2 ^ 23 ≤ q ∨ x = -149) (hlast : x = 104 → q < 2 ^ 24) :
    FiniteFloat (fltMake s (min ((x + 149).toNat * 2 ^ 23 + q) (255 * 2 ^ 23))) ∧
    floatValue (fltMake s (min ((x + 149).toNat * 2 ^ 23 + q) (255 * 2 ^ 23))) =
      (if s then -1 else 1) * (q : ℚ) * (2 : ℚ) ^ x ∧
    (fltMake s (min ((x + 149).toNat * 2 ^ 23 + q) (255 * 2 ^ 23))).toNat % 2 = q % 2 := by
  obtain ⟨a, ha⟩ : ∃ a : Nat, x = (a : Int) - 149 := ⟨(x + 149).toNat, by omega⟩
  have ha1 : (x + 149).toNat = a := by omega
  have ha2 : a ≤ 253 := by omega
  rw [ha1]
  by_cases hc : q < 2 ^ 24
  · have e : min (a * 2 ^ 23 + q) (255 * 2 ^ 23) = a * 2 ^ 23 + q := by omega
    rw [e]
    obtain ⟨g1, g2⟩ := floatValue_make s hc (by omega) ha2
    refine ⟨g1, by rw [g2, ha], ?_⟩
    rw [fltMake_toNat s (by omega)]
    split <;> omega
  · have hq : q = 2 ^ 24 := by omega
    have ha3 : a ≤ 252 := by
      by_contra h
      exact hc (hlast (by omega))
    have e : min (a * 2 ^ 23 + q) (255 * 2 ^ 23) = (a + 1) * 2 ^ 23 + 2 ^ 23 := by omega
    rw [e]
    obtain ⟨g1, g2⟩ := floatValue_make s (a := a + 1) (q := 2 ^ 23) (by decide) (by omega) (by omega)
    refine ⟨g1, ?_, ?_⟩
    · rw [g2, hq, ha, show (((a + 1 : Nat) : Int) - 149) = ((a : Int) - 149) + 1 by omega, zpow_add₀ (by norm_num)]
      push_cast
      ring
    · rw [fltMake_toNat s (by omega), hq]
      split <;> omega


/-- The quotient that is rounded. -/
theorem quot_bounds {M : Nat} (hM : M ≠ 0) {p x : Int} (hx : x = max ((Nat.log2 M : Int) + p - 23) (-149)) :
    (2 ^ 23 * 2 ^ (x - p).toNat ≤ M * 2 ^ (p - x).toNat ∨ x = -149) ∧ M * 2 ^ (p - x).toNat < 2 ^ 24 * 2 ^ (x - p).toNat := by
  have h1 := Nat.log2_self_le hM
  have h2 := @Nat.lt_log2_self M
  generalize Nat.log2 M = L at *
  have up : M * 2 ^ (p - x).toNat < 2 ^ (L + 1 + (p - x).toNat) := by
    rw [Nat.pow_add]; exact Nat.mul_lt_mul_of_pos_right h2 (Nat.two_pow_pos _)
  have lo : 2 ^ (L + (p - x).toNat) ≤ M * 2 ^ (p - x).toNat := by
    rw [Nat.pow_add]; exact Nat.mul_le_mul_right _ h1
  constructor
  · by_cases hc : x = -149
    · exact Or.inr hc
    · refine Or.inl (Nat.le_trans ?_ lo)
      rw [← Nat.pow_add]
      exact Nat.pow_le_pow_right (by decide) (by omega)
  · refine Nat.lt_of_lt_of_le up ?_
    rw [← Nat.pow_add]
    exact Nat.pow_le_pow_right (by decide) (by omega)

theorem quot_value (M : Nat) (p x : Int) :
    (M : ℚ) * (2 : ℚ) ^ p * ((2 ^ (x - p).toNat : Nat) : ℚ) = ((M * 2 ^ (p - x).toNat : Nat) : ℚ) * (2 : ℚ) ^ x := by
  push_cast
  rw [← zpow_natCast, ← zpow_natCast, mul_assoc, mul_assoc, ← zpow_add₀ (by norm_num), ← zpow_add₀ (by norm_num)]
  have : p + ((x - p).toNat : Int) = ((p - x).toNat : Int) + x := by omega
  rw [this]

theorem rne_below {N D : Nat} (hD : 0 < D) (h : 2 * N < (2 ^ 25 - 1) * D) : rne N D < 2 ^ 24 := by
  have h1 := Nat.div_add_mod N D
  have h2 := Nat.mod_lt N hD
  have h3 : N / D < 2 ^ 24 := (Nat.div_lt_iff_lt_mul hD).2 (by omega)
  by_cases hc : N / D = 2 ^ 24 - 1
  · rw [hc] at h1
    have : 2 * (N % D) < D := by omega
    unfold rne
    rw [if_pos (Or.inl this)]
    exact h3
  · unfold rne
    split <;> omega

/-- The conversion rounds to nearest. -/
theorem doubleToFloat_nearest {d : Dbl} (h : IsFinite d) (hv : |doubleValue d| < (2 : ℚ) ^ (128 : ℤ) - (2 : ℚ) ^ (103 : ℤ)) :
    NearestFloat (doubleToFloat d) (doubleValue d) := by
  have hfin := (isFinite_iff d).1 h
  have hval := doubleValue_parts h
  have hσ : ((if dblSign d then -1 else 1 : Int) = 1 ∨ (if dblSign d then -1 else 1 : Int) = -1) := by cases dblSign d <;> simp
  have hcast : (((if dblSign d then -1 else 1 : Int)) : ℚ) = if dblSign d then -1 else 1 := by cases dblSign d <;> simp
  have habs : |(if dblSign d then (-1 : ℚ) else 1)| = 1 := by cases dblSign d <;> simp
  unfold doubleToFloat
  rw [hfin.1, hfin.2]
  simp only [Bool.false_eq_true, if_false]
  by_cases h0 : dblMant d = 0
  · rw [if_pos h0]
    obtain ⟨g1, g2⟩ := floatValue_make (dblSign d) (a := 0) (q := 0) (by decide) (Or.inr rfl) (by decide)
    rw [Nat.zero_mul] at g1 g2
    have e : floatValue (fltMake (dblSign d) 0) = doubleValue d := by rw [hval, h0]; simpa using g2
    refine ⟨g1, fun f' _ => ?_⟩
    rw [e]
    refine ⟨by simp, fun hc hne => ?_⟩
    rw [sub_self, abs_zero, abs_eq_zero, sub_eq_zero] at hc
    exact absurd hc hne
  · rw [if_neg h0]
    generalize hx : max ((Nat.log2 (dblMant d) : Int) + dblPow d - 23) (-149) = x
    obtain ⟨b1, b2⟩ := quot_bounds h0 (p := dblPow d) hx.symm
    have hrel := quot_value (dblMant d) (dblPow d) x
    have hD : 0 < 2 ^ (x - dblPow d).toNat := Nat.two_pow_pos _
    have hmag : (dblMant d : ℚ) * (2 : ℚ) ^ dblPow d < (2 : ℚ) ^ (128 : ℤ) - (2 : ℚ) ^ (103 : ℤ) := by
      rw [hval, abs_mul, abs_mul, habs, one_mul, abs_of_nonneg (by positivity : (0 : ℚ) ≤ (dblMant d : ℚ)),
        abs_of_pos (zpow_pos (by norm_num) _ : (0 : ℚ) < (2 : ℚ) ^ dblPow d)] at hv
      exact hv
    have hlog : (Nat.log2 (dblMant d) : Int) + dblPow d < 128 := by
      have l1 : ((2 ^ Nat.log2 (dblMant d) : Nat) : ℚ) ≤ dblMant d := by exact_mod_cast Nat.log2_self_le h0
      have l2 : (2 : ℚ) ^ ((Nat.log2 (dblMant d) : Int) + dblPow d) ≤ (dblMant d : ℚ) * (2 : ℚ) ^ dblPow d := by
        rw [zpow_add₀ (by norm_num), zpow_natCast]
        push_cast at l1
        exact mul_le_mul_of_nonneg_right l1 (zpow_pos (by norm_num) _).le
      have l3 : (2 : ℚ) ^ ((Nat.log2 (dblMant d) : Int) + dblPow d) < (2 : ℚ) ^ (128 : ℤ) := by
        have : (0 : ℚ) < (2 : ℚ) ^ (103 : ℤ) := zpow_pos (by norm_num) _
        generalize (2 : ℚ) ^ (128 : ℤ) = A at *
        generalize (2 : ℚ) ^ (103 : ℤ) = B at *
        linarith
      exact (zpow_lt_zpow_iff_right₀ (by norm_num)).1 l3
    have hx1 : -149 ≤ x := by omega
    have hx2 : x ≤ 104 := by omega
    have hlast : x = 104 → rne (dblMant d * 2 ^ (dblPow d - x).toNat) (2 ^ (x - dblPow d).toNat) < 2 ^ 24 := by
      intro hc
      apply rne_below hD
      have t : ((dblMant d * 2 ^ (dblPow d - x).toNat : Nat) : ℚ) * (2 : ℚ) ^ x <
          ((2 : ℚ) ^ (128 : ℤ) - (2 : ℚ) ^ (103 : ℤ)) * ((2 ^ (x - dblPow d).toNat : Nat) : ℚ) := by
        rw [← hrel]
        exact mul_lt_mul_of_pos_right hmag (by exact_mod_cast hD)
      generalize dblMant d * 2 ^ (dblPow d - x).toNat = N at *
      generalize 2 ^ (x - dblPow d).toNat = D at *
      rw [hc] at t
      have e : ((2 : ℚ) ^ (128 : ℤ) - (2 : ℚ) ^ (103 : ℤ)) * (D : ℚ) = ((2 ^ 25 - 1 : ℚ) * D) * (2 : ℚ) ^ (103 : ℤ) := by
        rw [show (128 : ℤ) = 25 + 103 by norm_num, zpow_add₀ (by norm_num)]
        rw [show (2 : ℚ) ^ (25 : ℤ) = 2 ^ 25 by norm_cast]
        ring
      have e2 : (N : ℚ) * (2 : ℚ) ^ (104 : ℤ) = (2 * (N : ℚ)) * (2 : ℚ) ^ (103 : ℤ) := by
        rw [show (104 : ℤ) = 1 + 103 by norm_num, zpow_add₀ (by norm_num), zpow_one]; ring
      rw [e, e2] at t
      have t2 := lt_of_mul_lt_mul_right t (zpow_pos (by norm_num) _).le
      have t3 : ((2 * N : Nat) : ℚ) < (((2 ^ 25 - 1) * D : Nat) : ℚ) := by
        rw [Nat.cast_mul, Nat.cast_mul]
        norm_num at t2 ⊢
        exact t2
      exact_mod_cast t3
    obtain ⟨g1, g2, g3⟩ := fltMake_bits (dblSign d) (x := x) (q := rne (dblMant d * 2 ^ (dblPow d - x).toNat) (2 ^ (x - dblPow d).toNat)) hx1 hx2
      (rne_le_of hD b2) (b1.imp_left (le_rne_of hD)) hlast
    refine ⟨g1, fun f' _ => ?_⟩
    rw [g3]
    refine nearest32_of_quot hσ hD b1 (by rw [g2, hcast]) ?_
    rw [hcast, hval, mul_assoc, mul_assoc, ← mul_assoc ((dblMant d : Nat) : ℚ), hrel, ← mul_assoc]

end Asn1
