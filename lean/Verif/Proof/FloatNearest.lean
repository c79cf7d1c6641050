import Verif.Proof.Real4
/-!
The arithmetic of doubles rounds to the nearest number.
-/
namespace Asn1

/-- Every finite double is a 53 bit integer times a power of two from -1074 on. -/
theorem doubleValue_form2 (d : Dbl) :
    ∃ (k p : Int), doubleValue d = (k : ℚ) * (2 : ℚ) ^ p ∧ |k| < 2 ^ 53 ∧ -1074 ≤ p := by
  have hlt := Nat.mod_lt d.toNat (show 0 < 2 ^ 52 by decide)
  unfold doubleValue
  dsimp only
  generalize d.toNat / 2 ^ 52 % 2 ^ 11 = e at *
  generalize d.toNat % 2 ^ 52 = f at *
  by_cases h0 : e = 0
  · rw [if_pos h0]
    refine ⟨(if d.toNat / 2 ^ 63 = 1 then -1 else 1) * (f : Int), -1074, ?_, ?_, by omega⟩
    · push_cast; rfl
    · split
      · rw [abs_mul, abs_neg, abs_one, one_mul, abs_of_nonneg (by omega)]; omega
      · rw [abs_mul, abs_one, one_mul, abs_of_nonneg (by omega)]; omega
  · rw [if_neg h0]
    refine ⟨(if d.toNat / 2 ^ 63 = 1 then -1 else 1) * ((2 ^ 52 + f : Nat) : Int), (e : Int) - 1075, ?_, ?_, by omega⟩
    · push_cast; congr 2
    · split
      · rw [abs_mul, abs_neg, abs_one, one_mul, abs_of_nonneg (by omega)]; omega
      · rw [abs_mul, abs_one, one_mul, abs_of_nonneg (by omega)]; omega

/-- `nearest_of` for any quotient: `v = σ * N / D * 2 ^ x`, `d = σ * q * 2 ^ x`, with `q` the rounded `N / D`. -/
theorem nearest_of_quot {σ : Int} (hσ : σ = 1 ∨ σ = -1) {N D : Nat} {x : Int} (hD : 0 < D) (hN : 2 ^ 52 * D ≤ N ∨ x = -1074)
    {d d' : Dbl} (hd : doubleValue d = (σ : ℚ) * (rne N D : ℚ) * (2 : ℚ) ^ x) {v : ℚ}
    (hv : v * D = (σ : ℚ) * N * (2 : ℚ) ^ x) :
    |doubleValue d - v| ≤ |doubleValue d' - v| ∧
    (|doubleValue d' - v| = |doubleValue d - v| → doubleValue d' ≠ doubleValue d → rne N D % 2 = 0) := by
  have hDq : (0 : ℚ) < D := by exact_mod_cast hD
  have hx : (0 : ℚ) < (2 : ℚ) ^ x := zpow_pos (by norm_num) _
  obtain ⟨u, hu, hpx⟩ : ∃ u : ℚ, 0 < u ∧ (2 : ℚ) ^ x = D * u := ⟨(2 : ℚ) ^ x / D, by positivity, by field_simp⟩
  have hve : v = (σ : ℚ) * N * u := by
    have : v * D = ((σ : ℚ) * N * u) * D := by rw [hv, hpx]; ring
    exact mul_right_cancel₀ hDq.ne' this
  have hσ1 : |(σ : ℚ)| = 1 := by rcases hσ with h | h <;> rw [h] <;> simp
  have hσ2 : σ * σ = 1 := by rcases hσ with h | h <;> rw [h] <;> rfl
  have dist : ∀ k : Int, |((k : ℚ) * (2 : ℚ) ^ x) - v| = ((|(σ * k) * (D : Int) - N| : Int) : ℚ) * u := by
    intro k
    have e : (k : ℚ) * (2 : ℚ) ^ x - v = (σ : ℚ) * ((((σ * k) * (D : Int) - N : Int)) : ℚ) * u := by
      rw [hpx, hve]; push_cast
      have : (σ : ℚ) * σ = 1 := by exact_mod_cast hσ2
      linear_combination (-(k : ℚ) * D * u) * this
    rw [e, abs_mul, abs_mul, hσ1, one_mul, abs_of_pos hu, Int.cast_abs]
  have near := rne_nearest N hD
  have dd := dist (σ * (rne N D : Int))
  have ed : doubleValue d = ((σ * (rne N D : Int) : Int) : ℚ) * (2 : ℚ) ^ x := by rw [hd]; push_cast; rfl
  rw [← ed, ← mul_assoc, hσ2, one_mul] at dd
  obtain ⟨k, p, e, hk, hp1⟩ := doubleValue_form2 d'
  by_cases hpp : x ≤ p
  · have e' : doubleValue d' = ((k * 2 ^ (p - x).toNat : Int) : ℚ) * (2 : ℚ) ^ x := by
      rw [e]; push_cast
      rw [mul_assoc, ← zpow_natCast, ← zpow_add₀ (by norm_num), Int.toNat_of_nonneg (by omega)]
      congr 2; omega
    rw [e', dist, dd]
    generalize (k * 2 ^ (p - x).toNat : Int) = k' at *
    obtain ⟨n1, n2⟩ := near (σ * k')
    constructor
    · exact mul_le_mul_of_nonneg_right (by exact_mod_cast n1) hu.le
    · intro heq hne
      have h1 := mul_right_cancel₀ hu.ne' heq
      refine n2 (by exact_mod_cast h1) ?_
      intro hc
      apply hne
      rw [ed, ← hc, ← mul_assoc, hσ2, one_mul]
  · have hm : 2 ^ 52 * D ≤ N := by
      rcases hN with h | h
      · exact h
      · omega
    obtain ⟨n1, -⟩ := near (2 ^ 52)
    have hmi : (0 : Int) ≤ (N : Int) - 2 ^ 52 * (D : Int) := by
      have : ((2 ^ 52 * D : Nat) : Int) ≤ (N : Int) := by exact_mod_cast hm
      push_cast at this ⊢; omega
    have ea : |(2 ^ 52 : Int) * (D : Int) - N| = (N : Int) - 2 ^ 52 * (D : Int) := by
      rw [abs_sub_comm, abs_of_nonneg hmi]
    have hsmall : |doubleValue d'| < (2 : ℚ) ^ 52 * (2 : ℚ) ^ x := by
      rw [e, abs_mul, abs_of_pos (zpow_pos (by norm_num) p : (0 : ℚ) < (2 : ℚ) ^ p)]
      have h1 : |(k : ℚ)| < 2 ^ 53 := by rw [← Int.cast_abs]; exact_mod_cast hk
      have h2 : (2 : ℚ) ^ p ≤ (2 : ℚ) ^ (x - 1) := zpow_le_zpow_right₀ (by norm_num) (by omega)
      calc |(k : ℚ)| * (2 : ℚ) ^ p < 2 ^ 53 * (2 : ℚ) ^ p := mul_lt_mul_of_pos_right h1 (zpow_pos (by norm_num) _)
        _ ≤ 2 ^ 53 * (2 : ℚ) ^ (x - 1) := mul_le_mul_of_nonneg_left h2 (by norm_num)
        _ = _ := by rw [zpow_sub_one₀ (by norm_num)]; ring
    have hva : |v| = (N : ℚ) * u := by
      rw [hve, abs_mul, abs_mul, hσ1, one_mul, abs_of_pos hu, abs_of_nonneg (by positivity)]
    have hstrict : |doubleValue d - v| < |doubleValue d' - v| := by
      rw [dd]
      have t1 : ((|(rne N D : Int) * (D : Int) - N| : Int) : ℚ) * u ≤ (((N : Int) - 2 ^ 52 * (D : Int) : Int) : ℚ) * u := by
        refine mul_le_mul_of_nonneg_right ?_ hu.le
        rw [← ea]; exact_mod_cast n1
      have t2 := abs_sub_abs_le_abs_sub v (doubleValue d')
      rw [abs_sub_comm v, hva] at t2
      rw [hpx] at hsmall
      have t3 : (((N : Int) - 2 ^ 52 * (D : Int) : Int) : ℚ) * u = (N : ℚ) * u - (2 : ℚ) ^ 52 * (D * u) := by push_cast; ring
      rw [t3] at t1
      linarith
    exact ⟨hstrict.le, fun h => absurd h hstrict.ne'⟩

/-- `floorLog2` is the position of the highest bit of the quotient. -/
theorem floorLog2_spec {n d : Nat} (hn : 0 < n) (hd : 0 < d) :
    (d : ℚ) * (2 : ℚ) ^ floorLog2 n d ≤ n ∧ (n : ℚ) < d * (2 : ℚ) ^ (floorLog2 n d + 1) := by
  have n1 : 2 ^ Nat.log2 n ≤ n := Nat.log2_self_le (by omega)
  have n2 : n < 2 ^ (Nat.log2 n + 1) := Nat.lt_log2_self
  have d1 : 2 ^ Nat.log2 d ≤ d := Nat.log2_self_le (by omega)
  have d2 : d < 2 ^ (Nat.log2 d + 1) := Nat.lt_log2_self
  have hdq : (0 : ℚ) < d := by exact_mod_cast hd
  have q1 : (2 : ℚ) ^ ((Nat.log2 n : Nat) : Int) ≤ n := by rw [zpow_natCast]; exact_mod_cast n1
  have q2 : (n : ℚ) < (2 : ℚ) ^ ((Nat.log2 n : Nat) + 1 : Int) := by
    rw [show ((Nat.log2 n : Nat) + 1 : Int) = ((Nat.log2 n + 1 : Nat) : Int) by push_cast; rfl, zpow_natCast]; exact_mod_cast n2
  have q3 : (2 : ℚ) ^ ((Nat.log2 d : Nat) : Int) ≤ d := by rw [zpow_natCast]; exact_mod_cast d1
  have q4 : (d : ℚ) < (2 : ℚ) ^ ((Nat.log2 d : Nat) + 1 : Int) := by
    rw [show ((Nat.log2 d : Nat) + 1 : Int) = ((Nat.log2 d + 1 : Nat) : Int) by push_cast; rfl, zpow_natCast]; exact_mod_cast d2
  have key : ∀ k : Int, (d * 2 ^ k.toNat ≤ n * 2 ^ (-k).toNat) ↔ (d : ℚ) * (2 : ℚ) ^ k ≤ n := by
    intro k
    rcases le_total 0 k with h | h
    · have e1 : (-k).toNat = 0 := by omega
      rw [e1, Nat.pow_zero, Nat.mul_one, ← Int.toNat_of_nonneg h, Int.toNat_natCast, zpow_natCast]
      exact_mod_cast Iff.rfl
    · have e1 : k.toNat = 0 := by omega
      obtain ⟨j, rfl⟩ : ∃ j : Nat, k = -(j : Int) := ⟨(-k).toNat, by omega⟩
      rw [e1, Nat.pow_zero, Nat.mul_one, neg_neg, Int.toNat_natCast, zpow_neg, zpow_natCast, ← div_eq_mul_inv,
        div_le_iff₀ (by positivity)]
      exact_mod_cast Iff.rfl
  unfold floorLog2
  dsimp only
  split
  · rename_i h
    refine ⟨(key _).1 h, ?_⟩
    have e : (2 : ℚ) ^ ((Nat.log2 n : Nat) + 1 : Int) =
        (2 : ℚ) ^ ((Nat.log2 d : Nat) : Int) * (2 : ℚ) ^ ((Nat.log2 n : Int) - Nat.log2 d + 1) := by
      rw [← zpow_add₀ (by norm_num)]; congr 1; omega
    rw [e] at q2
    exact lt_of_lt_of_le q2 (mul_le_mul_of_nonneg_right q3 (zpow_pos (by norm_num) _).le)
  · rename_i h
    rw [sub_add_cancel]
    refine ⟨?_, ?_⟩
    · have e : (2 : ℚ) ^ ((Nat.log2 n : Nat) : Int) =
          (2 : ℚ) ^ ((Nat.log2 d : Nat) + 1 : Int) * (2 : ℚ) ^ ((Nat.log2 n : Int) - Nat.log2 d - 1) := by
        rw [← zpow_add₀ (by norm_num)]; congr 1; omega
      rw [e] at q1
      exact le_trans (mul_le_mul_of_nonneg_right q4.le (zpow_pos (by norm_num) _).le) q1
    · exact not_le.1 fun hc => h ((key _).2 hc)

theorem rne_le_of {N D q : Nat} (hD : 0 < D) (h : N < q * D) : rne N D ≤ q := by
  have h3 : N / D < q := (Nat.div_lt_iff_lt_mul hD).2 h
  unfold rne
  split <;> omega

theorem le_rne_of {N D q : Nat} (hD : 0 < D) (h : q * D ≤ N) : q ≤ rne N D := by
  have h3 : q ≤ N / D := (Nat.le_div_iff_mul_le hD).2 h
  unfold rne
  split <;> omega

/-- The last place of the rounded number. -/
def lastBit (n d : Nat) (e : Int) : Int := max (floorLog2 n d + e - 52) (-1074)

/-- The bits of the rounded number. -/
theorem dblMake_bits (s : Bool) {x : Int} {q : Nat} (hx1 : -1074 ≤ x) (hxmax : x ≤ 971) (hq53 : q ≤ 2 ^ 53)
    (hq52 : 2 ^ 52 ≤ q ∨ x = -1074) (hlast : x = 971 → q < 2 ^ 53) :
    IsFinite (dblMake s (min ((x + 1074).toNat * 2 ^ 52 + q) (2047 * 2 ^ 52))) ∧
    doubleValue (dblMake s (min ((x + 1074).toNat * 2 ^ 52 + q) (2047 * 2 ^ 52))) =
      (if s then -1 else 1) * (q : ℚ) * (2 : ℚ) ^ x ∧
    (dblMake s (min ((x + 1074).toNat * 2 ^ 52 + q) (2047 * 2 ^ 52))).toNat % 2 = q % 2 := by
  obtain ⟨a, ha⟩ : ∃ a : Nat, x = (a : Int) - 1074 := ⟨(x + 1074).toNat, by omega⟩
  have ha1 : (x + 1074).toNat = a := by omega
  have ha2 : a ≤ 2045 := by omega
  rw [ha1]
  by_cases hc : q < 2 ^ 53
  · have e : min (a * 2 ^ 52 + q) (2047 * 2 ^ 52) = a * 2 ^ 52 + q := by omega
    rw [e]
    obtain ⟨g1, g2⟩ := doubleValue_make s hc (by omega) ha2
    refine ⟨g1, by rw [g2, ha], ?_⟩
    rw [dblMake_toNat s (by omega)]
    split <;> omega
  · have hq : q = 2 ^ 53 := by omega
    have ha3 : a ≤ 2044 := by
      by_contra h
      exact hc (hlast (by omega))
    have e : min (a * 2 ^ 52 + q) (2047 * 2 ^ 52) = (a + 1) * 2 ^ 52 + 2 ^ 52 := by omega
    rw [e]
    obtain ⟨g1, g2⟩ := doubleValue_make s (a := a + 1) (q := 2 ^ 52) (by decide) (by omega) (by omega)
    refine ⟨g1, ?_, ?_⟩
    · rw [g2, hq, ha, show (((a + 1 : Nat) : Int) - 1074) = ((a : Int) - 1074) + 1 by omega, zpow_add₀ (by norm_num)]
      push_cast
      ring
    · rw [dblMake_toNat s (by omega), hq]
      split <;> omega

/-- What `roundMag` rounds. -/
theorem roundMag_value {n d : Nat} {e : Int} (hn : 0 < n) (hd : 0 < d) (s : Bool)
    (hv : (n : ℚ) * (2 : ℚ) ^ e < d * ((2 : ℚ) ^ (1024 : ℤ) - (2 : ℚ) ^ (970 : ℤ))) :
    ∃ N D : Nat, N = n * 2 ^ (e - lastBit n d e).toNat ∧ D = d * 2 ^ (lastBit n d e - e).toNat ∧ 0 < D ∧
      (2 ^ 52 * D ≤ N ∨ lastBit n d e = -1074) ∧ (n : ℚ) * (2 : ℚ) ^ e * D = d * N * (2 : ℚ) ^ lastBit n d e ∧
      IsFinite (dblMake s (roundMag n d e)) ∧
      doubleValue (dblMake s (roundMag n d e)) = (if s then -1 else 1) * (rne N D : ℚ) * (2 : ℚ) ^ lastBit n d e ∧
      (dblMake s (roundMag n d e)).toNat % 2 = rne N D % 2 := by
  obtain ⟨f1, f2⟩ := floorLog2_spec hn hd
  have hdq : (0 : ℚ) < d := by exact_mod_cast hd
  have hdef : lastBit n d e = max (floorLog2 n d + e - 52) (-1074) := rfl
  generalize hx : lastBit n d e = x at *
  generalize hN : n * 2 ^ (e - x).toNat = N
  generalize hDd : d * 2 ^ (x - e).toNat = D
  have hD : 0 < D := by rw [← hDd]; positivity
  have hDq : (0 : ℚ) < D := by exact_mod_cast hD
  have hx0 : (0 : ℚ) < (2 : ℚ) ^ x := zpow_pos (by norm_num) _
  have hrel : (n : ℚ) * (2 : ℚ) ^ e * D = d * N * (2 : ℚ) ^ x := by
    rw [← hN, ← hDd]
    push_cast
    rw [← zpow_natCast, ← zpow_natCast]
    have : (2 : ℚ) ^ e * (2 : ℚ) ^ ((x - e).toNat : Int) = (2 : ℚ) ^ ((e - x).toNat : Int) * (2 : ℚ) ^ x := by
      rw [← zpow_add₀ (by norm_num), ← zpow_add₀ (by norm_num)]; congr 1; omega
    linear_combination (n : ℚ) * d * this
  -- the rounded number has at most 53 bits
  have hup : N < 2 ^ 53 * D := by
    have h1 : (n : ℚ) * (2 : ℚ) ^ e < d * (2 : ℚ) ^ (x + 53) := by
      have : (n : ℚ) * (2 : ℚ) ^ e < d * (2 : ℚ) ^ (floorLog2 n d + 1) * (2 : ℚ) ^ e :=
        mul_lt_mul_of_pos_right f2 (zpow_pos (by norm_num) _)
      refine lt_of_lt_of_le this ?_
      rw [mul_assoc, ← zpow_add₀ (by norm_num)]
      exact mul_le_mul_of_nonneg_left (zpow_le_zpow_right₀ (by norm_num) (by omega)) hdq.le
    have h2 : (d : ℚ) * N * (2 : ℚ) ^ x < d * (2 ^ 53 * D) * (2 : ℚ) ^ x := by
      rw [← hrel]
      have := mul_lt_mul_of_pos_right h1 hDq
      rw [zpow_add₀ (by norm_num)] at this
      refine lt_of_lt_of_eq this ?_
      have : (2 : ℚ) ^ (53 : ℤ) = 2 ^ 53 := by norm_num
      rw [this]; ring
    have h3 := lt_of_mul_lt_mul_left (lt_of_mul_lt_mul_right h2 hx0.le) hdq.le
    exact_mod_cast h3
  have hlow : 2 ^ 52 * D ≤ N ∨ x = -1074 := by
    by_cases hc : x = -1074
    · exact Or.inr hc
    · left
      have ex : x = floorLog2 n d + e - 52 := by omega
      have h1 : (d : ℚ) * (2 : ℚ) ^ (x + 52) ≤ n * (2 : ℚ) ^ e := by
        have : (d : ℚ) * (2 : ℚ) ^ floorLog2 n d * (2 : ℚ) ^ e ≤ n * (2 : ℚ) ^ e :=
          mul_le_mul_of_nonneg_right f1 (zpow_pos (by norm_num) _).le
        rw [mul_assoc, ← zpow_add₀ (by norm_num)] at this
        rw [ex, sub_add_cancel]; exact this
      have h2 : (d : ℚ) * (2 ^ 52 * D) * (2 : ℚ) ^ x ≤ d * N * (2 : ℚ) ^ x := by
        rw [← hrel]
        have := mul_le_mul_of_nonneg_right h1 hDq.le
        rw [zpow_add₀ (by norm_num)] at this
        refine le_trans (le_of_eq ?_) this
        have : (2 : ℚ) ^ (52 : ℤ) = 2 ^ 52 := by norm_num
        rw [this]; ring
      have h3 := le_of_mul_le_mul_left (le_of_mul_le_mul_right h2 hx0) hdq
      exact_mod_cast h3
  have hq53 : rne N D ≤ 2 ^ 53 := rne_le_of hD hup
  have hq52 : 2 ^ 52 ≤ rne N D ∨ x = -1074 := hlow.imp (le_rne_of hD) id
  -- no overflow
  have hvN : (N : ℚ) * (2 : ℚ) ^ x < D * ((2 : ℚ) ^ (1024 : ℤ) - (2 : ℚ) ^ (970 : ℤ)) := by
    have h1 : (d : ℚ) * (N * (2 : ℚ) ^ x) < d * (D * ((2 : ℚ) ^ (1024 : ℤ) - (2 : ℚ) ^ (970 : ℤ))) := by
      have := mul_lt_mul_of_pos_right hv hDq
      rw [hrel] at this
      generalize (2 : ℚ) ^ (1024 : ℤ) - (2 : ℚ) ^ (970 : ℤ) = A at *
      linarith
    exact lt_of_mul_lt_mul_left h1 hdq.le
  have hxmax : x ≤ 971 := by
    by_contra hc
    have hl : 2 ^ 52 * D ≤ N := by rcases hlow with h | h; exacts [h, by omega]
    have hlq : (2 : ℚ) ^ (52 : ℤ) * D ≤ N := by
      rw [show (2 : ℚ) ^ (52 : ℤ) = 2 ^ 52 by norm_num]; exact_mod_cast hl
    have h1 : (2 : ℚ) ^ (52 : ℤ) * D * (2 : ℚ) ^ (972 : ℤ) ≤ N * (2 : ℚ) ^ x :=
      mul_le_mul hlq (zpow_le_zpow_right₀ (by norm_num) (by omega)) (zpow_pos (by norm_num) _).le (by positivity)
    have h2 : (2 : ℚ) ^ (52 : ℤ) * D * (2 : ℚ) ^ (972 : ℤ) = D * (2 : ℚ) ^ (1024 : ℤ) := by
      rw [show (1024 : ℤ) = 52 + 972 by norm_num, zpow_add₀ (by norm_num)]; ring
    rw [h2] at h1
    have h3 := lt_of_le_of_lt h1 hvN
    have h4 := lt_of_mul_lt_mul_left h3 hDq.le
    have h5 : (0 : ℚ) < (2 : ℚ) ^ (970 : ℤ) := zpow_pos (by norm_num) _
    generalize (2 : ℚ) ^ (1024 : ℤ) = A at *
    generalize (2 : ℚ) ^ (970 : ℤ) = B at *
    linarith
  have hlast : x = 971 → rne N D < 2 ^ 53 := by
    intro hx971
    rw [rne_lt_iff hD hup]
    rw [hx971] at hvN
    have e1 : (2 : ℚ) ^ (1024 : ℤ) = 2 ^ 54 * (2 : ℚ) ^ (970 : ℤ) := by
      rw [show (1024 : ℤ) = 54 + 970 by norm_num, zpow_add₀ (by norm_num)]; norm_num
    have e2 : (2 : ℚ) ^ (971 : ℤ) = 2 * (2 : ℚ) ^ (970 : ℤ) := by
      rw [show (971 : ℤ) = 1 + 970 by norm_num, zpow_add₀ (by norm_num)]; norm_num
    rw [e1, e2] at hvN
    have h5 : (0 : ℚ) < (2 : ℚ) ^ (970 : ℤ) := zpow_pos (by norm_num) _
    generalize (2 : ℚ) ^ (970 : ℤ) = B at *
    have h6 : (2 * (N : ℚ)) * B < ((2 ^ 54 - 1) * D) * B := by linarith
    have h7 := lt_of_mul_lt_mul_right h6 h5.le
    have h8 : ((2 * N + D : Nat) : ℚ) < ((2 ^ 54 * D : Nat) : ℚ) := by push_cast; linarith
    have h9 : 2 * N + D < 2 ^ 54 * D := by exact_mod_cast h8
    omega
  have hx1 : -1074 ≤ x := hdef ▸ le_max_right _ _
  have hmag : roundMag n d e = min ((x + 1074).toNat * 2 ^ 52 + rne N D) (2047 * 2 ^ 52) := by
    unfold roundMag
    dsimp only
    rw [← hdef, hN, hDd]
  obtain ⟨b1, b2, b3⟩ := dblMake_bits s hx1 hxmax hq53 hq52 hlast
  rw [← hmag] at b1 b2 b3
  exact ⟨N, D, rfl, rfl, hD, hlow, hrel, b1, b2, b3⟩

/-- `roundMag` rounds to the nearest number. -/
theorem roundMag_nearest {n d : Nat} {e : Int} (hn : 0 < n) (hd : 0 < d) (s : Bool)
    (hv : (n : ℚ) * (2 : ℚ) ^ e < d * ((2 : ℚ) ^ (1024 : ℤ) - (2 : ℚ) ^ (970 : ℤ))) :
    Nearest (dblMake s (roundMag n d e)) ((if s then -1 else 1) * ((n : ℚ) / d) * (2 : ℚ) ^ e) := by
  obtain ⟨N, D, -, -, hD, hN, hrel, h1, h2, h3⟩ := roundMag_value hn hd s hv
  have hdq : (0 : ℚ) < d := by exact_mod_cast hd
  have hσ : ((if s then -1 else 1 : Int) = 1 ∨ (if s then -1 else 1 : Int) = -1) := by cases s <;> simp
  have hcast : (((if s then -1 else 1 : Int)) : ℚ) = if s then -1 else 1 := by cases s <;> simp
  refine ⟨h1, fun d' _ => ?_⟩
  rw [h3]
  refine nearest_of_quot hσ hD hN (by rw [h2, hcast]) ?_
  rw [hcast]
  have : ((n : ℚ) / d * (2 : ℚ) ^ e) * D = N * (2 : ℚ) ^ lastBit n d e := by
    rw [div_mul_eq_mul_div, div_mul_eq_mul_div, hrel, mul_assoc, mul_div_cancel_left₀ _ hdq.ne']
  linear_combination (if s then (-1 : ℚ) else 1) * this

/-- What a finite double stands for, by its parts. -/
theorem doubleValue_parts {d : Dbl} (h : IsFinite d) :
    doubleValue d = (if dblSign d then -1 else 1) * (dblMant d : ℚ) * (2 : ℚ) ^ dblPow d := by
  have hm := dblMag_split d
  have hf := dblFrac_lt d
  have he : dblExp d ≤ 2046 := by
    have := dblExp_lt d
    unfold IsFinite at h
    have e : d.toNat / 2 ^ 52 % 2 ^ 11 = dblExp d := by
      unfold dblExp dblMag
      omega
    omega
  rw [← dblMake_fields d, hm]
  have hq : dblMag d < 2 ^ 63 := dblMag_lt d
  have s1 := dblSign_make (dblSign d) (mag := dblExp d * 2 ^ 52 + dblFrac d) (by omega)
  have e1 : dblMant (dblMake (dblSign d) (dblExp d * 2 ^ 52 + dblFrac d)) = dblMant d := by rw [← hm, dblMake_fields]
  have e2 : dblPow (dblMake (dblSign d) (dblExp d * 2 ^ 52 + dblFrac d)) = dblPow d := by rw [← hm, dblMake_fields]
  rw [s1, e1, e2]
  unfold dblMant dblPow
  by_cases h0 : dblExp d = 0
  · rw [if_pos h0, if_pos h0, h0]
    obtain ⟨-, g⟩ := doubleValue_make (dblSign d) (a := 0) (q := dblFrac d) (by omega) (by omega) (by omega)
    rw [g]; norm_num
  · rw [if_neg h0, if_neg h0]
    obtain ⟨b, hb⟩ : ∃ b, dblExp d = b + 1 := ⟨dblExp d - 1, by omega⟩
    obtain ⟨-, g⟩ := doubleValue_make (dblSign d) (a := b) (q := 2 ^ 52 + dblFrac d) (by omega) (by omega) (by omega)
    rw [show dblExp d * 2 ^ 52 + dblFrac d = b * 2 ^ 52 + (2 ^ 52 + dblFrac d) by rw [hb]; omega, g, hb]
    congr 2
    push_cast
    omega

theorem isFinite_iff (d : Dbl) : IsFinite d ↔ dblIsNan d = false ∧ dblIsInf d = false := by
  have e : d.toNat / 2 ^ 52 % 2 ^ 11 = dblMag d / 2 ^ 52 := by
    unfold dblMag
    omega
  have := dblMag_lt d
  unfold IsFinite dblIsNan dblIsInf
  rw [e]
  simp only [decide_eq_false_iff_not]
  omega

/-- Multiplication of doubles is rounded to the nearest number. -/
theorem dblMul_nearest {a b : Dbl} (ha : IsFinite a) (hb : IsFinite b)
    (hv : |doubleValue a * doubleValue b| < (2 : ℚ) ^ (1024 : ℤ) - (2 : ℚ) ^ (970 : ℤ)) :
    Nearest (dblMul a b) (doubleValue a * doubleValue b) := by
  have ha' := (isFinite_iff a).1 ha
  have hb' := (isFinite_iff b).1 hb
  have zero : ∀ d : Dbl, IsFinite d → (dblMag d = 0 ↔ dblMant d = 0) := by
    intro d hd
    have hm := dblMag_split d
    unfold dblMant
    split <;> omega
  by_cases h0 : dblMag a = 0 ∨ dblMag b = 0
  · have e : dblMul a b = dblMake (dblSign a != dblSign b) 0 := by
      unfold dblMul
      rw [if_neg (by simp [ha'.1, hb'.1]), if_neg (by simp [ha'.2, hb'.2]), if_pos h0]
    have hz : doubleValue a * doubleValue b = 0 := by
      rw [doubleValue_parts ha, doubleValue_parts hb]
      rcases h0 with h | h
      · rw [(zero a ha).1 h]; simp
      · rw [(zero b hb).1 h]; simp
    rw [e, hz]
    obtain ⟨g1, g2⟩ := doubleValue_make (dblSign a != dblSign b) (a := 0) (q := 0) (by decide) (Or.inl rfl) (by decide)
    simp only [Nat.zero_mul, Nat.zero_add] at g1 g2
    exact nearest_exact g1 (by rw [g2]; simp)
  · have hma : dblMant a ≠ 0 := fun h => h0 (Or.inl ((zero a ha).2 h))
    have hmb : dblMant b ≠ 0 := fun h => h0 (Or.inr ((zero b hb).2 h))
    rw [dblMul_finite ⟨ha'.1, ha'.2, fun h => h0 (Or.inl h)⟩ ⟨hb'.1, hb'.2, fun h => h0 (Or.inr h)⟩]
    have e : doubleValue a * doubleValue b = (if dblSign a != dblSign b then -1 else 1) *
        (((dblMant a * dblMant b : Nat) : ℚ) / (1 : Nat)) * (2 : ℚ) ^ (dblPow a + dblPow b) := by
      rw [doubleValue_parts ha, doubleValue_parts hb, zpow_add₀ (by norm_num)]
      push_cast
      cases dblSign a <;> cases dblSign b <;> simp <;> ring
    have hab : |doubleValue a * doubleValue b| = ((dblMant a * dblMant b : Nat) : ℚ) * (2 : ℚ) ^ (dblPow a + dblPow b) := by
      have hp : (0 : ℚ) < (2 : ℚ) ^ (dblPow a + dblPow b) := zpow_pos (by norm_num) _
      have hk : |((dblMant a * dblMant b : Nat) : ℚ)| = ((dblMant a * dblMant b : Nat) : ℚ) := abs_of_nonneg (Nat.cast_nonneg _)
      rw [e, abs_mul, abs_mul, abs_of_pos hp, Nat.cast_one, div_one, hk]
      cases dblSign a <;> cases dblSign b <;> simp
    rw [e]
    refine roundMag_nearest (Nat.mul_pos (by omega) (by omega)) (by decide) _ ?_
    rw [← hab, Nat.cast_one, one_mul]
    exact hv

/-- Conversion of integers is rounded to the nearest number. -/
theorem dblOfInt_nearest {n : Int} (hv : |(n : ℚ)| < (2 : ℚ) ^ (1024 : ℤ) - (2 : ℚ) ^ (970 : ℤ)) :
    Nearest (if n = 0 then 0#64 else dblMake (decide (n < 0)) (roundMag n.natAbs 1 0)) n := by
  have hn : ((n.natAbs : Nat) : ℚ) = |(n : ℚ)| := by rw [← Int.cast_abs, Nat.cast_natAbs]
  by_cases h0 : n = 0
  · rw [if_pos h0, h0]
    exact nearest_exact (zero_value false).1 (by simpa using (zero_value false).2)
  · rw [if_neg h0]
    have h1 := roundMag_nearest (n := n.natAbs) (d := 1) (e := 0) (by omega) (by decide) (decide (n < 0))
      (by rw [hn]; simpa using hv)
    have e : (if decide (n < 0) = true then (-1 : ℚ) else 1) * (((n.natAbs : Nat) : ℚ) / (1 : Nat)) * (2 : ℚ) ^ (0 : ℤ) = n := by
      rw [hn]
      by_cases hs : n < 0
      · have : (n : ℚ) < 0 := by exact_mod_cast hs
        simp [hs, abs_of_neg this]
      · have : (0 : ℚ) ≤ n := by exact_mod_cast (not_lt.1 hs)
        simp [hs, abs_of_nonneg this]
    rw [e] at h1
    exact h1

/-- Integers of 53 bits times a power of two are doubles. -/
theorem double_exists {q : Nat} {p : Int} (hq : q < 2 ^ 53) (hp1 : -1074 ≤ p) (hp2 : p ≤ 971) :
    ∃ d, IsFinite d ∧ doubleValue d = (q : ℚ) * (2 : ℚ) ^ p := by
  rcases Nat.eq_zero_or_pos q with h0 | hpos
  · exact ⟨0#64, (zero_value false).1, by rw [h0]; simpa using (zero_value false).2⟩
  have hv : (q : ℚ) * (2 : ℚ) ^ p < ((1 : Nat) : ℚ) * ((2 : ℚ) ^ (1024 : ℤ) - (2 : ℚ) ^ (970 : ℤ)) := by
    have h1 : (q : ℚ) ≤ 2 ^ 53 - 1 := by
      have : q ≤ 2 ^ 53 - 1 := by omega
      have h : (q : ℚ) ≤ ((2 ^ 53 - 1 : Nat) : ℚ) := by exact_mod_cast this
      norm_num at h ⊢
      exact h
    have h2 : (2 : ℚ) ^ p ≤ (2 : ℚ) ^ (970 : ℤ) * 2 := by
      rw [← zpow_add_one₀ (by norm_num)]
      exact zpow_le_zpow_right₀ (by norm_num) hp2
    have h3 : (0 : ℚ) < (2 : ℚ) ^ (970 : ℤ) := zpow_pos (by norm_num) _
    have h4 : (2 : ℚ) ^ (1024 : ℤ) = 2 ^ 54 * (2 : ℚ) ^ (970 : ℤ) := by
      rw [show (1024 : ℤ) = 54 + 970 by norm_num, zpow_add₀ (by norm_num)]; norm_num
    have h5 : (q : ℚ) * (2 : ℚ) ^ p ≤ (2 ^ 53 - 1) * ((2 : ℚ) ^ (970 : ℤ) * 2) :=
      mul_le_mul h1 h2 (zpow_pos (by norm_num) _).le (by norm_num)
    rw [h4, Nat.cast_one, one_mul]
    clear h4
    generalize (2 : ℚ) ^ (970 : ℤ) = B at *
    norm_num at h5 ⊢
    linarith
  obtain ⟨N, D, hN, hD, -, -, hrel, g1, g2, -⟩ := roundMag_value hpos Nat.one_pos false hv
  refine ⟨_, g1, ?_⟩
  have hl : lastBit q 1 p ≤ p := by
    have := floorLog2_pow (m := q) 0 0 hpos
    have h53 := log2_le_52 hpos hq
    rw [Nat.pow_zero, Nat.mul_one] at this
    unfold lastBit
    rw [this]
    omega
  have hD1 : D = 1 := by rw [hD, show (lastBit q 1 p - p).toNat = 0 by omega]; rfl
  subst hD1
  have e : rne N 1 = N := by simpa using rne_mul (q := N) Nat.one_pos
  rw [g2, e]
  simp at hrel ⊢
  exact hrel.symm

end Asn1
