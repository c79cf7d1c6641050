import Verif.Proof.RealFp4Read
import Verif.Proof.Float32Nearest
/-!
REAL with `FP_WORD_SIZE` 4: the `float` that is nearest to the number that an encoding stands for.
-/
namespace Asn1

/-- The significand that the mantissa is rounded to, with 24 bits. -/
def sig24 (M : Nat) : Nat := rne (M * 2 ^ (-((Nat.log2 M : Int) - 23)).toNat) (2 ^ ((Nat.log2 M : Int) - 23).toNat)

theorem sig24_bounds {M : Nat} (hM : M ≠ 0) : 2 ^ 23 ≤ sig24 M ∧ sig24 M ≤ 2 ^ 24 := by
  have hD : 0 < 2 ^ ((Nat.log2 M : Int) - 23).toNat := Nat.two_pow_pos _
  have hx : (Nat.log2 M : Int) - 23 = max ((Nat.log2 M : Int) + 0 - 23) (-149) := by omega
  obtain ⟨b1, b2⟩ := quot_bounds hM (p := 0) hx
  rw [Int.sub_zero, Int.zero_sub] at b1 b2
  have b1' := b1.resolve_right (by omega)
  unfold sig24
  generalize 2 ^ ((Nat.log2 M : Int) - 23).toNat = D at *
  generalize M * 2 ^ (-((Nat.log2 M : Int) - 23)).toNat = N at *
  exact ⟨le_rne_of hD b1', rne_le_of hD b2⟩

theorem fltOfU64_sig {n : U64} (hne : n ≠ 0#64) :
    fltOfU64 n = fltMake false (((Nat.log2 n.toNat : Int) - 23 + 149).toNat * 2 ^ 23 + sig24 n.toNat) := by
  unfold fltOfU64 sig24
  rw [if_neg hne]
  have hq : max ((Nat.log2 n.toNat : Int) - 23) (-149) = (Nat.log2 n.toNat : Int) - 23 := by omega
  simp only [hq]

theorem fltOfU64_wide {n : U64} {m : Nat} {j : Int} (hm : m < 2 ^ 23) (hj : j ≤ 41) (hj2 : -23 ≤ j)
    (e : fltOfU64 n = fltMake false ((150 + j).toNat * 2 ^ 23 + m)) :
    floatToDouble (fltOfU64 n) = dblMake false ((1046 + j).toNat * 2 ^ 52 + m * 2 ^ 29) := by
  obtain ⟨k, hk, hk1, hk2⟩ : ∃ k : Nat, (150 + j).toNat = k ∧ 127 ≤ k ∧ k ≤ 191 := ⟨_, rfl, by omega, by omega⟩
  rw [hk] at e
  have hk3 : (1046 + j).toNat = k + 896 := by omega
  rw [hk3]
  have ht : (fltMake false (k * 2 ^ 23 + m)).toNat = k * 2 ^ 23 + m := by
    unfold fltMake
    rw [BitVec.toNat_ofNat, if_neg (by simp)]
    omega
  rw [e]
  unfold floatToDouble
  rw [ht]
  dsimp only
  have a1 : (k * 2 ^ 23 + m) / 2 ^ 23 % 2 ^ 8 = k := by omega
  have a2 : (k * 2 ^ 23 + m) % 2 ^ 23 = m := by omega
  have a3 : decide (2 ^ 31 ≤ k * 2 ^ 23 + m) = false := decide_eq_false (by omega)
  rw [a1, a2, a3, if_neg (by omega), if_neg (by omega)]

theorem getFloat_of {n : U64} {m : Nat} {j x : Int} (hne : n ≠ 0#64) (hm : m < 2 ^ 23) (hj : j ≤ 41) (hj2 : -23 ≤ j)
    (e : fltOfU64 n = fltMake false ((150 + j).toNat * 2 ^ 23 + m))
    (h1 : -127 ≤ x) (h2 : x ≤ 127) (h3 : x + j ≤ 104) (h4 : -149 ≤ x + j) :
    getFloatByMantissaAndExp n x = pure (fltMake false ((x + j + 150).toNat * 2 ^ 23 + m)) := by
  have hfl := fltOfU64_wide hm hj hj2 e
  obtain ⟨k, hk, hk1, hk2, hk3⟩ : ∃ k : Nat, (1046 + j).toNat = k ∧ (k : Int) = 1046 + j ∧ 1 ≤ k ∧ k ≤ 2046 := ⟨_, rfl, by omega, by omega, by omega⟩
  rw [hk] at hfl
  obtain ⟨a1, a2, a3, a4, a5⟩ := dbl_parts false (e := k) (m := m * 2 ^ 29) hk2 hk3 (by omega)
  have a6 : dblMag (dblMake false (k * 2 ^ 52 + m * 2 ^ 29)) ≠ 0 := by rw [dblMag_make _ (by omega)]; omega
  have hpos : 0 < 2 ^ 23 + m := by omega
  have hlt : 2 ^ 23 + m < 2 ^ 53 := by omega
  have a4' : dblMant (dblMake false (k * 2 ^ 52 + m * 2 ^ 29)) = (2 ^ 23 + m) * 2 ^ 29 := by rw [a4]; omega
  have back : doubleToFloat (dblMake false (exactMag (2 ^ 23 + m) (x + j))) = fltMake false ((x + j + 150).toNat * 2 ^ 23 + m) := by
    rw [exactMag_float hm h4 h3, doubleToFloat_normal false (by omega) (by omega) hm,
      show (x + j + 1046).toNat - 896 = (x + j + 150).toNat by omega]
  unfold getFloatByMantissaAndExp
  rw [if_neg hne, hfl]
  by_cases h0 : x ≥ 0
  · rw [if_pos h0, powLoop4_one, show min x.toNat 128 = x.toNat by omega, (fltPow2_facts ⟨x.toNat, by omega⟩).1]
    obtain ⟨b1, b2, b3, b4, b5, b6⟩ := pow2_fields (k := x.toNat) (by omega)
    rw [dblMul_finite ⟨a2, a3, a6⟩ ⟨b3, b4, b5⟩, a1, a4', a5, b1, b2, b6]
    have e := roundMag_exact (m := 2 ^ 23 + m) (29 + 52) 0
      (e := (k : Int) - 1075 + ((x.toNat : Int) - 52)) (x := x + j) hpos hlt (by omega) (by omega)
    rw [Nat.pow_zero, Nat.pow_add, ← Nat.mul_assoc] at e
    rw [e]
    exact congrArg pure back
  · rw [if_neg h0]
    unfold chk32
    rw [if_pos (by omega), pure_bind, powLoop4_one, show min (-x).toNat 128 = (-x).toNat by omega,
      (fltPow2_facts ⟨(-x).toNat, by omega⟩).1]
    obtain ⟨b1, b2, b3, b4, b5, b6⟩ := pow2_fields (k := (-x).toNat) (by omega)
    rw [dblDiv_finite ⟨a2, a3, a6⟩ ⟨b3, b4, b5⟩, a1, a4', a5, b1, b2, b6]
    rw [roundMag_exact (m := 2 ^ 23 + m) 29 52
      (e := (k : Int) - 1075 - (((-x).toNat : Int) - 52)) (x := x + j) hpos hlt (by omega) (by omega)]
    exact congrArg pure back

/-- The decoder's number: the rounded significand, scaled. -/
theorem getFloat_sig {n : U64} {x X : Int} (hne : n ≠ 0#64) (h1 : -127 ≤ x) (h2 : x ≤ 127)
    (hX : X = (Nat.log2 n.toNat : Int) + x - 23) (h3 : -149 ≤ X) (h4 : X ≤ 104) (hlast : X = 104 → sig24 n.toNat < 2 ^ 24) :
    getFloatByMantissaAndExp n x = pure (fltMake false ((X + 149).toNat * 2 ^ 23 + sig24 n.toNat)) := by
  have hne' : n.toNat ≠ 0 := fun c => hne (BitVec.eq_of_toNat_eq (by simpa using c))
  obtain ⟨s1, s2⟩ := sig24_bounds hne'
  have hl : Nat.log2 n.toNat < 64 := (Nat.log2_lt hne').2 n.isLt
  have e := fltOfU64_sig hne
  generalize Nat.log2 n.toNat = L at *
  generalize sig24 n.toNat = S at *
  by_cases hS : S = 2 ^ 24
  · have e' : fltOfU64 n = fltMake false ((150 + ((L : Int) - 22)).toNat * 2 ^ 23 + 0) := by
      rw [e, hS]
      refine congrArg (fltMake false) ?_
      have : ((L : Int) - 23 + 149).toNat = L + 126 := by omega
      have h' : (150 + ((L : Int) - 22)).toNat = L + 128 := by omega
      rw [this, h']
      omega
    have hX4 : X ≠ 104 := fun c => by have := hlast c; omega
    rw [getFloat_of hne (by omega) (by omega) (by omega) e' h1 h2 (by omega) (by omega)]
    refine congrArg pure (congrArg (fltMake false) ?_)
    obtain ⟨k, hk⟩ : ∃ k : Nat, X = (k : Int) - 149 := ⟨(X + 149).toNat, by omega⟩
    rw [show (x + ((L : Int) - 22) + 150).toNat = k + 2 by omega, show (X + 149).toNat = k by omega, hS]
    omega
  · have e' : fltOfU64 n = fltMake false ((150 + ((L : Int) - 23)).toNat * 2 ^ 23 + (S - 2 ^ 23)) := by
      rw [e]
      refine congrArg (fltMake false) ?_
      have : ((L : Int) - 23 + 149).toNat = L + 126 := by omega
      have h' : (150 + ((L : Int) - 23)).toNat = L + 127 := by omega
      rw [this, h']
      omega
    rw [getFloat_of hne (by omega) (by omega) (by omega) e' h1 h2 (by omega) (by omega)]
    refine congrArg pure (congrArg (fltMake false) ?_)
    obtain ⟨k, hk⟩ : ∃ k : Nat, X = (k : Int) - 149 := ⟨(X + 149).toNat, by omega⟩
    rw [show (x + ((L : Int) - 23) + 150).toNat = k + 1 by omega, show (X + 149).toNat = k by omega]
    omega

theorem fltMag_le {X : Int} {S : Nat} (h1 : X ≤ 104) (h2 : S ≤ 2 ^ 24) (h3 : X = 104 → S < 2 ^ 24) :
    (X + 149).toNat * 2 ^ 23 + S ≤ 255 * 2 ^ 23 := by
  obtain ⟨k, hk⟩ : ∃ k : Nat, (X + 149).toNat = k := ⟨_, rfl⟩
  rw [hk]
  by_cases hc : X = 104
  · have := h3 hc
    omega
  · omega

theorem BinaryReal.decoded4_nearest {r : BinaryReal} (h2 : r.mantissa * 2 ^ r.scale < 2 ^ 64)
    (h3 : -127 ≤ (r.baseLog : Int) * r.exponent) (h4 : (2 : ℚ) ^ (-126 : ℤ) ≤ |r.value|)
    (h5 : |r.value| < (2 : ℚ) ^ (128 : ℤ) - (2 : ℚ) ^ (103 : ℤ)) : ∃ f, r.decoded4 = pure f ∧ NearestFloat f r.value := by
  have hval := r.value_eq
  unfold BinaryReal.decoded4
  generalize r.value = v at *
  generalize r.mantissa * 2 ^ r.scale = M at *
  generalize (r.baseLog : Int) * r.exponent = p at *
  generalize r.neg = s at *
  have hσ : ((if s then -1 else 1 : Int) = 1 ∨ (if s then -1 else 1 : Int) = -1) := by cases s <;> simp
  have hcast : (((if s then -1 else 1 : Int)) : ℚ) = if s then -1 else 1 := by cases s <;> simp
  have habs : |(if s then (-1 : ℚ) else 1)| = 1 := by cases s <;> simp
  have hav : |v| = (M : ℚ) * (2 : ℚ) ^ p := by
    rw [hval, abs_mul, abs_mul, habs, one_mul, abs_of_nonneg (by positivity : (0 : ℚ) ≤ (M : ℚ)),
      abs_of_pos (zpow_pos (by norm_num) _ : (0 : ℚ) < (2 : ℚ) ^ p)]
  rw [hav] at h4 h5
  have hM : M ≠ 0 := by
    rintro rfl
    rw [Nat.cast_zero, zero_mul] at h4
    exact absurd h4 (not_le.2 (zpow_pos (by norm_num) _))
  have hMn : (BitVec.ofNat 64 M).toNat = M := by rw [BitVec.toNat_ofNat, Nat.mod_eq_of_lt h2]
  have hne : BitVec.ofNat 64 M ≠ 0#64 := fun c => hM (by rw [← hMn, c]; rfl)
  have hlog : (Nat.log2 M : Int) + p < 128 := by
    have l1 : ((2 ^ Nat.log2 M : Nat) : ℚ) ≤ M := by exact_mod_cast Nat.log2_self_le hM
    have l2 : (2 : ℚ) ^ ((Nat.log2 M : Int) + p) ≤ (M : ℚ) * (2 : ℚ) ^ p := by
      rw [zpow_add₀ (by norm_num), zpow_natCast]
      push_cast at l1
      exact mul_le_mul_of_nonneg_right l1 (zpow_pos (by norm_num) _).le
    have l3 : (2 : ℚ) ^ ((Nat.log2 M : Int) + p) < (2 : ℚ) ^ (128 : ℤ) := by
      have : (0 : ℚ) < (2 : ℚ) ^ (103 : ℤ) := zpow_pos (by norm_num) _
      generalize (2 : ℚ) ^ (128 : ℤ) = A at *
      generalize (2 : ℚ) ^ (103 : ℤ) = B at *
      linarith
    exact (zpow_lt_zpow_iff_right₀ (by norm_num)).1 l3
  have hlow : -126 < (Nat.log2 M : Int) + 1 + p := by
    have l1 : (M : ℚ) < ((2 ^ (Nat.log2 M + 1) : Nat) : ℚ) := by exact_mod_cast @Nat.lt_log2_self M
    have l2 : (M : ℚ) * (2 : ℚ) ^ p < (2 : ℚ) ^ ((Nat.log2 M : Int) + 1 + p) := by
      rw [zpow_add₀ (by norm_num), show (Nat.log2 M : Int) + 1 = ((Nat.log2 M + 1 : Nat) : Int) by push_cast; rfl, zpow_natCast]
      push_cast at l1
      exact mul_lt_mul_of_pos_right l1 (zpow_pos (by norm_num) _)
    exact (zpow_lt_zpow_iff_right₀ (by norm_num : (1 : ℚ) < 2)).1 (lt_of_le_of_lt h4 l2)
  generalize hX : (Nat.log2 M : Int) + p - 23 = X
  have hXm : X = max ((Nat.log2 M : Int) + p - 23) (-149) := by omega
  obtain ⟨b1, b2⟩ := quot_bounds hM (p := p) hXm
  have hrel := quot_value M p X
  have hD : 0 < 2 ^ (X - p).toNat := Nat.two_pow_pos _
  have hsig : sig24 M = rne (M * 2 ^ (p - X).toNat) (2 ^ (X - p).toNat) := by
    unfold sig24
    rw [show -((Nat.log2 M : Int) - 23) = p - X by omega, show (Nat.log2 M : Int) - 23 = X - p by omega]
  have hlast : X = 104 → sig24 M < 2 ^ 24 := by
    intro hc
    rw [hsig]
    apply rne_below hD
    have t : ((M * 2 ^ (p - X).toNat : Nat) : ℚ) * (2 : ℚ) ^ X <
        ((2 : ℚ) ^ (128 : ℤ) - (2 : ℚ) ^ (103 : ℤ)) * ((2 ^ (X - p).toNat : Nat) : ℚ) := by
      rw [← hrel]
      exact mul_lt_mul_of_pos_right h5 (by exact_mod_cast hD)
    generalize M * 2 ^ (p - X).toNat = N at *
    generalize 2 ^ (X - p).toNat = D at *
    rw [hc] at t
    have e : ((2 : ℚ) ^ (128 : ℤ) - (2 : ℚ) ^ (103 : ℤ)) * (D : ℚ) = ((2 ^ 25 - 1 : ℚ) * D) * (2 : ℚ) ^ (103 : ℤ) := by
      rw [show (128 : ℤ) = 25 + 103 by norm_num, zpow_add₀ (by norm_num)]
      rw [show (2 : ℚ) ^ (25 : ℤ) = 2 ^ 25 by norm_cast]
      ring
    have e2 : (N : ℚ) * (2 : ℚ) ^ (104 : ℤ) = (2 * (N : ℚ)) * (2 : ℚ) ^ (103 : ℤ) := by
      rw [show (104 : ℤ) = 1 + 103 by norm_num, zpow_add₀ (by norm_num), zpow_one]; ring
    rw [e, e2] at t
    have t2 := lt_of_mul_lt_mul_right t (zpow_pos (by norm_num) _).le
    have t3 : ((2 * N : Nat) : ℚ) < (((2 ^ 25 - 1) * D : Nat) : ℚ) := by
      rw [Nat.cast_mul, Nat.cast_mul]
      norm_num at t2 ⊢
      exact t2
    exact_mod_cast t3
  obtain ⟨s1, s2⟩ := sig24_bounds hM
  obtain ⟨g1, g2, g3⟩ := fltMake_bits s (x := X) (q := sig24 M) (by omega) (by omega) s2 (Or.inl s1) hlast
  have hmag := fltMag_le (by omega) s2 hlast
  have hmin := Nat.min_eq_left hmag
  have hsmall : (X + 149).toNat * 2 ^ 23 + sig24 M < 2 ^ 31 := Nat.lt_of_le_of_lt hmag (by norm_num)
  rw [hmin] at g1 g2 g3
  have hl64 : Nat.log2 M < 64 := (Nat.log2_lt hM).2 h2
  rw [getFloat_sig (X := X) hne h3 (by omega) (by rw [hMn]; omega) (by omega) (by omega) (by rw [hMn]; exact hlast), hMn, pure_bind]
  refine ⟨fltMake s ((X + 149).toNat * 2 ^ 23 + sig24 M), ?_, g1, fun f' _ => ?_⟩
  · refine congrArg pure ?_
    cases s
    · rw [if_neg (by simp)]
    · rw [if_pos rfl, fltNeg_make hsmall]
  · rw [g3, hsig]
    rw [hsig] at g2
    refine nearest32_of_quot hσ hD b1 (by rw [g2, hcast]) ?_
    rw [hcast, hval, mul_assoc, mul_assoc, ← mul_assoc ((M : Nat) : ℚ), hrel, ← mul_assoc]

end Asn1
