import Verif.Proof.Real4
import Verif.Proof.Outcome
import Verif.Spec.Uper
/-! Generated code: REAL. -/
namespace Asn1

theorem raw_fields (d : Dbl) : dblExp d = d.toNat / 2 ^ 52 % 2 ^ 11 ∧ dblFrac d = d.toNat % 2 ^ 52 ∧
    dblSign d = decide (d.toNat / 2 ^ 63 = 1) := by
  have := d.isLt
  unfold dblExp dblFrac dblSign dblMag
  refine ⟨by omega, by omega, ?_⟩
  rw [decide_eq_decide]
  omega

theorem binaryOf_chosen {d : Dbl} (h : 52 ≤ d.toNat / 2 ^ 52 % 2 ^ 11) : binaryOf false d = chosenReal d := by
  obtain ⟨e1, e2, e3⟩ := raw_fields d
  have hF := dblFrac_lt d
  have hm : octetsNat (2 ^ 52 + dblFrac d) = 7 := octetsNat_mantissa (by omega) (by omega)
  rw [e2] at hm
  unfold binaryOf chosenReal
  rw [e1, e2, e3]
  simp only [Bool.false_eq_true, if_false, if_neg (show ¬ d.toNat / 2 ^ 52 % 2 ^ 11 = 0 by omega), Nat.pow_zero, Nat.div_one, hm,
    Nat.cast_zero, add_zero]

theorem realCode_binary {d : Dbl} (h : 52 ≤ d.toNat / 2 ^ 52 % 2 ^ 11) (h2 : IsFinite d) :
    realCode false d = (chosenReal d).code := by
  have hz : ∀ c : Dbl, (c.toNat / 2 ^ 52 % 2 ^ 11 = 0 ∨ c.toNat / 2 ^ 52 % 2 ^ 11 = 2047) → d ≠ c := by
    intro c hc e
    subst e
    unfold IsFinite at h2
    omega
  unfold realCode
  rw [if_neg (hz _ (by decide)), if_neg (hz _ (by decide)), if_neg (hz _ (by decide)), if_neg (hz _ (by decide)), if_neg h2,
    binaryOf_chosen h]

theorem held_finNonzero {d : Dbl} (h : 52 ≤ d.toNat / 2 ^ 52 % 2 ^ 11) (h2 : IsFinite d) : FinNonzero d := by
  obtain ⟨e1, -, -⟩ := raw_fields d
  exact ⟨by rw [e1]; exact h2, by rw [dblMag_split]; omega⟩

theorem encodeReal_held {d : Dbl} (h : RealHeld d) : Appends (encodeReal d) () (realCode false d) := by
  rcases h with rfl | rfl | rfl | rfl | ⟨h1, h2⟩
  · exact encodeReal_zero (by decide)
  · exact encodeReal_special (d := 0x7FF0000000000000#64) (n := 0x40) (by omega)
      (by unfold encodeReal
          rw [if_neg (by decide +kernel), if_neg (by decide +kernel), if_neg (by decide +kernel), if_pos (by decide +kernel)]
          rfl)
  · exact encodeReal_special (d := 0xFFF0000000000000#64) (n := 0x41) (by omega)
      (by unfold encodeReal
          rw [if_neg (by decide +kernel), if_neg (by decide +kernel), if_neg (by decide +kernel), if_neg (by decide +kernel),
            if_pos (by decide +kernel)]
          rfl)
  · exact encodeReal_special (d := 0x7FF8000000000000#64) (n := 0x42) (by omega)
      (by unfold encodeReal
          rw [if_pos (by decide +kernel)]
          rfl)
  · rw [realCode_binary h1 h2]
    exact encodeReal_appends (held_finNonzero h1 h2)

theorem decodeReal_held {d : Dbl} (h : RealHeld d) :
    Reads decodeReal (true, d) (realCode false d) ∧ Short decodeReal (realCode false d) := by
  rcases h with rfl | rfl | rfl | rfl | ⟨h1, h2⟩
  · exact decodeReal_zero
  · exact decodeReal_special (n := 0x40#8) (Or.inl ⟨rfl, rfl⟩)
  · exact decodeReal_special (n := 0x41#8) (Or.inr (Or.inl ⟨rfl, by decide +kernel⟩))
  · exact decodeReal_special (n := 0x42#8) (Or.inr (Or.inr (Or.inl ⟨rfl, by decide +kernel⟩)))
  · rw [realCode_binary h1 h2]
    have hf := held_finNonzero h1 h2
    have hdec := chosenReal_decoded hf
    obtain ⟨e1, -, -⟩ := raw_fields d
    rw [if_pos (by omega)] at hdec
    exact decodeReal_reads (chosenReal_ok d) hdec

theorem realCode_bounds {d : Dbl} (h : RealHeld d) : 8 ≤ (realCode false d).length ∧ (realCode false d).length ≤ (5 + 8) * 8 := by
  rcases h with rfl | rfl | rfl | rfl | ⟨h1, h2⟩
  · decide
  · decide
  · decide
  · decide
  · rw [realCode_binary h1 h2]
    have := dblExp_lt d
    obtain ⟨o1, o2, -⟩ := octetsInt_real (e := (dblExp d : Int) - 1075) (by omega) (by omega)
    simp only [BinaryReal.code, BinaryReal.contents, twosCode, chosenReal, List.length_append, bitsMsb_length,
      List.length_cons, List.length_nil]
    omega

end Asn1
