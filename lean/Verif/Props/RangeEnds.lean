import Verif.Model.RangeEnds
import Verif.Spec.Constraint
import Verif.Spec.Literal
/-!
# C110: the ends of value ranges
-/
namespace Asn1

/-- The constraint that the compiler makes of a value range selects the same values from those of the parent type, whatever these are. Missing: `<`
beside MIN or MAX (`C110_open_violation`). -/
theorem C110_selects_partial {r : RangeText} {o : Option RLeaf} (h : createRange r = some o) (h1 : r.lo = none → r.loOpen = false)
    (h2 : r.hi = none → r.hiOpen = false) (parent : Int → Prop) (x : Int) :
    (parent x ∧ ∀ c, o = some c → c.Sat x) ↔ r.Selects parent x := by
  obtain ⟨lo, lop, hi, hop⟩ := r
  simp only at h1 h2
  cases lo with
  | none =>
    cases hi with
    | none =>
      cases h
      simp [RangeText.Selects, h1, h2]
    | some b =>
      cases h
      cases hop <;> simp [RangeText.Selects, RLeaf.Sat, h1]
  | some a =>
    cases hi with
    | none =>
      cases h
      cases lop <;> simp [RangeText.Selects, RLeaf.Sat, h2]
    | some b =>
      simp only [createRange] at h
      split at h
      · cases h
        cases lop <;> cases hop <;> simp [RangeText.Selects, RLeaf.Sat]
      · cases h

example : createRange ⟨some 1, false, some 10, true⟩ = some (some (.range 1 10 true false)) := rfl

/-- A range with two ends that the compiler knows as numbers is accepted exactly if one of the 64 bit integer types of C holds both ends. -/
theorem C110_accepts {a b : Int} (ha : Supported true a) (hb : Supported true b) (hab : a ≤ b) (i j : Bool) :
    (createRange ⟨some a, i, some b, j⟩).isSome ↔ OneType 64 a b := by
  simp only [Supported, if_true] at ha hb
  have hc : checkEnds a b = true ↔ ¬ (a < 0 ∧ b > 9223372036854775807) := by
    simp only [checkEnds, Bool.not_eq_true', Bool.and_eq_false_iff, decide_eq_false_iff_not]; omega
  have e : (createRange ⟨some a, i, some b, j⟩).isSome = checkEnds a b := by
    simp only [createRange]; cases checkEnds a b <;> rfl
  rw [e, hc]
  unfold OneType
  norm_num at ha hb ⊢
  omega

example : Supported true (-5) ∧ Supported true 18446744073709551615 ∧ createRange ⟨some (-5), false, some 18446744073709551615, false⟩ = none := by
  refine ⟨?_, ?_, by decide⟩ <;> simp [Supported]

/-- **Violation.** `INTEGER (0..10) (MIN<..<MAX)` does not contain 0, nor 10; the compiler drops the range without a message. Likewise for
`(MIN<..5)` and `(5..<MAX)`. -/
theorem C110_open_violation :
    (createRange ⟨none, true, none, true⟩ = some none ∧
      ¬ RangeText.Selects (fun v => 0 ≤ v ∧ v ≤ 10) ⟨none, true, none, true⟩ 0 ∧
      RangeText.Selects (fun v => 0 ≤ v ∧ v ≤ 10) ⟨none, true, none, true⟩ 1) ∧
    createRange ⟨none, true, some 5, false⟩ = createRange ⟨none, false, some 5, false⟩ ∧
    createRange ⟨some 5, false, none, true⟩ = createRange ⟨some 5, false, none, false⟩ := by
  refine ⟨⟨rfl, ?_, ?_⟩, rfl, rfl⟩
  · rintro ⟨-, ⟨y, ⟨h1, -⟩, h2⟩, -⟩
    omega
  · exact ⟨by omega, ⟨0, by omega, by omega⟩, ⟨10, by omega, by omega⟩⟩

/-- **Violation.** With a word size of 4 octets `INTEGER (-1..4294967295)` is accepted although none of the two integer types of 32 bits holds both
ends: the limits of the check are those of 64 bits. -/
theorem C110_word_violation : Supported false (-1) ∧ Supported false 4294967295 ∧ ¬ OneType 32 (-1) 4294967295 ∧
    (createRange ⟨some (-1), false, some 4294967295, false⟩).isSome := by
  refine ⟨by simp [Supported], by simp [Supported], by simp [OneType], by decide⟩

end Asn1
