import Verif.Model.Gen
import Verif.Spec.Uper
import Verif.Proof.Int4
import Verif.Proof.AcnInt3
/-! Generated code: INTEGER. -/
namespace Asn1

theorem constrainedCode_self (a v : Int) : constrainedCode a a v = [] := by
  unfold constrainedCode
  rw [Int.sub_self, show bitLen (0 : Int).toNat = 0 by decide]
  rfl

theorem encInt_appends {w : Nat} {r : Rng} {ext : Bool} {v : Int} (hok : r.ok w ext) (hc : r.contains v) (h64 : r.holds64 ext v) :
    Appends (encInt r ext v) () (intCode r v) := by
  cases r with
  | full => exact encodeUnConstraintWholeNumber_appends h64.1 h64.2
  | negInf b => exact encodeUnConstraintWholeNumber_appends h64.1 h64.2
  | posInf a =>
    simp only [encInt, intCode]
    simp only [Rng.holds64, Rng.contains, Rng.ok] at h64 hc hok
    by_cases h : 0 ≤ a ∧ ext = false
    · rw [if_pos h] at h64
      rw [if_pos (by simp [h.1, h.2])]
      have e1 := ofInt_toNat (x := v) (by omega) (by omega)
      have e2 := ofInt_toNat (x := a) (by omega) (by omega)
      have := encodeSemiConstraintPosWholeNumber_appends (v := BitVec.ofInt 64 v) (lo := BitVec.ofInt 64 a)
        (by rw [BitVec.le_def, e1, e2]; omega)
      rw [e1, e2] at this
      rwa [show (v - a).toNat = v.toNat - a.toNat by omega]
    · rw [if_neg h] at h64
      rw [if_neg (by simpa using h)]
      exact encodeSemiConstraintWholeNumber_appends hc h64.2
  | concrete a b =>
    simp only [encInt, intCode]
    simp only [Rng.holds64, Rng.contains, Rng.ok] at h64 hc hok
    by_cases hab : a = b
    · rw [if_pos hab]
      subst hab
      rw [constrainedCode_self]
      exact Appends.pure ()
    rw [if_neg hab]
    by_cases h : 0 ≤ a ∧ ext = false
    · rw [if_pos h] at hok
      rw [if_pos (by simp [Rng.unsigned, h.1, h.2])]
      have hb : b < 2 ^ 64 := by
        rcases hok.2.1 with h | h | h | h <;> subst h <;> omega
      have e0 := ofInt_toNat (x := v) (by omega) (by omega)
      have e1 := ofInt_toNat (x := a) (by omega) (by omega)
      have e2 := ofInt_toNat (x := b) (by omega) (by omega)
      have := encodeConstraintPosWholeNumber_appends (v := BitVec.ofInt 64 v) (lo := BitVec.ofInt 64 a) (hi := BitVec.ofInt 64 b)
        (by rw [BitVec.le_def, e0, e1]; omega) (by rw [BitVec.le_def, e0, e2]; omega)
      rwa [e0, e1, e2, Int.toNat_of_nonneg (by omega), Int.toNat_of_nonneg (by omega), Int.toNat_of_nonneg (by omega)] at this
    · rw [if_neg h] at hok
      rw [if_neg (by simpa [Rng.unsigned] using h)]
      exact encodeConstraintWholeNumber_appends hc.1 hc.2 hok.2.2.2.2

theorem setWidth_ofInt {w : Nat} {x : Int} (hw : w ≤ 64) (h0 : 0 ≤ x) (h : x < 2 ^ w) :
    (BitVec.ofInt w x).setWidth 64 = BitVec.ofInt 64 x := by
  apply BitVec.eq_of_toNat_eq
  have h64 : (2 : Int) ^ w ≤ 2 ^ 64 := by
    have h := Nat.pow_le_pow_right (n := 2) (by omega) hw
    exact_mod_cast h
  rw [BitVec.toNat_setWidth, ofInt_toNat h0 (by omega), BitVec.toNat_ofInt]
  have : x % ((2 ^ w : Nat) : Int) = x := by
    rw [Int.emod_eq_of_lt h0]
    rw [Int.natCast_pow]; exact h
  rw [this, Nat.mod_eq_of_lt]
  omega

theorem decInt_reads {w : Nat} {r : Rng} {ext : Bool} {v : Int} (hok : r.ok w ext) (hc : r.contains v) (h64 : r.holds64 ext v) :
    Reads (decInt w r ext) (true, v) (intCode r v) ∧ Short (decInt w r ext) (intCode r v) := by
  cases r with
  | full => exact decodeUnConstraintWholeNumber_reads (by have := h64.1; omega) h64.2
  | negInf b => exact decodeUnConstraintWholeNumber_reads (by have := h64.1; omega) h64.2
  | posInf a =>
    simp only [decInt, intCode]
    simp only [Rng.holds64, Rng.contains, Rng.ok] at h64 hc hok
    by_cases h : 0 ≤ a ∧ ext = false
    · rw [if_pos h] at h64
      rw [if_pos (by simp [h.1, h.2])]
      have e1 := ofInt_toNat (x := v) (by omega) (by omega)
      have e2 := ofInt_toNat (x := a) (by omega) (by omega)
      have := decodeSemiConstraintPosWholeNumber_reads (v := BitVec.ofInt 64 v) (lo := BitVec.ofInt 64 a)
        (by rw [BitVec.le_def, e1, e2]; omega)
      rw [e1, e2] at this
      rw [show (v - a).toNat = v.toNat - a.toNat by omega]
      have hm := this.1.map (h := fun r : Bool × U64 => (r.1, (r.2.toNat : Int)))
      dsimp only at hm
      rw [e1, Int.toNat_of_nonneg (by omega)] at hm
      exact ⟨hm, this.2.map (h := fun r : Bool × U64 => (r.1, (r.2.toNat : Int))) (fun _ h => h)⟩
    · rw [if_neg h] at h64
      rw [if_neg (by simpa using h)]
      exact decodeSemiConstraintWholeNumber_reads hc h64.2 hok h64.1
  | concrete a b =>
    simp only [decInt, intCode]
    simp only [Rng.holds64, Rng.contains, Rng.ok] at h64 hc hok
    by_cases hab : a = b
    · rw [if_pos hab]
      subst hab
      rw [constrainedCode_self, show v = a by omega]
      exact ⟨Reads.pure _, Short.nil _⟩
    rw [if_neg hab]
    by_cases h : 0 ≤ a ∧ ext = false
    · rw [if_pos h] at hok
      rw [if_pos (by simp [Rng.unsigned, h.1, h.2])]
      have hw : w ≤ 64 := by omega
      have hb : b < 2 ^ 64 := by
        rcases hok.2.1 with h | h | h | h <;> subst h <;> omega
      have e0 := ofInt_toNat (x := v) (by omega) (by omega)
      have e1 := ofInt_toNat (x := a) (by omega) (by omega)
      have e2 := ofInt_toNat (x := b) (by omega) (by omega)
      have := decodeConstraintPosWholeNumber_reads (v := BitVec.ofInt 64 v) (lo := BitVec.ofInt 64 a) (hi := BitVec.ofInt 64 b)
        (by rw [BitVec.le_def, e0, e1]; omega) (by rw [BitVec.le_def, e0, e2]; omega)
      rw [e0, e1, e2, Int.toNat_of_nonneg (by omega), Int.toNat_of_nonneg (by omega), Int.toNat_of_nonneg (by omega)] at this
      by_cases h8 : w = 64
      · rw [if_pos h8]
        have hm := this.1.map (h := fun r : Bool × U64 => (r.1, (r.2.toNat : Int)))
        dsimp only at hm
        rw [e0, Int.toNat_of_nonneg (by omega)] at hm
        exact ⟨hm, this.2.map (h := fun r : Bool × U64 => (r.1, (r.2.toNat : Int))) (fun _ h => h)⟩
      · rw [if_neg h8]
        have hu : decU (decodeConstraintPosWholeNumberNarrow w (BitVec.ofInt w a) (BitVec.ofInt w b)) =
            (do let r ← decodeConstraintPosWholeNumber (BitVec.ofInt 64 a) (BitVec.ofInt 64 b)
                pure (r.1, ((r.2.setWidth w).toNat : Int))) := by
          unfold decU decodeConstraintPosWholeNumberNarrow
          rw [setWidth_ofInt hw (by omega) (by omega), setWidth_ofInt hw (by omega) (by omega), bind_assoc]
          rfl
        rw [hu]
        have hm := this.1.map (h := fun r : Bool × U64 => (r.1, ((r.2.setWidth w).toNat : Int)))
        dsimp only at hm
        have e3 : (((BitVec.ofInt 64 v).setWidth w).toNat : Int) = v := by
          rw [BitVec.toNat_setWidth, e0, Nat.mod_eq_of_lt, Int.toNat_of_nonneg (by omega)]
          have : ((v.toNat : Nat) : Int) < ((2 ^ w : Nat) : Int) := by
            rw [Int.natCast_pow, Int.toNat_of_nonneg (by omega)]
            have := hok.2.2
            exact Int.lt_of_le_of_lt hc.2 this
          omega
        rw [e3] at hm
        exact ⟨hm, this.2.map (h := fun r : Bool × U64 => (r.1, ((r.2.setWidth w).toNat : Int))) (fun _ h => h)⟩
    · rw [if_neg h] at hok
      rw [if_neg (by simpa [Rng.unsigned] using h)]
      obtain ⟨k1, k2, k3, k4, k5⟩ := hok
      have hr : -(2 ^ 63) ≤ a ∧ b < 2 ^ 63 := by
        rcases k2 with h | h | h | h <;> subst h <;> omega
      have := decodeConstraintWholeNumber_reads hc.1 hc.2 k5 hr.1 hr.2
      by_cases h8 : w = 64
      · rw [if_pos h8]; exact this
      · rw [if_neg h8]
        have hm := this.1.map (h := fun r : Bool × Int => (r.1, (BitVec.ofInt w r.2).toInt))
        dsimp only at hm
        have e3 : (BitVec.ofInt w v).toInt = v := by
          rcases k2 with h | h | h | h <;> subst h <;> (rw [BitVec.toInt_ofInt, Int.bmod_def]; omega)
        rw [e3] at hm
        exact ⟨hm, this.2.map (h := fun r : Bool × Int => (r.1, (BitVec.ofInt w r.2).toInt)) (fun _ h => h)⟩

theorem encIntExt_appends {root : Rng} {inRoot : Int → Bool} {more : Option (Int → Bool)} {v : Int}
    (hok : Ok (.intExt root inRoot more)) (hv : Valid (.intExt root inRoot more) (.int v)) :
    Appends (encIntExt root inRoot more v) () (intExtCode root inRoot v) := by
  simp only [Ok, Valid] at hok hv
  unfold intExtCode
  have z := fun {x : Bool} => (appendBit_writes x).appends
  rcases hv with ⟨h1, h2⟩ | ⟨h1, ⟨f, hf, _⟩, h3, h4⟩
  · rw [if_pos h1]
    have := (appendBitZero_writes).appends.bind (g := fun _ => encInt root true v) (encInt_appends hok.1 (hok.2 v h1) h2)
    cases more with
    | none => exact this
    | some f => unfold encIntExt; simp only; rw [if_pos h1]; exact this
  · rw [if_neg (by simp [h1])]
    subst hf
    unfold encIntExt; simp only; rw [if_neg (by simp [h1])]
    exact (appendBitOne_writes).appends.bind (g := fun _ => encodeUnConstraintWholeNumber v) (encodeUnConstraintWholeNumber_appends h3 h4)

theorem decIntExt_reads {root : Rng} {inRoot : Int → Bool} {more : Option (Int → Bool)} {v : Int}
    (hok : Ok (.intExt root inRoot more)) (hv : Valid (.intExt root inRoot more) (.int v)) :
    Reads (decIntExt root) (true, v) (intExtCode root inRoot v) ∧ Short (decIntExt root) (intExtCode root inRoot v) := by
  simp only [Ok, Valid] at hok hv
  unfold intExtCode decIntExt
  rcases hv with ⟨h1, h2⟩ | ⟨h1, ⟨f, hf, _⟩, h3, h4⟩
  · rw [if_pos h1]
    obtain ⟨r, s⟩ := decInt_reads hok.1 (hok.2 v h1) h2
    constructor
    · exact (readBit_reads false).bind (w1 := [false]) (by rw [if_pos rfl, if_neg (by simp)]; exact r)
    · exact (readBit_needs.short (w := [false]) rfl).bind (readBit_reads false) (by rw [if_pos rfl, if_neg (by simp)]; exact s)
        (fun a => ⟨0, by rw [if_neg (by simp)]⟩)
  · rw [if_neg (by simp [h1])]
    obtain ⟨r, s⟩ := decodeUnConstraintWholeNumber_reads (v := v) (by omega) h4
    constructor
    · exact (readBit_reads true).bind (w1 := [true]) (by rw [if_pos rfl, if_pos rfl]; exact r)
    · exact (readBit_needs.short (w := [true]) rfl).bind (readBit_reads true) (by rw [if_pos rfl, if_pos rfl]; exact s)
        (fun a => ⟨0, by rw [if_neg (by simp)]⟩)

end Asn1
