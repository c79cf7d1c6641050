import Verif.Spec.AcnGen
import Verif.Proof.GenInt
import Verif.Proof.AcnInt3
import Verif.Proof.AcnDigits
import Verif.Proof.AcnAscii
import Verif.Proof.RoundTrip
/-! INTEGER, BOOLEAN and ENUMERATED with ACN encodings. -/
namespace Asn1

theorem pow_w {w : Nat} (h : w = 8 ∨ w = 16 ∨ w = 32 ∨ w = 64) : w ≤ 64 ∧ 1 ≤ w := by omega

theorem ofInt64_toNat {x : Int} (h0 : 0 ≤ x) (h1 : x < 2 ^ 64) : (BitVec.ofInt 64 x).toNat = x.toNat := by
  rw [BitVec.toNat_ofInt]
  omega

theorem ofInt64_ofNat {x : Int} (h0 : 0 ≤ x) : BitVec.ofInt 64 x = BitVec.ofNat 64 x.toNat := by
  obtain ⟨n, rfl⟩ := Int.eq_ofNat_of_zero_le h0
  simp

/-- `2 ^ w ≤ 2 ^ 64` as integers. -/
theorem FitsC.unsigned {w : Nat} {r : Rng} {x : Int} (h : FitsC w r x) (hu : r.unsigned = true) :
    0 ≤ x ∧ x < 2 ^ 64 ∧ x.toNat < 2 ^ w ∧ w ≤ 64 := by
  obtain ⟨hw, h⟩ := h
  rw [if_pos hu] at h
  rcases hw with rfl | rfl | rfl | rfl <;> refine ⟨h.1, ?_, ?_, ?_⟩ <;> omega

theorem FitsC.signed {w : Nat} {r : Rng} {x : Int} (h : FitsC w r x) (hu : ¬ r.unsigned = true) :
    -(2 ^ 63) < x ∧ x < 2 ^ 63 ∧ FitsTwos w x ∧ w ≤ 64 := by
  obtain ⟨hw, h⟩ := h
  rw [if_neg hu] at h
  rcases hw with rfl | rfl | rfl | rfl <;> refine ⟨by omega, ?_, ⟨?_, ?_, ?_⟩, ?_⟩ <;> omega

/-- A non-negative value, whatever the range. -/
theorem FitsC.nonneg {w : Nat} {r : Rng} {x : Int} (h : FitsC w r x) (h0 : 0 ≤ x) : x < 2 ^ 64 ∧ x.toNat < 2 ^ w ∧ w ≤ 64 := by
  obtain ⟨hw, h⟩ := h
  by_cases hu : r.unsigned = true
  · rw [if_pos hu] at h
    rcases hw with rfl | rfl | rfl | rfl <;> refine ⟨?_, ?_, ?_⟩ <;> omega
  · rw [if_neg hu] at h
    rcases hw with rfl | rfl | rfl | rfl <;> refine ⟨?_, ?_, ?_⟩ <;> omega

theorem decAU_reads {w v : Nat} {f : M (Bool × U64)} {c : List Bool} (h : Reads f (true, BitVec.ofNat 64 v) c ∧ Short f c)
    (hw : w ≤ 64) (hv : v < 2 ^ w) : Reads (decAU w f) (true, (v : Int)) c ∧ Short (decAU w f) c := by
  have h64 : v < 2 ^ 64 := Nat.lt_of_lt_of_le hv (Nat.pow_le_pow_right (by omega) hw)
  unfold decAU decU
  split
  · refine ⟨?_, h.2.map (fun p hp => hp)⟩
    have := h.1.map (h := fun r : Bool × U64 => (r.1, (r.2.toNat : Int)))
    simp only [BitVec.toNat_ofNat, Nat.mod_eq_of_lt h64] at this
    exact this
  · unfold acnNarrowU
    refine ⟨?_, (h.2.map (h := fun r : Bool × U64 => (r.1, r.2.setWidth w)) (fun p hp => hp)).map (fun p hp => hp)⟩
    have := (h.1.map (h := fun r : Bool × U64 => (r.1, r.2.setWidth w))).map (h := fun r => (r.1, (r.2.toNat : Int)))
    simp only [BitVec.toNat_setWidth, BitVec.toNat_ofNat, Nat.mod_eq_of_lt h64, Nat.mod_eq_of_lt hv] at this
    exact this

theorem decAS_reads {w : Nat} {v : Int} {f : M (Bool × Int)} {c : List Bool} (h : Reads f (true, v) c ∧ Short f c)
    (hv : FitsTwos w v) : Reads (decAS w f) (true, v) c ∧ Short (decAS w f) c := by
  unfold decAS
  split
  · exact h
  · unfold acnNarrowS
    refine ⟨?_, h.2.map (fun p hp => hp)⟩
    have := h.1.map (h := fun r : Bool × Int => (r.1, (BitVec.ofInt w r.2).toInt))
    simp only [ofInt_fits hv] at this
    exact this

theorem lt_of_int {x : Int} {n : Nat} (h0 : 0 ≤ x) (h : x < 2 ^ n) : x.toNat < 2 ^ n := by
  obtain ⟨k, rfl⟩ := Int.eq_ofNat_of_zero_le h0
  simp only [Int.toNat_natCast]
  exact_mod_cast h

theorem lt_of_int10 {x : Int} {n : Nat} (h0 : 0 ≤ x) (h : x < 10 ^ n) : x.toNat < 10 ^ n := by
  obtain ⟨k, rfl⟩ := Int.eq_ofNat_of_zero_le h0
  simp only [Int.toNat_natCast]
  exact_mod_cast h

theorem emod_small {x : Int} {n : Nat} (h0 : 0 ≤ x) (h : x < 2 ^ n) : (x % 2 ^ n).toNat = x.toNat := by
  rw [Int.emod_eq_of_lt h0 h]

theorem encAInt_appends {w : Nat} {r : Rng} {enc : IntEnc} {x : Int} (h : AIntFits w r enc x) :
    Appends (encAInt r enc x) () (aintCode r enc x) := by
  cases enc with
  | uper =>
    simp only [AIntFits, if_true] at h
    exact encInt_appends h.1 h.2.1 h.2.2
  | const n =>
    simp only [AIntFits, if_neg (show ¬ IntEnc.const n = .uper by simp), IntEnc.holds] at h
    obtain ⟨hf, hn, h⟩ := h
    simp only [encAInt, aintCode]
    split
    · rename_i hu
      rw [if_pos hu] at h
      obtain ⟨h0, h64, _, _⟩ := hf.unsigned hu
      rw [← ofInt64_toNat h0 h64]
      exact acnEncUIntConstSize_appends (by rw [ofInt64_toNat h0 h64]; exact lt_of_int h0 h)
    · rename_i hu
      rw [if_neg hu] at h
      obtain ⟨h1, h2, _, _⟩ := hf.signed hu
      exact acnEncSIntConstSize_appends h h1 h2
  | const8 =>
    simp only [AIntFits, if_neg (show ¬ IntEnc.const8 = .uper by simp), IntEnc.holds] at h
    obtain ⟨hf, h⟩ := h
    simp only [encAInt, aintCode]
    split
    · rename_i hu
      rw [if_pos hu] at h
      obtain ⟨h0, h64, _, _⟩ := hf.unsigned hu
      rw [← ofInt64_toNat h0 h64]
      exact acnEncUIntConstSize8_appends _
    · rename_i hu
      obtain ⟨h1, h2, _, _⟩ := hf.signed hu
      exact acnEncSIntConstSize8_appends h1 h2
  | big size =>
    simp only [AIntFits, if_neg (show ¬ IntEnc.big size = .uper by simp), IntEnc.holds] at h
    obtain ⟨hf, hs1, hs8, h⟩ := h
    simp only [encAInt, aintCode]
    split
    · rename_i hu
      obtain ⟨h0, h64, _, _⟩ := hf.unsigned hu
      rw [← ofInt64_toNat h0 h64]
      exact acnEncUIntBig_appends _ hs8
    · rename_i hu
      obtain ⟨h1, h2, _, _⟩ := hf.signed hu
      exact acnEncSIntBig_appends hs8 h1 h2
  | little size =>
    simp only [AIntFits, if_neg (show ¬ IntEnc.little size = .uper by simp), IntEnc.holds] at h
    obtain ⟨hf, hs1, hs8, h⟩ := h
    simp only [encAInt, aintCode]
    split
    · rename_i hu
      rw [if_pos hu] at h
      obtain ⟨h0, h64, _, _⟩ := hf.unsigned hu
      rw [emod_small h0 h, ← ofInt64_toNat h0 h64]
      exact acnEncUIntLittle_appends _ _
    · rename_i hu
      obtain ⟨h1, h2, _, _⟩ := hf.signed hu
      exact acnEncSIntLittle_appends hs8 h1 h2
  | bcd n =>
    simp only [AIntFits, if_neg (show ¬ IntEnc.bcd n = .uper by simp), IntEnc.holds] at h
    obtain ⟨hf, hn, h0, h⟩ := h
    obtain ⟨h64, _, _⟩ := hf.nonneg h0
    simp only [encAInt, aintCode]
    rw [← ofInt64_toNat h0 h64]
    exact acnEncBcdConstSize_appends hn (by rw [ofInt64_toNat h0 h64]; exact lt_of_int10 h0 h)
  | bcdNull =>
    simp only [AIntFits, if_neg (show ¬ IntEnc.bcdNull = .uper by simp), IntEnc.holds] at h
    obtain ⟨hf, h0⟩ := h
    obtain ⟨h64, _, _⟩ := hf.nonneg h0
    simp only [encAInt, aintCode]
    rw [← ofInt64_toNat h0 h64]
    exact acnEncBcdNullTerminated_appends _
  | ascii n =>
    simp only [AIntFits, if_neg (show ¬ IntEnc.ascii n = .uper by simp), IntEnc.holds] at h
    obtain ⟨hf, h⟩ := h
    simp only [encAInt, aintCode]
    split
    · rename_i hu
      rw [if_pos hu] at h
      obtain ⟨h0, h64, _, _⟩ := hf.unsigned hu
      rw [← ofInt64_toNat h0 h64]
      exact acnEncUIntAsciiConstSize_appends h.1 (by rw [ofInt64_toNat h0 h64]; exact lt_of_int10 h0 h.2)
    · rename_i hu
      rw [if_neg hu] at h
      obtain ⟨h1, h2, _, _⟩ := hf.signed hu
      obtain ⟨m, rfl⟩ : ∃ m, n = m + 1 := ⟨n - 1, by omega⟩
      exact acnEncSIntAsciiConstSize_appends h1 h2 (by omega) h.2.2
  | asciiNull nul =>
    simp only [AIntFits, if_neg (show ¬ IntEnc.asciiNull nul = .uper by simp), IntEnc.holds] at h
    obtain ⟨hf, h⟩ := h
    simp only [encAInt, aintCode]
    split
    · rename_i hu
      obtain ⟨h0, h64, _, _⟩ := hf.unsigned hu
      rw [← ofInt64_toNat h0 h64]
      exact acnEncUIntAsciiNullTerminated_appends _ _
    · rename_i hu
      obtain ⟨h1, h2, _, _⟩ := hf.signed hu
      exact acnEncSIntAsciiNullTerminated_appends h1 h2 _

theorem decAInt_reads {w : Nat} {r : Rng} {enc : IntEnc} {x : Int} (h : AIntFits w r enc x) :
    Reads (decAInt w r enc) (true, x) (aintCode r enc x) ∧ Short (decAInt w r enc) (aintCode r enc x) := by
  have cast : ∀ {f : M (Bool × Int)} {c : List Bool}, 0 ≤ x → (Reads f (true, (x.toNat : Int)) c ∧ Short f c) →
      Reads f (true, x) c ∧ Short f c := by
    intro f c h0 hh
    rwa [Int.toNat_of_nonneg h0] at hh
  cases enc with
  | uper =>
    simp only [AIntFits, if_true] at h
    exact decInt_reads h.1 h.2.1 h.2.2
  | const n =>
    simp only [AIntFits, if_neg (show ¬ IntEnc.const n = .uper by simp), IntEnc.holds] at h
    obtain ⟨hf, hn, h⟩ := h
    simp only [decAInt, aintCode]
    split
    · rename_i hu
      rw [if_pos hu] at h
      obtain ⟨h0, h64, hw, hw'⟩ := hf.unsigned hu
      exact cast h0 (decAU_reads (acnDecUIntConstSize_reads hn (lt_of_int h0 h)) hw' hw)
    · rename_i hu
      rw [if_neg hu] at h
      obtain ⟨h1, h2, h3, _⟩ := hf.signed hu
      exact decAS_reads (acnDecSIntConstSize_reads h hn) h3
  | const8 =>
    simp only [AIntFits, if_neg (show ¬ IntEnc.const8 = .uper by simp), IntEnc.holds] at h
    obtain ⟨hf, h⟩ := h
    simp only [decAInt, aintCode]
    split
    · rename_i hu
      rw [if_pos hu] at h
      obtain ⟨h0, h64, hw, hw'⟩ := hf.unsigned hu
      exact cast h0 (decAU_reads (acnDecUIntConstSize8_reads (lt_of_int h0 h)) hw' hw)
    · rename_i hu
      rw [if_neg hu] at h
      obtain ⟨h1, h2, h3, _⟩ := hf.signed hu
      exact decAS_reads (acnDecSIntConstSize8_reads h) h3
  | big size =>
    simp only [AIntFits, if_neg (show ¬ IntEnc.big size = .uper by simp), IntEnc.holds] at h
    obtain ⟨hf, hs1, hs8, h⟩ := h
    simp only [decAInt, aintCode]
    split
    · rename_i hu
      rw [if_pos hu] at h
      obtain ⟨h0, h64, hw, hw'⟩ := hf.unsigned hu
      have := acnDecUIntBig_reads size 0 x.toNat (lt_of_int h0 h)
      rw [Nat.zero_mul, Nat.zero_add] at this
      exact cast h0 (decAU_reads this hw' hw)
    · rename_i hu
      rw [if_neg hu] at h
      obtain ⟨h1, h2, h3, _⟩ := hf.signed hu
      exact decAS_reads (acnDecSIntBig_reads hs1 hs8 h) h3
  | little size =>
    simp only [AIntFits, if_neg (show ¬ IntEnc.little size = .uper by simp), IntEnc.holds] at h
    obtain ⟨hf, hs1, hs8, h⟩ := h
    simp only [decAInt, aintCode]
    split
    · rename_i hu
      rw [if_pos hu] at h
      obtain ⟨h0, h64, hw, hw'⟩ := hf.unsigned hu
      rw [emod_small h0 h]
      have := acnDecUIntLittle_reads size 0 0 x.toNat (lt_of_int h0 h) (by simp)
      rw [Nat.mul_zero, Nat.pow_zero, Nat.mul_one, Nat.add_zero] at this
      exact cast h0 (decAU_reads this hw' hw)
    · rename_i hu
      rw [if_neg hu] at h
      obtain ⟨h1, h2, h3, _⟩ := hf.signed hu
      exact decAS_reads (acnDecSIntLittle_reads hs1 hs8 h) h3
  | bcd n =>
    simp only [AIntFits, if_neg (show ¬ IntEnc.bcd n = .uper by simp), IntEnc.holds] at h
    obtain ⟨hf, hn, h0, h⟩ := h
    obtain ⟨h64, hw, hw'⟩ := hf.nonneg h0
    simp only [decAInt, aintCode]
    have := acnDecBcdConstSize_reads (v := BitVec.ofInt 64 x) (n := n) (by rw [ofInt64_toNat h0 h64]; exact lt_of_int10 h0 h)
    rw [ofInt64_toNat h0 h64, ofInt64_ofNat h0] at this
    exact cast h0 (decAU_reads this hw' hw)
  | bcdNull =>
    simp only [AIntFits, if_neg (show ¬ IntEnc.bcdNull = .uper by simp), IntEnc.holds] at h
    obtain ⟨hf, h0⟩ := h
    obtain ⟨h64, hw, hw'⟩ := hf.nonneg h0
    simp only [decAInt, aintCode]
    have := acnDecBcdNullTerminated_reads (BitVec.ofInt 64 x)
    rw [ofInt64_toNat h0 h64, ofInt64_ofNat h0] at this
    exact cast h0 (decAU_reads this hw' hw)
  | ascii n =>
    simp only [AIntFits, if_neg (show ¬ IntEnc.ascii n = .uper by simp), IntEnc.holds] at h
    obtain ⟨hf, h⟩ := h
    simp only [decAInt, aintCode]
    split
    · rename_i hu
      rw [if_pos hu] at h
      obtain ⟨h0, h64, hw, hw'⟩ := hf.unsigned hu
      have := acnDecUIntAsciiConstSize_reads (v := BitVec.ofInt 64 x) (n := n) (by rw [ofInt64_toNat h0 h64]; exact lt_of_int10 h0 h.2)
      rw [ofInt64_toNat h0 h64, ofInt64_ofNat h0] at this
      exact cast h0 (decAU_reads this hw' hw)
    · rename_i hu
      rw [if_neg hu] at h
      obtain ⟨h1, h2, h3, _⟩ := hf.signed hu
      obtain ⟨m, rfl⟩ : ∃ m, n = m + 1 := ⟨n - 1, by omega⟩
      exact decAS_reads (acnDecSIntAsciiConstSize_reads h1 h2 h.2.2) h3
  | asciiNull nul =>
    simp only [AIntFits, if_neg (show ¬ IntEnc.asciiNull nul = .uper by simp), IntEnc.holds] at h
    obtain ⟨hf, hn1, hn2, h⟩ := h
    simp only [decAInt, aintCode]
    split
    · rename_i hu
      obtain ⟨h0, h64, hw, hw'⟩ := hf.unsigned hu
      have e : x.natAbs = x.toNat := by omega
      rw [e] at h
      have := acnDecUIntAsciiNullTerminated_reads (v := BitVec.ofInt 64 x) hn1 hn2 (by rw [ofInt64_toNat h0 h64]; exact h)
      rw [ofInt64_toNat h0 h64, ofInt64_ofNat h0] at this
      exact cast h0 (decAU_reads this hw' hw)
    · rename_i hu
      obtain ⟨h1, h2, h3, _⟩ := hf.signed hu
      exact decAS_reads (acnDecSIntAsciiNullTerminated_reads h1 h2 hn1 hn2 h) h3

/-! ### ENUMERATED -/

theorem posWhole_bounds {a b y : Int} (h : AIntFits 64 (.concrete a b) .uper y) (hu : (Rng.concrete a b).unsigned = true) :
    BitVec.ofInt 64 a ≤ BitVec.ofInt 64 y ∧ BitVec.ofInt 64 y ≤ BitVec.ofInt 64 b ∧ 0 ≤ y ∧
    ((BitVec.ofInt 64 a).toNat : Int) = a ∧ ((BitVec.ofInt 64 y).toNat : Int) = y ∧ ((BitVec.ofInt 64 b).toNat : Int) = b := by
  simp only [Rng.unsigned, decide_eq_true_eq] at hu
  simp only [AIntFits, if_true, Rng.ok, Rng.contains] at h
  obtain ⟨⟨h1, h2⟩, ⟨h3, h4⟩, _⟩ := h
  rw [if_pos ⟨by omega, trivial⟩] at h2
  have h2 := h2.2
  rw [BitVec.le_def, BitVec.le_def, ofInt64_toNat (x := a) (by omega) (by omega), ofInt64_toNat (x := b) (by omega) (by omega),
    ofInt64_toNat (x := y) (by omega) (by omega)]
  refine ⟨?_, ?_, ?_, ?_, ?_, ?_⟩ <;> omega

theorem encEnumInt_appends {r : Rng} {a b : Int} (hr : r = .concrete a b) {enc : IntEnc} {y : Int} (h : AIntFits 64 r enc y)
    (hu : enc = .uper → r.unsigned = true) : Appends (encEnumInt r enc y) () (aintCode r enc y) := by
  by_cases he : enc = .uper
  · subst he hr
    obtain ⟨h1, h2, h0, e1, e2, e3⟩ := posWhole_bounds h (hu rfl)
    have := encodeConstraintPosWholeNumber_appends h1 h2
    rw [e1, e2, e3] at this
    exact this
  · have e : encEnumInt r enc y = encAInt r enc y := by
      cases enc <;> first | rfl | exact absurd rfl he
    rw [e]
    exact encAInt_appends h

theorem decEnumInt_reads {r : Rng} {a b : Int} (hr : r = .concrete a b) {enc : IntEnc} {y : Int} (h : AIntFits 64 r enc y)
    (hu : enc = .uper → r.unsigned = true) :
    Reads (decEnumInt r enc) (true, y) (aintCode r enc y) ∧ Short (decEnumInt r enc) (aintCode r enc y) := by
  by_cases he : enc = .uper
  · subst he hr
    obtain ⟨h1, h2, h0, e1, e2, e3⟩ := posWhole_bounds h (hu rfl)
    obtain ⟨d, s⟩ := decodeConstraintPosWholeNumber_reads h1 h2
    simp only [decEnumInt, if_pos (hu rfl), Rng.lower, Rng.upper]
    have d' := d.map (h := fun p : Bool × U64 => (p.1, (p.2.toNat : Int)))
    have s' := s.map (h := fun p : Bool × U64 => (p.1, (p.2.toNat : Int))) (fun p hp => hp)
    simp only [e2] at d'
    rw [e1, e3] at d' s'
    rw [e2] at s'
    exact ⟨d', s'⟩
  · have e : decEnumInt r enc = decAInt 64 r enc := by
      cases enc <;> first | rfl | exact absurd rfl he
    rw [e]
    exact decAInt_reads h

/-! ### Leaves -/

theorem encABool_appends {e : BoolEnc} (b : Bool) (h : e.ok) : Appends (encABool e b) () (aboolCode e b) := by
  cases e with
  | uper => exact (appendBit_writes b).appends
  | onePattern ev tp fp n =>
    simp only [BoolEnc.ok] at h
    exact appendBits_appends (arr := if b then tp else fp) (n := n) (by split <;> omega)
  | twoPatterns tp fp n =>
    simp only [BoolEnc.ok] at h
    exact appendBits_appends (arr := if b then tp else fp) (n := n) (by split <;> omega)

theorem decABool_reads {e : BoolEnc} (b : Bool) (h : e.ok) :
    Reads (decABool e) (true, b) (aboolCode e b) ∧ Short (decABool e) (aboolCode e b) := by
  cases e with
  | uper => exact ⟨readBit_reads b, readBit_needs.short rfl⟩
  | onePattern ev tp fp n =>
    obtain ⟨ht, hf, hne⟩ := h
    have hl : ((bytesBits (if b then tp else fp)).take n).length = n := by
      rw [List.length_take, bytesBits_length]; split <;> omega
    obtain ⟨r, s⟩ := readBitPattern_reads (pat := if ev then tp else fp) (n := n) (by split <;> omega) hl
    have e : (if ev then decide ((bytesBits (if b then tp else fp)).take n = (bytesBits (if ev then tp else fp)).take n)
        else !decide ((bytesBits (if b then tp else fp)).take n = (bytesBits (if ev then tp else fp)).take n)) = b := by
      cases b <;> cases ev <;> simp [hne, Ne.symm hne]
    simp only [decABool, aboolCode, acnBoolDecode]
    rw [← List.append_nil ((bytesBits _).take n)]
    constructor
    · refine r.bind ?_
      rw [if_pos rfl, e]
      exact Reads.pure _
    · exact s.bind r (Short.nil _) (fun a => ⟨a, by rw [if_neg (by simp)]⟩)
  | twoPatterns tp fp n =>
    obtain ⟨ht, hf, hne⟩ := h
    have hl : ((bytesBits (if b then tp else fp)).take n).length = n := by
      rw [List.length_take, bytesBits_length]; split <;> omega
    obtain ⟨r, s⟩ := decodeTrueFalseBoolean_reads ht hf hl
    have e : trueFalseResult (decide ((bytesBits (if b then tp else fp)).take n = (bytesBits tp).take n))
        (decide ((bytesBits (if b then tp else fp)).take n = (bytesBits fp).take n)) = (true, b) := by
      cases b
      · simp [trueFalseResult, Ne.symm hne]
      · simp [trueFalseResult]
    rw [e] at r
    exact ⟨r, s⟩

theorem mem_lookup_of_nodup : ∀ {items : List (Int × Int)} {x y : Int}, (items.map (·.1)).Nodup → (x, y) ∈ items → items.lookup x = some y
  | [], _, _, _, h => by simp at h
  | (a, b) :: items, x, y, hn, h => by
    rw [List.lookup_cons]
    rw [List.map_cons, List.nodup_cons] at hn
    rcases List.mem_cons.1 h with h | h
    · cases h; simp
    · have : x ≠ a := fun e => hn.1 (by rw [← e]; exact List.mem_map_of_mem (f := (·.1)) h)
      simp only [beq_eq_false_iff_ne.2 this]
      exact mem_lookup_of_nodup hn.2 h

theorem find_of_nodup : ∀ {items : List (Int × Int)} {x y : Int}, (items.map (·.2)).Nodup → (x, y) ∈ items →
    items.find? (fun it => it.2 = y) = some (x, y)
  | [], _, _, _, h => by simp at h
  | (a, b) :: items, x, y, hn, h => by
    rw [List.map_cons, List.nodup_cons] at hn
    rcases List.mem_cons.1 h with h | h
    · cases h; simp
    · have : b ≠ y := fun e => hn.1 (by show b ∈ _; rw [e]; exact List.mem_map_of_mem (f := (·.2)) h)
      rw [List.find?_cons_of_neg (by simpa using this)]
      exact find_of_nodup hn.2 h

theorem mapEnc_eq (enc : IntEnc) (mf : Option Mapping) (x : Int) : mapEnc enc mf x = mapped enc mf x := by
  cases mf with
  | none => cases enc <;> rfl
  | some m => cases enc <;> simp [mapEnc, mapped]

theorem mapDec_mapped {w : Nat} {r : Rng} {enc : IntEnc} {mf : Option Mapping} {x : Int} (h : LeafFits (.int w r enc mf) x) :
    mapDec r enc mf (mapped enc mf x) = x := by
  obtain ⟨_, h⟩ := h
  cases mf with
  | none => cases enc <;> rfl
  | some m =>
    have h := h m rfl
    by_cases hu : enc = .uper
    · subst hu; rfl
    · have h := h hu
      simp only [mapped, if_neg hu]
      by_cases hb : enc = .big 2
      · subst hb
        show (if r.unsigned then m.dec (m.enc x) else m.enc x) = x
        rw [if_pos (by rcases h.2 with h | h; exact h; exact absurd rfl h)]
        exact h.1
      · have : mapDec r enc (some m) (m.enc x) = m.dec (m.enc x) := by
          unfold mapDec
          split <;> simp_all
        rw [this]
        exact h.1

theorem encLeaf_appends {l : ALeaf} {x : Int} (h : LeafFits l x) : Appends (encLeaf l x) true (leafCode l x) := by
  cases l with
  | int w r enc mf =>
    have a := encAInt_appends h.1
    simp only [encLeaf, leafCode, mapEnc_eq]
    rw [← List.append_nil (aintCode _ _ _)]
    exact a.bind (Appends.pure _)
  | bool e =>
    have a := encABool_appends (decide (x ≠ 0)) h.2
    simp only [encLeaf, leafCode]
    rw [← List.append_nil (aboolCode _ _)]
    exact a.bind (Appends.pure _)
  | enum items valid enc =>
    obtain ⟨y, hm, h1, h2, hf, hu⟩ := h
    have a := encEnumInt_appends rfl hf hu
    simp only [encLeaf, leafCode, mem_lookup_of_nodup h1 hm]
    rw [← List.append_nil (aintCode _ _ _)]
    exact a.bind (Appends.pure _)

theorem decLeaf_reads {l : ALeaf} {x : Int} (h : LeafFits l x) :
    Reads (decLeaf l) (true, x) (leafCode l x) ∧ Short (decLeaf l) (leafCode l x) := by
  cases l with
  | int w r enc mf =>
    obtain ⟨d, s⟩ := decAInt_reads h.1
    simp only [decLeaf, leafCode]
    refine ⟨?_, s.map (fun p hp => hp)⟩
    have := d.map (h := fun p : Bool × Int => (p.1, if p.1 then mapDec r enc mf p.2 else p.2))
    simp only [if_true, mapDec_mapped h] at this
    exact this
  | bool e =>
    obtain ⟨hx, he⟩ := h
    obtain ⟨d, s⟩ := decABool_reads (decide (x ≠ 0)) he
    simp only [decLeaf, leafCode]
    refine ⟨?_, s.map (fun p hp => hp)⟩
    have := d.map (h := fun p : Bool × Bool => (p.1, if p.2 then (1 : Int) else 0))
    have e : (if decide (x ≠ 0) = true then (1 : Int) else 0) = x := by
      rcases hx with rfl | rfl <;> simp
    simp only [e] at this
    exact this
  | enum items valid enc =>
    obtain ⟨y, hm, h1, h2, hf, hu⟩ := h
    obtain ⟨d, s⟩ := decEnumInt_reads rfl hf hu
    simp only [decLeaf, leafCode, mem_lookup_of_nodup h1 hm]
    rw [← List.append_nil (aintCode _ _ _)]
    constructor
    · refine d.bind ?_
      rw [if_pos rfl]
      simp only [find_of_nodup h2 hm]
      exact Reads.pure _
    · exact s.bind d (Short.nil _) (fun a => ⟨0, by rw [if_neg (by simp)]⟩)

end Asn1
