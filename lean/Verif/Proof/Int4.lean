import Verif.Proof.Int3
/-! Semi-constrained and unconstrained whole numbers, length functions, signed/unsigned conversion. -/
namespace Asn1

theorem octetsNat_pos (n : Nat) : 1 ≤ octetsNat n := by unfold octetsNat; omega

theorem octetsNat_le_iff (n k : Nat) (hk : 1 ≤ k) : octetsNat n ≤ k ↔ n < 2 ^ (8 * k) := by
  rw [← bitLen_le_iff]; unfold octetsNat; omega

theorem lt_octetsNat (n : Nat) : n < 2 ^ (8 * octetsNat n) := (octetsNat_le_iff n _ (octetsNat_pos n)).1 (Nat.le_refl _)

theorem octetsNat_eq {n k : Nat} (h : n < 2 ^ (8 * (k + 1))) (h2 : k = 0 ∨ 2 ^ (8 * k) ≤ n) : octetsNat n = k + 1 := by
  have a := (octetsNat_le_iff n (k + 1) (by omega)).2 h
  have b := octetsNat_pos n
  by_cases hk : k = 0
  · omega
  · have c : ¬ octetsNat n ≤ k := by rw [octetsNat_le_iff n k (by omega)]; omega
    omega

theorem getLengthInBytesOfUInt_eq (v : U64) : getLengthInBytesOfUInt v = octetsNat v.toNat := by
  have hlt := v.isLt
  have hhi := hi32_toNat v
  have hlo := lo32_toNat v
  simp only [getLengthInBytesOfUInt, gt_iff_lt, BitVec.lt_def, BitVec.toNat_ofNat]
  by_cases h : 4294967295 % 2 ^ 64 < v.toNat
  · simp only [h, if_true, hhi]
    repeat' split
    all_goals (symm; apply octetsNat_eq <;> omega)
  · simp only [h, if_false, hlo]
    repeat' split
    all_goals (symm; apply octetsNat_eq <;> omega)

theorem getLengthSIntHelper_eq {v : U64} (h63 : v.toNat < 2 ^ 63) : getLengthSIntHelper v = bitLen v.toNat / 8 + 1 := by
  have hhi := hi32_toNat v
  have hlo := lo32_toNat v
  have key : ∀ k, v.toNat < 2 ^ (8 * k + 7) → (k = 0 ∨ 2 ^ (8 * k - 1) ≤ v.toNat) → bitLen v.toNat / 8 + 1 = k + 1 := by
    intro k h1 h2
    have a := (bitLen_le_iff _ _).2 h1
    by_cases hk : k = 0
    · omega
    · have b : ¬ bitLen v.toNat ≤ 8 * k - 1 := by rw [bitLen_le_iff]; omega
      omega
  simp only [getLengthSIntHelper, gt_iff_lt, BitVec.lt_def, BitVec.le_def, BitVec.toNat_ofNat]
  by_cases h : 2147483647 % 2 ^ 64 < v.toNat
  · simp only [h, if_true, hhi]
    repeat' split
    all_goals (symm; apply key <;> omega)
  · simp only [h, if_false, hlo]
    repeat' split
    all_goals (symm; apply key <;> omega)

theorem negMinusOne_ok {v : Int} (h1 : -(2 ^ 63) < v) (h2 : v < 0) : negMinusOne v = pure (-v - 1) := by
  unfold negMinusOne
  rw [chk_ok (by omega), pure_bind, chk_ok (by omega)]

theorem getLengthInBytesOfSInt_eq {v : Int} (h1 : -(2 ^ 63) < v) (h2 : v < 2 ^ 63) :
    getLengthInBytesOfSInt v = pure (octetsInt v) := by
  unfold getLengthInBytesOfSInt octetsInt
  by_cases h : 0 ≤ v
  · have e := ofInt_toNat (x := v) h (by omega)
    rw [if_pos h, if_pos h, getLengthSIntHelper_eq (by omega), e]
  · have e := ofInt_toNat (x := -v - 1) (by omega) (by omega)
    rw [if_neg h, if_neg h, negMinusOne_ok h1 (by omega), pure_bind, getLengthSIntHelper_eq (by omega), e]

theorem constrained255 {n : Nat} : constrainedCode 0 255 n = bitsMsb 8 n := by
  unfold constrainedCode
  have : bitLen ((255 : Int) - 0).toNat = 8 := by decide
  rw [this, Int.sub_zero, Int.toNat_natCast]

theorem lengthOctet_appends {n : Nat} (h : n ≤ 255) : Appends (encodeConstraintWholeNumber n 0 255) () (bitsMsb 8 n) := by
  rw [← constrained255]
  exact encodeConstraintWholeNumber_appends (by omega) (by omega) (by omega)

theorem lengthOctet_reads {n : Nat} (h : n ≤ 255) :
    Reads (decodeConstraintWholeNumber 0 255) (true, (n : Int)) (bitsMsb 8 n) ∧
    Short (decodeConstraintWholeNumber 0 255) (bitsMsb 8 n) := by
  rw [← constrained255]
  exact decodeConstraintWholeNumber_reads (by omega) (by omega) (by omega) (by omega) (by omega)

theorem decodeBytesLoop_reads (k : Nat) : ∀ (a u : Nat), u < 2 ^ (8 * k) →
    Reads (decodeBytesLoop k (BitVec.ofNat 64 a)) (true, BitVec.ofNat 64 (a * 2 ^ (8 * k) + u)) (bitsMsb (8 * k) u) ∧
    Short (decodeBytesLoop k (BitVec.ofNat 64 a)) (bitsMsb (8 * k) u) := by
  induction k with
  | zero =>
    intro a u h
    have : u = 0 := by omega
    subst this
    simp only [decodeBytesLoop, Nat.mul_zero, bitsMsb_zero_width, Nat.pow_zero, Nat.mul_one, Nat.add_zero]
    exact ⟨Reads.pure _, Short.nil _⟩
  | succ k ih =>
    intro a u h
    obtain ⟨b, hb, hbits⟩ := split_byte h
    rw [← hbits]
    simp only [decodeBytesLoop]
    have := ih (a * 2 ^ 8 + u >>> (8 * k)) (u % 2 ^ (8 * k)) (Nat.mod_lt _ (Nat.two_pow_pos _))
    rw [recombine, show 8 + 8 * k = 8 * (k + 1) by omega, ← hb, ← shl_or b.isLt, ← setWidth_ofNat] at this
    constructor
    · refine (readByte_reads b).bind ?_
      rw [if_pos rfl]
      exact this.1
    · refine (readByte_needs.short (by simp)).bind (readByte_reads b) ?_ (fun a => ⟨_, by rw [if_neg (by simp)]⟩)
      rw [if_pos rfl]
      exact this.2

theorem decodeBytesLoop_safe (k : Nat) : ∀ v, Safe (decodeBytesLoop k v) := by
  induction k with
  | zero => intro v; exact Safe.pure true v
  | succ k ih =>
    intro v
    simp only [decodeBytesLoop]
    refine readByte_safe.bind (fun a => ?_) (fun a => ⟨_, by rw [if_neg (by simp)]⟩)
    rw [if_pos rfl]
    exact ih _

/-! ### semi-constrained -/

theorem octetsNat_le8 (v : U64) : octetsNat v.toNat ≤ 8 := (octetsNat_le_iff _ _ (by omega)).2 v.isLt

theorem semi_common (u : U64) : Appends (do
      encodeConstraintWholeNumber (getLengthInBytesOfUInt u) 0 255
      appendNBitZero (((getLengthInBytesOfUInt u : Nat) : Int) * 8 - getNumberOfBits u)
      encodeNonNegativeInteger u) () (lengthPrefixedNat u.toNat) := by
  rw [getLengthInBytesOfUInt_eq]
  have h8 := octetsNat_le8 u
  refine (lengthOctet_appends (by omega)).bind ?_
  have := padded_appends (n := 8 * octetsNat u.toNat) (v := u) (lt_octetsNat _)
  rw [show ((octetsNat u.toNat : Int) * 8) = ((8 * octetsNat u.toNat : Nat) : Int) by omega]
  exact this

theorem encodeSemiConstraintWholeNumber_appends {v lo : Int} (h1 : lo ≤ v) (h2 : v - lo < 2 ^ 63) :
    Appends (encodeSemiConstraintWholeNumber v lo) () (lengthPrefixedNat (v - lo).toNat) := by
  unfold encodeSemiConstraintWholeNumber
  have e1 : assertC (decide (v ≥ lo)) = pure () := by funext s; simp [assertC, h1]
  rw [e1, pure_bind, chk_ok (by omega), pure_bind]
  have := semi_common (BitVec.ofInt 64 (v - lo))
  rw [ofInt_toNat (x := v - lo) (by omega) (by omega)] at this
  exact this

theorem encodeSemiConstraintPosWholeNumber_appends {v lo : U64} (h1 : lo ≤ v) :
    Appends (encodeSemiConstraintPosWholeNumber v lo) () (lengthPrefixedNat (v.toNat - lo.toNat)) := by
  unfold encodeSemiConstraintPosWholeNumber
  have e1 : assertC (decide (v ≥ lo)) = pure () := by funext s; simp [assertC, h1]
  rw [e1, pure_bind, ← BitVec.toNat_sub_of_le h1]
  exact semi_common (v - lo)

theorem decodeSemiConstraintWholeNumber_reads {v lo : Int} (h1 : lo ≤ v) (h2 : v - lo < 2 ^ 63)
    (hlo : -(2 ^ 63) ≤ lo) (hv : v < 2 ^ 63) :
    Reads (decodeSemiConstraintWholeNumber lo) (true, v) (lengthPrefixedNat (v - lo).toNat) ∧
    Short (decodeSemiConstraintWholeNumber lo) (lengthPrefixedNat (v - lo).toNat) := by
  unfold decodeSemiConstraintWholeNumber lengthPrefixedNat
  have h8 : octetsNat (v - lo).toNat ≤ 8 := (octetsNat_le_iff _ _ (by omega)).2 (by omega)
  obtain ⟨r1, s1⟩ := lengthOctet_reads (n := octetsNat (v - lo).toNat) (by omega)
  obtain ⟨r2, s2⟩ := decodeBytesLoop_reads (octetsNat (v - lo).toNat) 0 (v - lo).toNat (lt_octetsNat _)
  rw [Nat.zero_mul, Nat.zero_add] at r2
  have e : (BitVec.ofNat 64 (v - lo).toNat).toInt + lo = v := by
    rw [ofNat_toInt (by omega)]; omega
  constructor
  · refine r1.bind ?_
    rw [if_pos rfl, if_neg (by show ¬ ((octetsNat (v - lo).toNat : Int) > 8); omega)]
    simp only [Int.toNat_natCast]
    rw [← List.append_nil (bitsMsb _ (v - lo).toNat)]
    refine r2.bind ?_
    rw [if_pos rfl]
    simp only [e]
    rw [chk_ok (by omega), pure_bind]
    exact Reads.pure _
  · refine s1.bind r1 ?_ (fun a => ⟨0, by rw [if_neg (by simp)]⟩)
    rw [if_pos rfl, if_neg (by show ¬ ((octetsNat (v - lo).toNat : Int) > 8); omega)]
    simp only [Int.toNat_natCast]
    rw [← List.append_nil (bitsMsb _ (v - lo).toNat)]
    exact s2.bind r2 (Short.nil _) (fun a => ⟨_, by rw [if_neg (by simp)]⟩)

theorem decodeSemiConstraintPosWholeNumber_reads {v lo : U64} (h1 : lo ≤ v) :
    Reads (decodeSemiConstraintPosWholeNumber lo) (true, v) (lengthPrefixedNat (v.toNat - lo.toNat)) ∧
    Short (decodeSemiConstraintPosWholeNumber lo) (lengthPrefixedNat (v.toNat - lo.toNat)) := by
  unfold decodeSemiConstraintPosWholeNumber lengthPrefixedNat
  rw [← BitVec.toNat_sub_of_le h1]
  have h8 := octetsNat_le8 (v - lo)
  obtain ⟨r1, s1⟩ := lengthOctet_reads (n := octetsNat (v - lo).toNat) (by omega)
  obtain ⟨r2, s2⟩ := decodeBytesLoop_reads (octetsNat (v - lo).toNat) 0 (v - lo).toNat (lt_octetsNat _)
  rw [Nat.zero_mul, Nat.zero_add] at r2
  have e : BitVec.ofNat 64 (v - lo).toNat + lo = v := by
    rw [BitVec.ofNat_toNat, BitVec.setWidth_eq]
    exact BitVec.sub_add_cancel v lo
  constructor
  · refine r1.bind ?_
    rw [if_pos rfl, if_neg (by show ¬ ((octetsNat (v - lo).toNat : Int) > 8); omega)]
    simp only [Int.toNat_natCast]
    rw [← List.append_nil (bitsMsb _ (v - lo).toNat)]
    refine r2.bind ?_
    rw [if_pos rfl]
    simp only [e]
    exact Reads.pure _
  · refine s1.bind r1 ?_ (fun a => ⟨0#64, by rw [if_neg (by simp)]⟩)
    rw [if_pos rfl, if_neg (by show ¬ ((octetsNat (v - lo).toNat : Int) > 8); omega)]
    simp only [Int.toNat_natCast]
    rw [← List.append_nil (bitsMsb _ (v - lo).toNat)]
    exact s2.bind r2 (Short.nil _) (fun a => ⟨_, by rw [if_neg (by simp)]⟩)

theorem lengthOctet_safe : Safe (decodeConstraintWholeNumber 0 255) :=
  decodeConstraintWholeNumber_safe (by omega) (by omega) (by omega) (by omega)

theorem decodeSemiConstraintPosWholeNumber_safe (lo : U64) : Safe (decodeSemiConstraintPosWholeNumber lo) := by
  unfold decodeSemiConstraintPosWholeNumber
  refine lengthOctet_safe.bind (fun a => ?_) (fun a => ⟨0#64, by rw [if_neg (by simp)]⟩)
  rw [if_pos rfl]
  refine Safe.ite (fun _ => Safe.pure _ _) (fun _ => ?_)
  refine (decodeBytesLoop_safe _ _).bind (fun a => ?_) (fun a => ⟨_, by rw [if_neg (by simp)]⟩)
  rw [if_pos rfl]
  exact Safe.pure _ _

/-! ### unconstrained -/

theorem bitsMsb_compl {n w : Nat} (h : w < 2 ^ n) : (bitsMsb n w).map (!·) = bitsMsb n (2 ^ n - (w + 1)) := by
  apply List.ext_getElem?
  intro i
  rw [List.getElem?_map, bitsMsb_getElem?, bitsMsb_getElem?]
  split
  · rw [Nat.testBit_two_pow_sub_succ h]
    simp [show n - 1 - i < n by omega]
  · rfl

theorem octetsInt_pos (v : Int) : 1 ≤ octetsInt v := by unfold octetsInt; omega

theorem octetsInt_le_iff (v : Int) (k : Nat) (hk : 1 ≤ k) :
    octetsInt v ≤ k ↔ -(2 ^ (8 * k - 1) : Int) ≤ v ∧ v < 2 ^ (8 * k - 1) := by
  unfold octetsInt
  have e : ∀ n, bitLen n / 8 + 1 ≤ k ↔ n < 2 ^ (8 * k - 1) := by
    intro n; rw [← bitLen_le_iff]; omega
  rw [e]
  have hp : ((2 ^ (8 * k - 1) : Nat) : Int) = 2 ^ (8 * k - 1) := by norm_cast
  rw [← hp]
  generalize 2 ^ (8 * k - 1) = P
  split <;> omega

theorem encodeUnConstraintWholeNumber_appends {v : Int} (h1 : -(2 ^ 63) < v) (h2 : v < 2 ^ 63) :
    Appends (encodeUnConstraintWholeNumber v) () (lengthPrefixedInt v) := by
  unfold encodeUnConstraintWholeNumber lengthPrefixedInt
  rw [getLengthInBytesOfSInt_eq h1 h2, pure_bind]
  have h8 := (octetsInt_le_iff v 8 (by omega)).2 (by omega)
  have hfit := (octetsInt_le_iff v _ (octetsInt_pos v)).1 (Nat.le_refl _)
  have hpow : (2 : Int) ^ (8 * octetsInt v - 1) * 2 = 2 ^ (8 * octetsInt v) := by
    rw [← Int.pow_succ]; congr 1
  have hnat : ((2 ^ (8 * octetsInt v) : Nat) : Int) = 2 ^ (8 * octetsInt v) := by norm_cast
  refine (lengthOctet_appends (by omega)).bind ?_
  by_cases h : v ≥ 0
  · rw [if_pos h]
    have e := ofInt_toNat (x := v) h (by omega)
    have hm : (v % 2 ^ (8 * octetsInt v)).toNat = v.toNat := by
      rw [Int.emod_eq_of_lt h (by omega)]
    have := padded_appends (n := 8 * octetsInt v) (v := BitVec.ofInt 64 v) (by rw [e]; omega)
    rw [e] at this
    rw [hm, show ((octetsInt v : Int) * 8) = ((8 * octetsInt v : Nat) : Int) by omega]
    exact this
  · rw [if_neg h, negMinusOne_ok h1 (by omega), pure_bind]
    have e := ofInt_toNat (x := -v - 1) (by omega) (by omega)
    have hw : (-v - 1).toNat < 2 ^ (8 * octetsInt v) := by omega
    have hle := (bitLen_le_iff _ _).2 hw
    have hm : (v % 2 ^ (8 * octetsInt v)).toNat = 2 ^ (8 * octetsInt v) - ((-v - 1).toNat + 1) := by
      have : v % 2 ^ (8 * octetsInt v) = v + 2 ^ (8 * octetsInt v) := by
        rw [← Int.add_emod_right, Int.emod_eq_of_lt (by omega) (by omega)]
      rw [this]; omega
    rw [hm, ← bitsMsb_compl hw]
    have hn : ((octetsInt v : Int) * 8 - getNumberOfBits (BitVec.ofInt 64 (-v - 1))).toNat
        = 8 * octetsInt v - bitLen (-v - 1).toNat := by
      rw [getNumberOfBits_eq, e]; omega
    rw [hn]
    have := (appendNBitOne_appends (8 * octetsInt v - bitLen (-v - 1).toNat)).bind
      (g := fun _ => encodeNonNegativeIntegerNeg (BitVec.ofInt 64 (-v - 1)) true)
      (encodeNonNegativeIntegerNeg_appends (BitVec.ofInt 64 (-v - 1)) true)
    refine this.congr ?_
    rw [e]
    have hs := bitsMsb_pad (8 * octetsInt v - bitLen (-v - 1).toNat) (bitLen (-v - 1).toNat) (-v - 1).toNat (lt_two_pow_bitLen _)
    rw [Nat.sub_add_cancel hle] at hs
    rw [hs]
    simp [negBits]

theorem peekBit_reads {b : Bool} {w : List Bool} {s : BitStream} (h : DecSt s (b :: w)) :
    peekBit s = .ok (b, s) := by
  have hb := h.wf.bit
  have hp := h.pos
  have hc := h.wf.cap
  simp only [BitStream.pos, List.length_cons] at hp
  rw [peekBit_run hb (by omega)]
  have := h.bits 0 (by simp)
  simp only [Nat.add_zero] at this
  rw [this]; simp

theorem Reads.peek {β : Type} {g : Bool → M β} {a : β} {b : Bool} {w : List Bool} (h : Reads (g b) a (b :: w)) :
    Reads (peekBit >>= g) a (b :: w) := by
  intro s rest hs
  obtain ⟨s', h1, h2⟩ := h s rest hs
  exact ⟨s', by rw [bind_ok (peekBit_reads hs)]; exact h1, h2⟩

theorem Short.peek {β : Type} {g : Bool → M (Bool × β)} {w : List Bool} (h : ∀ c, Short (g c) w) :
    Short (peekBit >>= g) w := by
  intro s rest hs hsl hpre hne
  have hp := hs.pos
  have hb := hs.wf.bit
  simp only [BitStream.pos] at hp
  simp only [Slack] at hsl
  have hk := peekBit_run hb (show s.currentByte < s.buf.length by omega)
  obtain ⟨x, s', h1, h2⟩ := h (bitAt s.buf s.pos) s rest hs hsl hpre hne
  exact ⟨x, s', by rw [bind_ok hk]; exact h1, h2⟩

theorem Safe.peek {β : Type} {g : Bool → M (Bool × β)} (h : ∀ c, Safe (g c)) : Safe (peekBit >>= g) := by
  intro s hwf hp hsl
  have hb := hwf.bit
  have hp' := hp
  simp only [BitStream.pos] at hp'
  simp only [Slack] at hsl
  have hk := peekBit_run hb (show s.currentByte < s.buf.length by omega)
  obtain ⟨x, s', h1, h2⟩ := h (bitAt s.buf s.pos) s hwf hp hsl
  exact ⟨x, s', by rw [bind_ok hk]; exact h1, h2⟩

/-- First bit of a two's complement number: its sign. -/
theorem twos_head {v : Int} {k : Nat} (hk : 1 ≤ k) (h1 : -(2 ^ (8 * k - 1) : Int) ≤ v) (h2 : v < 2 ^ (8 * k - 1)) :
    ∃ w, bitsMsb (8 * k) (v % 2 ^ (8 * k)).toNat = decide (v < 0) :: w := by
  obtain ⟨n, hn⟩ : ∃ n, 8 * k = n + 1 := ⟨8 * k - 1, by omega⟩
  rw [hn] at h1 h2 ⊢
  rw [Nat.add_sub_cancel] at h1 h2
  rw [bitsMsb_succ]
  refine ⟨bitsMsb n (v % 2 ^ (n + 1)).toNat, ?_⟩
  congr 1
  have hp : ((2 ^ n : Nat) : Int) = 2 ^ n := by norm_cast
  have hp2 : (2 : Int) ^ (n + 1) = ((2 ^ n : Nat) : Int) * 2 := by rw [Int.pow_succ, hp]
  rw [← hp] at h1 h2
  rw [hp2]
  by_cases h : v < 0
  · have e : v % (((2 ^ n : Nat) : Int) * 2) = v + ((2 ^ n : Nat) : Int) * 2 := by
      rw [← Int.add_emod_right, Int.emod_eq_of_lt (by omega) (by omega)]
    rw [e]
    generalize hP : 2 ^ n = P at *
    have e2 : (v + (P : Int) * 2).toNat = 2 ^ n * 1 + (v + P).toNat := by omega
    rw [e2, Nat.testBit_two_pow_mul_add _ (by omega)]
    simp [h]
  · have e : v % (((2 ^ n : Nat) : Int) * 2) = v := Int.emod_eq_of_lt (by omega) (by omega)
    rw [e, Nat.testBit_lt_two_pow (by omega)]
    simp [h]

theorem allOnes_ofNat : 0xFFFFFFFFFFFFFFFF#64 = BitVec.ofNat 64 (2 ^ 64 - 1) := rfl

/-- Accumulating `k` octets onto all-ones or zero gives the signed value. -/
theorem twos_value {v : Int} {k : Nat} (hk : 1 ≤ k) (hk8 : k ≤ 8) (h1 : -(2 ^ (8 * k - 1) : Int) ≤ v) (h2 : v < 2 ^ (8 * k - 1)) :
    (BitVec.ofNat 64 ((if decide (v < 0) = true then 2 ^ 64 - 1 else 0) * 2 ^ (8 * k) + (v % 2 ^ (8 * k)).toNat)).toInt = v := by
  have hk' : k = 1 ∨ k = 2 ∨ k = 3 ∨ k = 4 ∨ k = 5 ∨ k = 6 ∨ k = 7 ∨ k = 8 := by omega
  simp only [BitVec.toInt, BitVec.toNat_ofNat, decide_eq_true_eq]
  rcases hk' with h | h | h | h | h | h | h | h <;> subst h <;>
  (simp only [Nat.reduceMul, Nat.reduceSub, Nat.reducePow, Int.reducePow] at h1 h2 ⊢
   split <;> split <;> omega)

theorem decodeUnConstraintWholeNumber_reads {v : Int} (h1 : -(2 ^ 63) ≤ v) (h2 : v < 2 ^ 63) :
    Reads decodeUnConstraintWholeNumber (true, v) (lengthPrefixedInt v) ∧
    Short decodeUnConstraintWholeNumber (lengthPrefixedInt v) := by
  unfold decodeUnConstraintWholeNumber lengthPrefixedInt
  have h8 := (octetsInt_le_iff v 8 (by omega)).2 (by omega)
  have hpos := octetsInt_pos v
  obtain ⟨f1, f2⟩ := (octetsInt_le_iff v _ hpos).1 (Nat.le_refl _)
  have hmodlt : (v % 2 ^ (8 * octetsInt v)).toNat < 2 ^ (8 * octetsInt v) := by
    have hnat : ((2 ^ (8 * octetsInt v) : Nat) : Int) = 2 ^ (8 * octetsInt v) := by norm_cast
    rw [← hnat]
    have hp : 0 < 2 ^ (8 * octetsInt v) := Nat.two_pow_pos _
    have := Int.emod_lt_of_pos v (b := ((2 ^ (8 * octetsInt v) : Nat) : Int)) (by omega)
    omega
  obtain ⟨r1, s1⟩ := lengthOctet_reads (n := octetsInt v) (by omega)
  have hinit : ∀ c : Bool, (if c = true then 0xFFFFFFFFFFFFFFFF#64 else 0#64) = BitVec.ofNat 64 (if c = true then 2 ^ 64 - 1 else 0) := by
    intro c; cases c <;> rfl
  obtain ⟨w, hw⟩ := twos_head hpos f1 f2
  constructor
  · refine r1.bind ?_
    rw [if_pos rfl, if_neg (by show ¬ ((octetsInt v : Int) > 8); omega)]
    simp only [Int.toNat_natCast]
    rw [hw]
    apply Reads.peek
    rw [← hw, hinit]
    obtain ⟨r2, _⟩ := decodeBytesLoop_reads (octetsInt v) (if decide (v < 0) = true then 2 ^ 64 - 1 else 0) _ hmodlt
    have := r2.map (h := fun r : Bool × U64 => (r.1, r.2.toInt))
    simp only [twos_value hpos h8 f1 f2] at this
    exact this
  · refine s1.bind r1 ?_ (fun a => ⟨0, by rw [if_neg (by simp)]⟩)
    rw [if_pos rfl, if_neg (by show ¬ ((octetsInt v : Int) > 8); omega)]
    simp only [Int.toNat_natCast]
    apply Short.peek
    intro c
    rw [hinit]
    obtain ⟨_, s2⟩ := decodeBytesLoop_reads (octetsInt v) (if c = true then 2 ^ 64 - 1 else 0) _ hmodlt
    exact s2.map (h := fun r => (r.1, r.2.toInt)) (fun _ h => h)

theorem decodeUnConstraintWholeNumber_safe : Safe decodeUnConstraintWholeNumber := by
  unfold decodeUnConstraintWholeNumber
  refine lengthOctet_safe.bind (fun a => ?_) (fun a => ⟨0, by rw [if_neg (by simp)]⟩)
  rw [if_pos rfl]
  refine Safe.ite (fun _ => Safe.pure _ _) (fun _ => ?_)
  apply Safe.peek
  intro c
  exact (decodeBytesLoop_safe _ _).map (h := fun r => (r.1, r.2.toInt)) (fun _ h => h)

/-! ### conversions -/

theorem int2uint_eq {v : Int} (h1 : -(2 ^ 63) < v) : int2uint v = pure (BitVec.ofInt 64 v) ∨ ¬ v < 2 ^ 63 := by
  by_cases h2 : v < 2 ^ 63
  · left
    unfold int2uint
    split
    · rw [negMinusOne_ok h1 (by omega), pure_bind]
      congr 1
      apply BitVec.eq_of_toNat_eq
      rw [BitVec.toNat_not, BitVec.toNat_ofInt, BitVec.toNat_ofInt]
      omega
    · rfl
  · right; exact h2

theorem berAux_get {i : Nat} (h : i < 8) : ∃ m, berAux[i]? = some m ∧ ∀ j, j < 64 → m.getLsbD j = decide (8 * i ≤ j ∧ j < 8 * i + 8) := by
  have : ∀ i, i < 8 → ∀ j, j < 64 → (berAux[i]?.getD 0#64).getLsbD j = decide (8 * i ≤ j ∧ j < 8 * i + 8) := by decide
  have hl : i < berAux.length := by simpa [berAux] using h
  refine ⟨berAux[i], List.getElem?_eq_getElem hl, ?_⟩
  intro j hj
  have := this i h j hj
  rw [List.getElem?_eq_getElem hl] at this
  exact this

theorem uint2intLoop_eq (m : Nat) : ∀ (i : Nat) (v : U64), i < 8 → m ≤ i + 1 →
    ∃ r, uint2intLoop m i v = pure r ∧ ∀ j, j < 64 → r.getLsbD j = (v.getLsbD j || decide (8 * (i + 1 - m) ≤ j ∧ j < 8 * (i + 1))) := by
  induction m with
  | zero =>
    intro i v _ _
    refine ⟨v, rfl, ?_⟩
    intro j _
    have : ¬ (8 * (i + 1 - 0) ≤ j ∧ j < 8 * (i + 1)) := by omega
    rw [decide_eq_false this, Bool.or_false]
  | succ m ih =>
    intro i v hi hm
    obtain ⟨a, ha, hab⟩ := berAux_get hi
    have e : tblGet berAux i = pure a := by funext s; simp [tblGet, ha]
    by_cases h0 : m = 0
    · subst h0
      refine ⟨v ||| a, ?_, ?_⟩
      · simp only [uint2intLoop]; rw [e, pure_bind]
      · intro j hj
        rw [BitVec.getLsbD_or, hab j hj]
        congr 2
    · obtain ⟨r, hr, hb⟩ := ih (i - 1) (v ||| a) (by omega) (by omega)
      refine ⟨r, ?_, ?_⟩
      · simp only [uint2intLoop]; rw [e, pure_bind, hr]
      · intro j hj
        rw [hb j hj, BitVec.getLsbD_or, hab j hj, Bool.or_assoc]
        congr 1
        rw [Bool.eq_iff_iff]
        simp only [Bool.or_eq_true, decide_eq_true_eq]
        omega

/-- `uint2int` on the low `n` octets: the two's complement reading. -/
theorem uint2int_eq {u : U64} {n : Nat} (hn : 1 ≤ n) (hn8 : n ≤ 8) :
    (u.toNat < 2 ^ (8 * n - 1) → uint2int u n = pure (u.toNat : Int)) ∧
    (2 ^ (8 * n - 1) ≤ u.toNat % 2 ^ (8 * n) → uint2int u n = pure ((u.toNat % 2 ^ (8 * n) : Nat) - 2 ^ (8 * n) : Int)) := by
  have hneg : decide (u &&& (0x80#64 <<< ((n - 1) * 8)) > 0#64) = u.getLsbD (8 * n - 1) := by
    have hm : ∀ j, j < 64 → (0x80#64 <<< ((n - 1) * 8)).getLsbD j = decide (j = 8 * n - 1) := by
      have hk' : n = 1 ∨ n = 2 ∨ n = 3 ∨ n = 4 ∨ n = 5 ∨ n = 6 ∨ n = 7 ∨ n = 8 := by omega
      rcases hk' with h | h | h | h | h | h | h | h <;> subst h <;> decide
    cases hb : u.getLsbD (8 * n - 1)
    · have : u &&& (0x80#64 <<< ((n - 1) * 8)) = 0#64 := by
        apply BitVec.eq_of_getLsbD_eq
        intro j hj
        rw [BitVec.getLsbD_and, hm j hj]
        by_cases e : j = 8 * n - 1
        · subst e; simp [hb]
        · simp [e]
      rw [this]; simp
    · have : u &&& (0x80#64 <<< ((n - 1) * 8)) ≠ 0#64 := by
        intro h
        have := congrArg (fun x => x.getLsbD (8 * n - 1)) h
        simp only [BitVec.getLsbD_and, hm (8 * n - 1) (by omega), hb] at this
        simp at this
      simp only [gt_iff_lt, decide_eq_true_eq, BitVec.lt_def]
      have h2 : (u &&& (0x80#64 <<< ((n - 1) * 8))).toNat ≠ 0 := fun h => this (BitVec.eq_of_toNat_eq h)
      show 0 < _
      omega
  have hbit : u.getLsbD (8 * n - 1) = (u.toNat % 2 ^ (8 * n)).testBit (8 * n - 1) := by
    rw [Nat.testBit_mod_two_pow]; simp [BitVec.getLsbD, show 8 * n - 1 < 8 * n by omega]
  unfold uint2int
  rw [if_neg (by omega)]
  simp only [hneg]
  constructor
  · intro h
    have hb : u.getLsbD (8 * n - 1) = false := by
      rw [BitVec.getLsbD]; exact Nat.testBit_lt_two_pow h
    rw [hb]
    simp only [Bool.not_false, if_true]
    have : (2 : Nat) ^ (8 * n - 1) ≤ 2 ^ 63 := Nat.pow_le_pow_right (by omega) (by omega)
    rw [BitVec.toInt_eq_toNat_of_lt (by omega)]
  · intro h
    have hL : u.toNat % 2 ^ (8 * n) < 2 ^ (8 * n) := Nat.mod_lt _ (Nat.two_pow_pos _)
    have hpow : (2 : Nat) ^ (8 * n) = 2 * 2 ^ (8 * n - 1) := by
      rw [← Nat.pow_succ']; congr 1; omega
    have hb : u.getLsbD (8 * n - 1) = true := by
      rw [hbit]
      have : u.toNat % 2 ^ (8 * n) = 2 ^ (8 * n - 1) * 1 + (u.toNat % 2 ^ (8 * n) - 2 ^ (8 * n - 1)) := by omega
      rw [this, Nat.testBit_two_pow_mul_add _ (by omega)]
      simp
    rw [hb]
    simp only [Bool.not_true, Bool.false_eq_true, if_false]
    obtain ⟨r, hr, hrb⟩ := uint2intLoop_eq (8 - n) 7 u (by omega) (by omega)
    rw [hr, pure_bind]
    have hrn : r.toNat = 2 ^ (8 * n) * (2 ^ (64 - 8 * n) - 1) + u.toNat % 2 ^ (8 * n) := by
      apply Nat.eq_of_testBit_eq
      intro j
      rw [Nat.testBit_two_pow_mul_add _ hL, Nat.testBit_mod_two_pow]
      by_cases hj : j < 64
      · have := hrb j hj
        simp only [BitVec.getLsbD] at this
        rw [this]
        by_cases hj2 : j < 8 * n
        · simp only [hj2, if_true, decide_true, Bool.true_and]
          have : ¬ (8 * (7 + 1 - (8 - n)) ≤ j ∧ j < 8 * (7 + 1)) := by omega
          simp [this]
        · have h3 : (8 * (7 + 1 - (8 - n)) ≤ j ∧ j < 8 * (7 + 1)) := by omega
          simp only [hj2, if_false, h3, and_self, decide_true, Bool.or_true]
          rw [Nat.testBit_two_pow_sub_one]
          simp; omega
      · rw [Nat.testBit_lt_two_pow (Nat.lt_of_lt_of_le r.isLt (Nat.pow_le_pow_right (by omega) (by omega)))]
        rw [if_neg (by omega), Nat.testBit_two_pow_sub_one]
        simp; omega
    have hprod : 2 ^ (8 * n) * (2 ^ (64 - 8 * n) - 1) + 2 ^ (8 * n) = 2 ^ 64 := by
      rw [Nat.mul_sub, ← Nat.pow_add, show 8 * n + (64 - 8 * n) = 64 by omega]
      have : (2 : Nat) ^ (8 * n) ≤ 2 ^ 64 := Nat.pow_le_pow_right (by omega) (by omega)
      omega
    have hp63 : (2 : Nat) ^ (8 * n - 1) ≤ 2 ^ 63 := Nat.pow_le_pow_right (by omega) (by omega)
    have hnat : (2 : Int) ^ (8 * n) = ((2 ^ (8 * n) : Nat) : Int) := by norm_cast
    have hnr : (~~~r).toNat = 2 ^ (8 * n) - 1 - u.toNat % 2 ^ (8 * n) := by
      rw [BitVec.toNat_not]; omega
    have hti : (~~~r).toInt = ((2 ^ (8 * n) - 1 - u.toNat % 2 ^ (8 * n) : Nat) : Int) := by
      rw [BitVec.toInt_eq_toNat_of_lt (by omega), hnr]
    rw [hti, hnat, chk_ok (by omega), pure_bind, chk_ok (by omega)]
    congr 1; omega

end Asn1
