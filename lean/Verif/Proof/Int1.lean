import Verif.Model.Integer
import Verif.Proof.Read
/-! The non-negative integer primitives. -/
namespace Asn1

theorem bitLen_le_iff (v k : Nat) : bitLen v ≤ k ↔ v < 2 ^ k := by
  unfold bitLen
  split
  · rename_i h; subst h; simp [Nat.two_pow_pos]
  · rename_i h
    rw [Nat.succ_le_iff, Nat.log2_lt h]

theorem lt_two_pow_bitLen (v : Nat) : v < 2 ^ bitLen v := (bitLen_le_iff v _).1 (Nat.le_refl _)

theorem bitLen_eq {v k : Nat} (h1 : v < 2 ^ (k + 1)) (h2 : 2 ^ k ≤ v) : bitLen v = k + 1 := by
  have a := (bitLen_le_iff v (k + 1)).2 h1
  have b : ¬ bitLen v ≤ k := by rw [bitLen_le_iff]; omega
  omega

theorem bitLen_mono {a b : Nat} (h : a ≤ b) : bitLen a ≤ bitLen b := by
  rw [bitLen_le_iff]; exact Nat.lt_of_le_of_lt h (lt_two_pow_bitLen b)

theorem bitLen_shift {v k : Nat} (h : 2 ^ k ≤ v) : bitLen v = k + bitLen (v / 2 ^ k) := by
  have hlt := lt_two_pow_bitLen (v / 2 ^ k)
  have hpos : 0 < v / 2 ^ k := Nat.div_pos h (Nat.two_pow_pos k)
  have hb : 0 < bitLen (v / 2 ^ k) := by
    have : ¬ bitLen (v / 2 ^ k) ≤ 0 := by rw [bitLen_le_iff]; omega
    omega
  obtain ⟨m, hm⟩ : ∃ m, bitLen (v / 2 ^ k) = m + 1 := ⟨bitLen (v / 2 ^ k) - 1, by omega⟩
  rw [hm] at hlt ⊢
  have hge : 2 ^ m ≤ v / 2 ^ k := by
    have : ¬ bitLen (v / 2 ^ k) ≤ m := by omega
    rw [bitLen_le_iff] at this; omega
  rw [← Nat.add_assoc]
  apply bitLen_eq
  · rw [Nat.div_lt_iff_lt_mul (Nat.two_pow_pos _), ← Nat.pow_add] at hlt
    rw [show k + m + 1 = m + 1 + k by omega]; exact hlt
  · rw [Nat.le_div_iff_mul_le (Nat.two_pow_pos _), ← Nat.pow_add] at hge
    rw [Nat.add_comm]; exact hge

theorem bitLen_half {v : Nat} (h : 0 < v) : bitLen v = 1 + bitLen (v / 2) := by
  by_cases h1 : v = 1
  · subst h1; decide
  · exact bitLen_shift (k := 1) (by omega)

theorem countBits_eq (fuel : Nat) : ∀ (v : U32) (ret : Nat), v.toNat < 2 ^ fuel →
    countBits fuel v ret = ret + bitLen v.toNat := by
  induction fuel with
  | zero =>
    intro v ret h
    have : v.toNat = 0 := by omega
    simp [countBits, this, bitLen]
  | succ n ih =>
    intro v ret h
    simp only [countBits]
    by_cases h0 : v > 0#32
    · have hv : 0 < v.toNat := by simpa [BitVec.lt_def] using h0
      rw [if_pos h0, ih _ _ (by rw [BitVec.toNat_ushiftRight, Nat.shiftRight_eq_div_pow]; rw [Nat.pow_succ] at h; omega)]
      rw [bitLen_half hv, BitVec.toNat_ushiftRight, Nat.shiftRight_eq_div_pow, Nat.pow_one]
      omega
    · have hv : v.toNat = 0 := by simp only [gt_iff_lt, BitVec.lt_def, BitVec.toNat_ofNat] at h0; omega
      rw [if_neg h0]; simp [hv, bitLen]

theorem getNumberOfBits32_eq (v : U32) : getNumberOfBits32 v = bitLen v.toNat := by
  have hlt := v.isLt
  have e : ∀ k, (v >>> k).toNat = v.toNat / 2 ^ k := by
    intro k; rw [BitVec.toNat_ushiftRight, Nat.shiftRight_eq_div_pow]
  simp only [getNumberOfBits32, BitVec.lt_def, BitVec.toNat_ofNat]
  split
  · rename_i h; rw [countBits_eq 8 _ _ (by omega)]; omega
  · split
    · rw [countBits_eq 8 _ _ (by rw [e]; omega), e, ← bitLen_shift (by omega)]
    · split
      · rw [countBits_eq 8 _ _ (by rw [e]; omega), e, ← bitLen_shift (by omega)]
      · rw [countBits_eq 8 _ _ (by rw [e]; omega), e, ← bitLen_shift (by omega)]

theorem setWidth32_toNat {v : U64} (h : v.toNat < 2 ^ 32) : (v.setWidth 32).toNat = v.toNat := by
  rw [BitVec.toNat_setWidth]; exact Nat.mod_eq_of_lt h

theorem hi32_toNat (v : U64) : ((v >>> 32).setWidth 32).toNat = v.toNat / 2 ^ 32 := by
  have := v.isLt
  rw [BitVec.toNat_setWidth, BitVec.toNat_ushiftRight, Nat.shiftRight_eq_div_pow, Nat.mod_eq_of_lt]
  omega

theorem getNumberOfBits_eq (v : U64) : getNumberOfBits v = bitLen v.toNat := by
  simp only [getNumberOfBits, BitVec.lt_def, BitVec.toNat_ofNat, getNumberOfBits32_eq]
  split
  · rename_i h; rw [setWidth32_toNat (by omega)]
  · rw [hi32_toNat, ← bitLen_shift (by omega)]

theorem and_two_pow_eq_zero {v : U32} {k : Nat} (hk : k < 32) (hlt : v.toNat < 2 ^ (k + 1)) :
    v &&& BitVec.ofNat 32 (2 ^ k) = 0#32 ↔ v.toNat < 2 ^ k := by
  have hm : (BitVec.ofNat 32 (2 ^ k)).toNat = 2 ^ k := by
    rw [BitVec.toNat_ofNat, Nat.mod_eq_of_lt (Nat.pow_lt_pow_right (by omega) hk)]
  have hp := Nat.two_pow_pos k
  have hd : v.toNat / 2 ^ k < 2 := by
    rw [Nat.div_lt_iff_lt_mul hp]; rw [Nat.pow_succ] at hlt; omega
  have hb : (v.toNat.testBit k).toNat = v.toNat / 2 ^ k := by
    rw [Nat.toNat_testBit, Nat.mod_eq_of_lt hd]
  constructor
  · intro h
    have := congrArg (fun x : U32 => x.toNat.testBit k) h
    simp only [BitVec.toNat_and, Nat.testBit_and, hm, Nat.testBit_two_pow_self, Bool.and_true] at this
    simp only [BitVec.toNat_ofNat, Nat.zero_mod, Nat.zero_testBit] at this
    rw [this] at hb
    have h0 : v.toNat / 2 ^ k = 0 := by rw [← hb]; rfl
    rw [Nat.div_eq_zero_iff] at h0; omega
  · intro h
    apply BitVec.eq_of_toNat_eq
    apply Nat.eq_of_testBit_eq
    intro i
    rw [BitVec.toNat_and, Nat.testBit_and, hm, Nat.testBit_two_pow]
    simp only [BitVec.toNat_ofNat, Nat.zero_mod, Nat.zero_testBit]
    by_cases e : k = i
    · subst e; rw [Nat.testBit_lt_two_pow h]; rfl
    · simp [e]

theorem findMsb_eq (fuel : Nat) : ∀ (v : U32) (k : Nat), k < 32 → fuel ≤ k + 1 → v.toNat < 2 ^ (k + 1) →
    2 ^ (k + 1 - fuel) ≤ v.toNat → findMsb fuel v (BitVec.ofNat 32 (2 ^ k)) (k + 1) = bitLen v.toNat := by
  induction fuel with
  | zero => intro v k _ _ h1 h2; simp at h2; omega
  | succ n ih =>
    intro v k hk hf h1 h2
    simp only [findMsb]
    by_cases h : v &&& BitVec.ofNat 32 (2 ^ k) = 0#32
    · rw [if_pos h]
      rw [and_two_pow_eq_zero hk h1] at h
      match k with
      | 0 =>
        have e : 0 + 1 - (n + 1) = 0 := by omega
        rw [e] at h2; simp at h h2; omega
      | k + 1 =>
        have e : BitVec.ofNat 32 (2 ^ (k + 1)) >>> 1 = BitVec.ofNat 32 (2 ^ k) := by
          apply BitVec.eq_of_toNat_eq
          have : 2 ^ (k + 1) < 2 ^ 32 := Nat.pow_lt_pow_right (by omega) hk
          rw [BitVec.toNat_ushiftRight, BitVec.toNat_ofNat, BitVec.toNat_ofNat, Nat.shiftRight_eq_div_pow,
            Nat.mod_eq_of_lt this, Nat.mod_eq_of_lt (by omega)]
          omega
        rw [e, Nat.add_sub_cancel, ih v k (by omega) (by omega) h
          (by rw [show k + 1 - n = k + 1 + 1 - (n + 1) by omega]; exact h2)]
    · rw [if_neg h]
      rw [and_two_pow_eq_zero hk h1] at h
      rw [bitLen_eq h1 (by omega)]

theorem cc_eq {v : U32} (h0 : v ≠ 0#32) :
    (if v < 0x100#32 then findMsb 8 v 0x80#32 8
    else if v < 0x10000#32 then findMsb 8 v 0x8000#32 16
    else if v < 0x1000000#32 then findMsb 8 v 0x800000#32 24
    else findMsb 8 v 0x80000000#32 32) = bitLen v.toNat := by
  have hlt := v.isLt
  have hv : v.toNat ≠ 0 := fun h => h0 (BitVec.eq_of_toNat_eq (by simpa using h))
  simp only [BitVec.lt_def, BitVec.toNat_ofNat]
  split
  · exact findMsb_eq 8 v 7 (by omega) (by omega) (by omega) (by omega)
  · split
    · exact findMsb_eq 8 v 15 (by omega) (by omega) (by omega) (by omega)
    · split
      · exact findMsb_eq 8 v 23 (by omega) (by omega) (by omega) (by omega)
      · exact findMsb_eq 8 v 31 (by omega) (by omega) (by omega) (by omega)

@[simp] theorem negBits_length (neg : Bool) (l : List Bool) : (negBits neg l).length = l.length := by
  cases neg <;> simp [negBits]
theorem negBits_append (neg : Bool) (l m : List Bool) : negBits neg (l ++ m) = negBits neg l ++ negBits neg m := by
  cases neg <;> simp [negBits]

theorem byteBits_negB (neg : Bool) (b : Byte) : byteBits (negB neg b) = negBits neg (byteBits b) := by
  cases neg
  · rfl
  · simp only [negB, negBits, if_true]
    apply List.ext_getElem?
    intro i
    by_cases h : i < 8
    · rw [byteBits_getElem? _ _ h, List.getElem?_map, byteBits_getElem? _ _ h, BitVec.getMsbD_not]
      simp [h]
    · rw [List.getElem?_eq_none (by simp; omega), List.getElem?_eq_none (by simp; omega)]

theorem bitsMsb_negP {neg : Bool} {n : Nat} {b : Byte} (hn : n ≤ 8) :
    bitsMsb n (negP neg n b).toNat = negBits neg (bitsMsb n b.toNat) := by
  cases neg
  · rfl
  · simp only [negP, negBits, if_true]
    apply List.ext_getElem?
    intro i
    by_cases h : i < n
    · have e1 := bitsMsb_byte_getD (v := BitVec.ofNat 8 (2 ^ n - 1) &&& ~~~b) (i := i) hn
      have e2 := bitsMsb_byte_getD (v := b) (i := i) hn
      rw [List.getElem?_map]
      rw [bitsMsb_getElem?, if_pos h] at e1 e2 ⊢
      rw [bitsMsb_getElem?, if_pos h]
      simp only [Option.getD_some] at e1 e2
      simp only [Option.map_some]
      rw [e1, e2, BitVec.getMsbD_and, BitVec.getMsbD_not, masksb_bit hn (by omega)]
      have h3 : 8 ≤ n + (8 - n + i) := by omega
      have h4 : 8 - n + i < 8 := by omega
      simp [h, h3, h4]
    · rw [List.getElem?_eq_none (by simp; omega), List.getElem?_eq_none (by simp; omega)]

/-- The byte cut out of a 32-bit number. -/
theorem mask2_byte {v : U32} {k : Nat} (hk : k < 4) {m : U32} (hm : masks2[k + 1]? = some m) :
    ((v &&& m) >>> (8 * k)).setWidth 8 = (v >>> (8 * k)).setWidth 8 := by
  have : m = 0xFF#32 <<< (8 * k) := by
    have h4 : k = 0 ∨ k = 1 ∨ k = 2 ∨ k = 3 := by omega
    rcases h4 with h | h | h | h <;> subst h <;> simp [masks2] at hm <;> rw [← hm] <;> decide
  subst this
  apply BitVec.eq_of_getLsbD_eq
  intro i hi
  have h255 : ∀ i, i < 8 → (0xFF#32).getLsbD i = true := by decide
  simp only [BitVec.getLsbD_setWidth, BitVec.getLsbD_ushiftRight, BitVec.getLsbD_and, BitVec.getLsbD_shiftLeft]
  have e1 : 8 * k + i < 32 := by omega
  have e2 : ¬ (8 * k + i < 8 * k) := by omega
  have e3 : 8 * k + i - 8 * k = i := by omega
  rw [e3, h255 i hi]
  simp [hi, e1]

theorem byteBits_setWidth {w : Nat} (v : BitVec w) : byteBits (v.setWidth 8) = bitsMsb 8 v.toNat := by
  rw [byteBits, BitVec.toNat_setWidth, bitsMsb_mod]

theorem encodeNN32Bytes_appends (v : U32) (neg : Bool) (k : Nat) (hk : k ≤ 4) :
    Appends (encodeNN32Bytes v neg k) () (negBits neg (bitsMsb (8 * k) v.toNat)) := by
  induction k with
  | zero =>
    have : negBits neg (bitsMsb (8 * 0) v.toNat) = [] := by cases neg <;> rfl
    rw [this]; exact Appends.pure ()
  | succ k ih =>
    have hm : masks2[k + 1]? = some (masks2[k + 1]'(by simp [masks2]; omega)) := List.getElem?_eq_getElem _
    have hb := mask2_byte (v := v) (by omega) hm
    intro s bs hs hroom
    simp only [encodeNN32Bytes]
    rw [tblGet_bind hm]
    have h := (appendByte_writes (((v &&& (masks2[k + 1]'(by simp [masks2]; omega))) >>> (8 * k)).setWidth 8) neg).appends.bind
      (g := fun _ => encodeNN32Bytes v neg k) (ih (by omega))
    rw [hb, byteBits_negB, byteBits_setWidth, BitVec.toNat_ushiftRight, ← negBits_append, ← bitsMsb_append] at h
    rw [← hb] at h
    exact h s bs hs (by rw [show 8 * (k + 1) = 8 + 8 * k by omega] at hroom; exact hroom) |> fun h' => by
      rw [show 8 * (k + 1) = 8 + 8 * k by omega]; exact h'

theorem encodeNonNegativeInteger32Neg_appends (v : U32) (neg : Bool) :
    Appends (encodeNonNegativeInteger32Neg v neg) () (negBits neg (bitsMsb (bitLen v.toNat) v.toNat)) := by
  unfold encodeNonNegativeInteger32Neg
  by_cases h0 : v = 0#32
  · rw [if_pos h0]
    have : negBits neg (bitsMsb (bitLen v.toNat) v.toNat) = [] := by subst h0; cases neg <;> decide
    rw [this]; exact Appends.pure ()
  · rw [if_neg h0, cc_eq h0]
    have hn : bitLen v.toNat ≤ 32 := (bitLen_le_iff _ _).2 v.isLt
    have hlt := lt_two_pow_bitLen v.toNat
    generalize bitLen v.toNat = n at hn hlt ⊢
    simp only []
    have hk : (n - n % 8) / 8 = n / 8 := by omega
    have hs : n - n % 8 = 8 * (n / 8) := by omega
    rw [hk, hs]
    have hb := encodeNN32Bytes_appends v neg (n / 8) (by omega)
    have split : negBits neg (bitsMsb n v.toNat) =
        negBits neg (bitsMsb (n % 8) (v.toNat >>> (8 * (n / 8)))) ++ negBits neg (bitsMsb (8 * (n / 8)) v.toNat) := by
      rw [← negBits_append, ← bitsMsb_append]; congr 2; omega
    rw [split]
    refine Appends.bind (a := ()) (g := fun _ => encodeNN32Bytes v neg (n / 8)) ?_ hb
    by_cases hp : n % 8 = 0
    · simp only [hp, ne_eq, not_true_eq_false, if_false]
      have : negBits neg (bitsMsb 0 (v.toNat >>> (8 * (n / 8)))) = [] := by cases neg <;> rfl
      rw [this]; exact Appends.pure ()
    · rw [if_pos hp]
      have hsm : v.toNat >>> (8 * (n / 8)) < 2 ^ (n % 8) := by
        rw [Nat.shiftRight_eq_div_pow, Nat.div_lt_iff_lt_mul (Nat.two_pow_pos _), ← Nat.pow_add]
        rw [show n % 8 + 8 * (n / 8) = n by omega]; exact hlt
      have hv : ((v >>> (8 * (n / 8))).setWidth 8).toNat = v.toNat >>> (8 * (n / 8)) := by
        rw [BitVec.toNat_setWidth, BitVec.toNat_ushiftRight, Nat.mod_eq_of_lt]
        exact Nat.lt_of_lt_of_le hsm (Nat.pow_le_pow_right (by omega) (by omega))
      have := appendPartialByte_appends (v := (v >>> (8 * (n / 8))).setWidth 8) (n := n % 8) (neg := neg) (by omega)
        (by omega) (Or.inr (by rw [hv]; exact hsm))
      rw [bitsMsb_negP (by omega), hv] at this
      exact this

theorem pad32 {lo : U32} : Appends (do
      appendNBitZero (32 - (getNumberOfBits (lo.setWidth 64) : Int))
      encodeNonNegativeInteger32Neg lo false) () (bitsMsb 32 lo.toNat) := by
  have e : (lo.setWidth 64).toNat = lo.toNat := by
    have := lo.isLt
    rw [BitVec.toNat_setWidth, Nat.mod_eq_of_lt]; omega
  have hn : bitLen lo.toNat ≤ 32 := (bitLen_le_iff _ _).2 lo.isLt
  rw [getNumberOfBits_eq, e]
  have h := (appendNBitZero_appends (32 - bitLen lo.toNat)).bind
    (g := fun _ => encodeNonNegativeInteger32Neg lo false) (encodeNonNegativeInteger32Neg_appends lo false)
  rw [show ((32 - bitLen lo.toNat : Nat) : Int) = 32 - (bitLen lo.toNat : Int) by omega] at h
  refine h.congr ?_
  simp only [negBits, Bool.false_eq_true, if_false]
  rw [← bitsMsb_pad _ _ _ (lt_two_pow_bitLen _)]
  congr 1; omega

theorem lo32_toNat (v : U64) : (v.setWidth 32).toNat = v.toNat % 2 ^ 32 := BitVec.toNat_setWidth ..

theorem encodeNonNegativeInteger_appends (v : U64) :
    Appends (encodeNonNegativeInteger v) () (bitsMsb (bitLen v.toNat) v.toNat) := by
  unfold encodeNonNegativeInteger
  by_cases h : v < 0x100000000#64
  · rw [if_pos h]
    have h' : v.toNat < 2 ^ 32 := by simpa [BitVec.lt_def] using h
    have := encodeNonNegativeInteger32Neg_appends (v.setWidth 32) false
    rw [setWidth32_toNat h'] at this
    exact this
  · rw [if_neg h]
    have h' : 2 ^ 32 ≤ v.toNat := by simpa [BitVec.lt_def] using h
    have := (encodeNonNegativeInteger32Neg_appends ((v >>> 32).setWidth 32) false).bind (g := fun _ => do
      appendNBitZero (32 - (getNumberOfBits ((v.setWidth 32).setWidth 64) : Int))
      encodeNonNegativeInteger32Neg (v.setWidth 32) false) (pad32 (lo := v.setWidth 32))
    refine this.congr ?_
    simp only [negBits, Bool.false_eq_true, if_false]
    rw [hi32_toNat, lo32_toNat, bitsMsb_mod, ← Nat.shiftRight_eq_div_pow, ← bitsMsb_append, Nat.shiftRight_eq_div_pow,
      Nat.add_comm, ← bitLen_shift h']

theorem bitsMsb_not32 (lo : U32) : bitsMsb 32 (~~~lo).toNat = (bitsMsb 32 lo.toNat).map (!·) := by
  apply List.ext_getElem?
  intro i
  rw [List.getElem?_map, bitsMsb_getElem?, bitsMsb_getElem?]
  split
  · simp only [Option.map_some]
    have : (~~~lo).getLsbD (32 - 1 - i) = !lo.getLsbD (32 - 1 - i) := by
      rw [BitVec.getLsbD_not]
      have : 32 - 1 - i < 32 := by omega
      simp [this]
    simp only [BitVec.getLsbD] at this
    rw [this]
  · rfl

theorem encodeNonNegativeIntegerNeg_appends (v : U64) (neg : Bool) :
    Appends (encodeNonNegativeIntegerNeg v neg) () (negBits neg (bitsMsb (bitLen v.toNat) v.toNat)) := by
  unfold encodeNonNegativeIntegerNeg
  by_cases h : v < 0x100000000#64
  · rw [if_pos h]
    have h' : v.toNat < 2 ^ 32 := by simpa [BitVec.lt_def] using h
    have := encodeNonNegativeInteger32Neg_appends (v.setWidth 32) neg
    rw [setWidth32_toNat h'] at this
    exact this
  · rw [if_neg h]
    have h' : 2 ^ 32 ≤ v.toNat := by simpa [BitVec.lt_def] using h
    have := (encodeNonNegativeInteger32Neg_appends ((v >>> 32).setWidth 32) neg).bind (g := fun _ => do
      appendNBitZero (32 - (getNumberOfBits ((if neg then ~~~(v.setWidth 32) else (v.setWidth 32 : U32)).setWidth 64) : Int))
      encodeNonNegativeInteger32Neg (if neg then ~~~(v.setWidth 32) else v.setWidth 32) false)
      (pad32 (lo := if neg then ~~~(v.setWidth 32) else v.setWidth 32))
    refine this.congr ?_
    have e : bitsMsb 32 (if neg then ~~~(v.setWidth 32) else (v.setWidth 32 : U32)).toNat =
        negBits neg (bitsMsb 32 v.toNat) := by
      have e0 : bitsMsb 32 (v.setWidth 32 : U32).toNat = bitsMsb 32 v.toNat := by rw [lo32_toNat, bitsMsb_mod]
      cases neg
      · exact e0
      · simp only [if_true, negBits]; rw [bitsMsb_not32, e0]
    rw [e, hi32_toNat, ← Nat.shiftRight_eq_div_pow, ← negBits_append, ← bitsMsb_append, Nat.shiftRight_eq_div_pow,
      Nat.add_comm, ← bitLen_shift h']

end Asn1
