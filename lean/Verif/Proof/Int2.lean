import Verif.Proof.Int1
import Verif.Proof.DecRules
/-! Decoding of non-negative integers; constrained, semi-constrained and unconstrained whole numbers. -/
namespace Asn1

theorem shl_or {w a b n : Nat} (h : b < 2 ^ n) :
    (BitVec.ofNat w a <<< n) ||| BitVec.ofNat w b = BitVec.ofNat w (a * 2 ^ n + b) := by
  apply BitVec.eq_of_getLsbD_eq
  intro i hi
  simp only [BitVec.getLsbD_or, BitVec.getLsbD_shiftLeft, BitVec.getLsbD_ofNat, hi, decide_true, Bool.true_and]
  rw [Nat.mul_comm, Nat.testBit_two_pow_mul_add _ h]
  by_cases hn : i < n
  · simp [hn]
  · have : i - n < w := by omega
    simp only [hn, decide_false, Bool.not_false, Bool.true_and, this, decide_true, if_false]
    rw [Nat.testBit_lt_two_pow (Nat.lt_of_lt_of_le h (Nat.pow_le_pow_right (by omega) (by omega)))]
    simp

theorem setWidth_ofNat {w : Nat} (b : Byte) : b.setWidth w = BitVec.ofNat w b.toNat := by
  apply BitVec.eq_of_toNat_eq; simp

/-- Splitting off the first byte of an 8*(k+1)-bit number. -/
theorem split_byte {u k : Nat} (h : u < 2 ^ (8 * (k + 1))) :
    ∃ b : Byte, b.toNat = u >>> (8 * k) ∧ byteBits b ++ bitsMsb (8 * k) (u % 2 ^ (8 * k)) = bitsMsb (8 * (k + 1)) u := by
  have hlt : u >>> (8 * k) < 2 ^ 8 := by
    rw [Nat.shiftRight_eq_div_pow, Nat.div_lt_iff_lt_mul (Nat.two_pow_pos _), ← Nat.pow_add]
    rw [show 8 + 8 * k = 8 * (k + 1) by omega]; exact h
  refine ⟨BitVec.ofNat 8 (u >>> (8 * k)), ?_, ?_⟩
  · rw [BitVec.toNat_ofNat, Nat.mod_eq_of_lt hlt]
  · rw [byteBits, BitVec.toNat_ofNat, Nat.mod_eq_of_lt hlt, bitsMsb_mod, ← bitsMsb_append]
    congr 1; omega

theorem recombine (a u n m : Nat) : (a * 2 ^ n + u >>> m) * 2 ^ m + u % 2 ^ m = a * 2 ^ (n + m) + u := by
  rw [Nat.shiftRight_eq_div_pow, Nat.add_mul, Nat.pow_add, Nat.mul_assoc, Nat.add_assoc]
  have := Nat.div_add_mod u (2 ^ m)
  rw [Nat.mul_comm] at this
  rw [this]

theorem decodeNN32Bytes_reads (k : Nat) : ∀ (a u : Nat), u < 2 ^ (8 * k) →
    Reads (decodeNN32Bytes k (BitVec.ofNat 32 a)) (true, BitVec.ofNat 32 (a * 2 ^ (8 * k) + u)) (bitsMsb (8 * k) u) := by
  induction k with
  | zero =>
    intro a u h
    have : u = 0 := by omega
    subst this
    simpa [decodeNN32Bytes, bitsMsb_zero_width] using Reads.pure (true, BitVec.ofNat 32 a)
  | succ k ih =>
    intro a u h
    obtain ⟨b, hb, hbits⟩ := split_byte h
    rw [← hbits]
    simp only [decodeNN32Bytes]
    refine Reads.ifOk (g := fun x => decodeNN32Bytes k (BitVec.ofNat 32 a <<< 8 ||| x.setWidth 32)) (readByte_reads b) ?_
    rw [setWidth_ofNat, shl_or b.isLt, hb]
    have := ih (a * 2 ^ 8 + u >>> (8 * k)) (u % 2 ^ (8 * k)) (Nat.mod_lt _ (Nat.two_pow_pos _))
    rw [recombine, show 8 + 8 * k = 8 * (k + 1) by omega] at this
    exact this

theorem decodeNN32Bytes_safe (k : Nat) : ∀ v, Safe (decodeNN32Bytes k v) := by
  induction k with
  | zero => intro v; exact Safe.pure true v
  | succ k ih =>
    intro v
    exact Safe.ifOk (g := fun x => decodeNN32Bytes k (v <<< 8 ||| x.setWidth 32)) readByte_safe (fun a => ih _)

theorem decodeNN32Bytes_short (k : Nat) : ∀ (a u : Nat), u < 2 ^ (8 * k) →
    Short (decodeNN32Bytes k (BitVec.ofNat 32 a)) (bitsMsb (8 * k) u) := by
  induction k with
  | zero => intro a u _; exact Short.nil _
  | succ k ih =>
    intro a u h
    obtain ⟨b, hb, hbits⟩ := split_byte h
    rw [← hbits]
    simp only [decodeNN32Bytes]
    refine Short.ifOk (g := fun x => decodeNN32Bytes k (BitVec.ofNat 32 a <<< 8 ||| x.setWidth 32))
      (readByte_needs.short (by simp)) (readByte_reads b) ?_
    rw [setWidth_ofNat, shl_or b.isLt]
    exact ih _ _ (Nat.mod_lt _ (Nat.two_pow_pos _))

theorem decodeNonNegativeInteger32Neg_reads {w v : Nat} (hv : v < 2 ^ w) :
    Reads (decodeNonNegativeInteger32Neg w) (true, BitVec.ofNat 32 v) (bitsMsb w v) ∧
    Short (decodeNonNegativeInteger32Neg w) (bitsMsb w v) := by
  have hsplit : bitsMsb w v = bitsMsb (8 * (w / 8)) (v >>> (w % 8)) ++ bitsMsb (w % 8) (v % 2 ^ (w % 8)) := by
    rw [bitsMsb_mod, ← bitsMsb_append]; congr 1; omega
  have hu : v >>> (w % 8) < 2 ^ (8 * (w / 8)) := by
    rw [Nat.shiftRight_eq_div_pow, Nat.div_lt_iff_lt_mul (Nat.two_pow_pos _), ← Nat.pow_add]
    rw [show 8 * (w / 8) + w % 8 = w by omega]; exact hv
  have h1 := decodeNN32Bytes_reads (w / 8) 0 (v >>> (w % 8)) hu
  have h1s := decodeNN32Bytes_short (w / 8) 0 (v >>> (w % 8)) hu
  rw [Nat.zero_mul, Nat.zero_add] at h1
  have hlt : v % 2 ^ (w % 8) < 2 ^ (w % 8) := Nat.mod_lt _ (Nat.two_pow_pos _)
  have hlt8 : v % 2 ^ (w % 8) < 2 ^ 8 := Nat.lt_of_lt_of_le hlt (Nat.pow_le_pow_right (by omega) (by omega))
  have hb : (BitVec.ofNat 8 (v % 2 ^ (w % 8))).toNat = v % 2 ^ (w % 8) := by
    rw [BitVec.toNat_ofNat, Nat.mod_eq_of_lt hlt8]
  have hval : (BitVec.ofNat 32 (v >>> (w % 8)) <<< (w % 8)) ||| (BitVec.ofNat 8 (v % 2 ^ (w % 8))).setWidth 32 = BitVec.ofNat 32 v := by
    rw [setWidth_ofNat, hb, shl_or hlt]
    have := recombine 0 v 0 (w % 8)
    simp only [Nat.zero_mul, Nat.zero_add] at this
    rw [this]
  unfold decodeNonNegativeInteger32Neg
  rw [hsplit]
  by_cases h0 : w % 8 = 0
  · have e1 : bitsMsb (w % 8) (v % 2 ^ (w % 8)) = [] := by rw [h0]; rfl
    rw [e1]
    constructor
    · refine h1.bind ?_
      rw [if_pos rfl, if_neg (not_not_intro h0), h0, Nat.shiftRight_zero]
      exact Reads.pure _
    · exact h1s.bind h1 (Short.nil _) (fun a => ⟨a, by rw [if_neg (by simp)]⟩)
  · have h2 := readPartialByte_reads (v := BitVec.ofNat 8 (v % 2 ^ (w % 8))) (n := w % 8) (by omega) (by omega)
        (by rw [hb]; exact hlt)
    rw [hb] at h2
    have h2s := (readPartialByte_needs (n := w % 8) (by omega)).short (w := bitsMsb (w % 8) (v % 2 ^ (w % 8))) (by simp)
    constructor
    · refine h1.bind ?_
      rw [if_pos rfl, if_pos h0, ← List.append_nil (bitsMsb (w % 8) _)]
      refine h2.bind ?_
      rw [if_pos rfl, hval]
      exact Reads.pure _
    · refine h1s.bind h1 ?_ (fun a => ⟨a, by rw [if_neg (by simp)]⟩)
      rw [if_pos rfl, if_pos h0, ← List.append_nil (bitsMsb (w % 8) _)]
      exact h2s.bind h2 (Short.nil _) (fun a => ⟨_, by rw [if_neg (by simp)]⟩)

theorem decodeNonNegativeInteger32Neg_safe (w : Nat) : Safe (decodeNonNegativeInteger32Neg w) := by
  unfold decodeNonNegativeInteger32Neg
  refine (decodeNN32Bytes_safe _ _).bind (fun a => ?_) (fun a => ⟨a, by rw [if_neg (by simp)]⟩)
  rw [if_pos rfl]
  refine Safe.ite (fun _ => ?_) (fun _ => Safe.pure _ _)
  refine (readPartialByte_safe (by omega)).bind (fun b => ?_) (fun b => ⟨_, by rw [if_neg (by simp)]⟩)
  rw [if_pos rfl]
  exact Safe.pure _ _

theorem setWidth64_ofNat {v : Nat} (h : v < 2 ^ 32) : (BitVec.ofNat 32 v).setWidth 64 = BitVec.ofNat 64 v := by
  apply BitVec.eq_of_toNat_eq
  simp only [BitVec.toNat_setWidth, BitVec.toNat_ofNat]
  rw [Nat.mod_eq_of_lt h]

theorem decodeNonNegativeInteger_eq (w : Nat) (hw : 32 < w) (hw2 : w ≤ 64) :
    decodeNonNegativeInteger w = (decodeNonNegativeInteger32Neg 32 >>= fun h =>
      if h.1 = true then (decodeNonNegativeInteger32Neg (w - 32) >>= fun l =>
        pure (l.1, ((h.2.setWidth 64) <<< (w - 32)) ||| l.2.setWidth 64))
      else pure (false, (h.2.setWidth 64) <<< (w - 32))) := by
  unfold decodeNonNegativeInteger
  have : w - 32 < 64 := by omega
  simp only [this, if_true]
  rw [if_neg (by omega)]

theorem decodeNonNegativeInteger_reads {w v : Nat} (hw : w ≤ 64) (hv : v < 2 ^ w) :
    Reads (decodeNonNegativeInteger w) (true, BitVec.ofNat 64 v) (bitsMsb w v) ∧
    Short (decodeNonNegativeInteger w) (bitsMsb w v) := by
  by_cases h32 : w ≤ 32
  · obtain ⟨h, hs⟩ := decodeNonNegativeInteger32Neg_reads hv
    unfold decodeNonNegativeInteger
    rw [if_pos h32]
    constructor
    · have := h.map (h := fun r : Bool × U32 => (r.1, r.2.setWidth 64))
      rw [setWidth64_ofNat (Nat.lt_of_lt_of_le hv (Nat.pow_le_pow_right (by omega) h32))] at this
      exact this
    · exact hs.map (h := fun r => (r.1, r.2.setWidth 64)) (fun _ h => h)
  · have hsplit : bitsMsb w v = bitsMsb 32 (v >>> (w - 32)) ++ bitsMsb (w - 32) (v % 2 ^ (w - 32)) := by
      rw [bitsMsb_mod, ← bitsMsb_append]; congr 1; omega
    have hu : v >>> (w - 32) < 2 ^ 32 := by
      rw [Nat.shiftRight_eq_div_pow, Nat.div_lt_iff_lt_mul (Nat.two_pow_pos _), ← Nat.pow_add]
      rw [show 32 + (w - 32) = w by omega]; exact hv
    have hlt : v % 2 ^ (w - 32) < 2 ^ (w - 32) := Nat.mod_lt _ (Nat.two_pow_pos _)
    have hlt32 : v % 2 ^ (w - 32) < 2 ^ 32 := Nat.lt_of_lt_of_le hlt (Nat.pow_le_pow_right (by omega) (by omega))
    obtain ⟨h1, h1s⟩ := decodeNonNegativeInteger32Neg_reads (w := 32) (v := v >>> (w - 32)) hu
    obtain ⟨h2, h2s⟩ := decodeNonNegativeInteger32Neg_reads (w := w - 32) (v := v % 2 ^ (w - 32)) hlt
    have hval : ((BitVec.ofNat 32 (v >>> (w - 32))).setWidth 64) <<< (w - 32) ||| (BitVec.ofNat 32 (v % 2 ^ (w - 32))).setWidth 64
        = BitVec.ofNat 64 v := by
      rw [setWidth64_ofNat hu, setWidth64_ofNat hlt32, shl_or hlt]
      have := recombine 0 v 0 (w - 32)
      simp only [Nat.zero_mul, Nat.zero_add] at this
      rw [this]
    rw [decodeNonNegativeInteger_eq w (by omega) hw, hsplit]
    constructor
    · refine h1.bind ?_
      rw [if_pos rfl]
      have := h2.map (h := fun l : Bool × U32 => (l.1, (((BitVec.ofNat 32 (v >>> (w - 32))).setWidth 64) <<< (w - 32)) ||| l.2.setWidth 64))
      rw [hval] at this
      exact this
    · refine h1s.bind h1 ?_ (fun a => ⟨_, by rw [if_neg (by simp)]⟩)
      rw [if_pos rfl]
      exact h2s.map (h := fun l => (l.1, (((BitVec.ofNat 32 (v >>> (w - 32))).setWidth 64) <<< (w - 32)) ||| l.2.setWidth 64))
        (fun _ h => h)

theorem decodeNonNegativeInteger_safe {w : Nat} (hw : w ≤ 64) : Safe (decodeNonNegativeInteger w) := by
  by_cases h32 : w ≤ 32
  · unfold decodeNonNegativeInteger
    rw [if_pos h32]
    exact (decodeNonNegativeInteger32Neg_safe w).map (h := fun r => (r.1, r.2.setWidth 64)) (fun _ h => h)
  · rw [decodeNonNegativeInteger_eq w (by omega) hw]
    refine (decodeNonNegativeInteger32Neg_safe _).bind (fun a => ?_) (fun a => ⟨_, by rw [if_neg (by simp)]⟩)
    rw [if_pos rfl]
    exact (decodeNonNegativeInteger32Neg_safe _).map (h := fun l => (l.1, ((a.setWidth 64) <<< (w - 32)) ||| l.2.setWidth 64))
        (fun _ h => h)

end Asn1
