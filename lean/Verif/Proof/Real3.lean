import Verif.Proof.Real2
import Verif.Proof.Strings
import Mathlib.Tactic.Ring
import Mathlib.Tactic.Positivity
import Mathlib.Tactic.FieldSimp
/-!
# REAL: values as rational numbers
-/
namespace Asn1

theorem doubleValue_make (s : Bool) {a q : Nat} (hq : q < 2 ^ 53) (ha : a = 0 ∨ 2 ^ 52 ≤ q) (hf : a ≤ 2045) :
    IsFinite (dblMake s (a * 2 ^ 52 + q)) ∧
    doubleValue (dblMake s (a * 2 ^ 52 + q)) = (if s then -1 else 1) * (q : ℚ) * (2 : ℚ) ^ ((a : ℤ) - 1074) := by
  have hb : a * 2 ^ 52 + q < 2 ^ 63 := by omega
  have ht := dblMake_toNat s hb
  have hs : ((dblMake s (a * 2 ^ 52 + q)).toNat / 2 ^ 63 = 1) ↔ s = true := by
    rw [ht]; cases s
    · rw [if_neg (by simp)]; simp; omega
    · rw [if_pos rfl]; simp; omega
  have hfr : (dblMake s (a * 2 ^ 52 + q)).toNat % 2 ^ 52 = q % 2 ^ 52 := by
    rw [ht]; split <;> omega
  have hex : (dblMake s (a * 2 ^ 52 + q)).toNat / 2 ^ 52 % 2 ^ 11 = a + q / 2 ^ 52 := by
    rw [ht]; split <;> omega
  unfold IsFinite doubleValue
  simp only [hs, hfr, hex]
  refine ⟨by omega, ?_⟩
  by_cases hq2 : q < 2 ^ 52
  · have : a = 0 := by omega
    subst this
    rw [if_pos (by omega), Nat.mod_eq_of_lt hq2]
    norm_num
  · have e1 : q / 2 ^ 52 = 1 := by omega
    have e2 : 2 ^ 52 + q % 2 ^ 52 = q := by omega
    rw [if_neg (by omega), e1, e2]
    congr 2
    push_cast
    ring

theorem mul_pow_toNat (m : Nat) {x y : Int} (h : y ≤ x) :
    ((m * 2 ^ (x - y).toNat : Nat) : ℚ) * (2 : ℚ) ^ y = (m : ℚ) * (2 : ℚ) ^ x := by
  push_cast
  rw [mul_assoc, ← zpow_natCast, ← zpow_add₀ (by norm_num), Int.toNat_of_nonneg (by omega)]
  congr 2
  omega

/-- The double of magnitude `exactMag m x` has the value `m * 2 ^ x`. -/
theorem exactMag_value (s : Bool) {m : Nat} {x : Int} (hm : 0 < m) (hm2 : m < 2 ^ 53) (hx : -1074 ≤ x)
    (hx2 : (Nat.log2 m : Int) + x ≤ 1023) :
    IsFinite (dblMake s (exactMag m x)) ∧
    doubleValue (dblMake s (exactMag m x)) = (if s then -1 else 1) * (m : ℚ) * (2 : ℚ) ^ x := by
  have hl := log2_le_52 hm hm2
  have hlt := shifted_lt (x := x) hm hm2
  have hp : lastPlace m x ≤ 971 ∧ -1074 ≤ lastPlace m x ∧ lastPlace m x ≤ x := by unfold lastPlace; omega
  have ha : (lastPlace m x + 1074).toNat = 0 ∨ 2 ^ 52 ≤ m * 2 ^ (x - lastPlace m x).toNat := by
    by_cases h : -1074 < lastPlace m x
    · exact Or.inr (shifted_ge hm hm2 h)
    · left; omega
  have he : exactMag m x = (lastPlace m x + 1074).toNat * 2 ^ 52 + m * 2 ^ (x - lastPlace m x).toNat := by
    unfold exactMag
    have : (lastPlace m x + 1074).toNat ≤ 2045 := by omega
    omega
  rw [he]
  obtain ⟨h1, h2⟩ := doubleValue_make s hlt ha (by omega)
  refine ⟨h1, ?_⟩
  rw [h2, show (((lastPlace m x + 1074).toNat : ℤ)) - 1074 = lastPlace m x by omega, mul_assoc,
    mul_pow_toNat m hp.2.2, mul_assoc]

theorem log2_add_le {m : Nat} {x : Int} (hm : 0 < m) (h : (m : ℚ) * (2 : ℚ) ^ x < (2 : ℚ) ^ (1024 : ℤ)) :
    (Nat.log2 m : Int) + x ≤ 1023 := by
  have h1 : ((2 ^ Nat.log2 m : Nat) : ℚ) ≤ m := by exact_mod_cast Nat.log2_self_le (n := m) (by omega)
  have h2 : (2 : ℚ) ^ ((Nat.log2 m : Int) + x) ≤ (m : ℚ) * (2 : ℚ) ^ x := by
    rw [zpow_add₀ (by norm_num), zpow_natCast]
    push_cast at h1
    exact mul_le_mul_of_nonneg_right h1 (zpow_nonneg (by norm_num) _)
  have h3 := lt_of_le_of_lt h2 h
  have := (zpow_lt_zpow_iff_right₀ (by norm_num : (1 : ℚ) < 2)).1 h3
  omega

theorem log2_add_ge {m : Nat} {x : Int} (h : (2 : ℚ) ^ (1024 : ℤ) ≤ (m : ℚ) * (2 : ℚ) ^ x) :
    1024 ≤ (Nat.log2 m : Int) + x := by
  have h1 : (m : ℚ) < ((2 ^ (Nat.log2 m + 1) : Nat) : ℚ) := by exact_mod_cast Nat.lt_log2_self (n := m)
  have h2 : (m : ℚ) * (2 : ℚ) ^ x < (2 : ℚ) ^ ((Nat.log2 m : Int) + 1 + x) := by
    rw [zpow_add₀ (by norm_num) ((Nat.log2 m : Int) + 1), show ((Nat.log2 m : Int) + 1) = ((Nat.log2 m + 1 : Nat) : Int) by push_cast; rfl, zpow_natCast]
    push_cast at h1
    exact mul_lt_mul_of_pos_right h1 (zpow_pos (by norm_num) _)
  have h3 := lt_of_le_of_lt h h2
  have := (zpow_lt_zpow_iff_right₀ (by norm_num : (1 : ℚ) < 2)).1 h3
  omega

theorem BinaryReal.value_eq (r : BinaryReal) :
    r.value = (if r.neg then -1 else 1) * ((r.mantissa * 2 ^ r.scale : Nat) : ℚ) * (2 : ℚ) ^ ((r.baseLog : ℤ) * r.exponent) := by
  unfold BinaryReal.value
  rw [zpow_mul, zpow_natCast]
  push_cast
  ring

theorem BinaryReal.abs_value (r : BinaryReal) :
    |r.value| = ((r.mantissa * 2 ^ r.scale : Nat) : ℚ) * (2 : ℚ) ^ ((r.baseLog : ℤ) * r.exponent) := by
  rw [r.value_eq, abs_mul, abs_mul]
  have h1 : |(if r.neg then -1 else 1 : ℚ)| = 1 := by split <;> simp
  rw [h1, one_mul, abs_of_nonneg (by positivity : (0 : ℚ) ≤ ((r.mantissa * 2 ^ r.scale : Nat) : ℚ)),
    abs_of_nonneg (zpow_nonneg (by norm_num) _)]

/-! ## Safety of the decoder -/

theorem shl8_toInt {e : BitVec 32} {b : Byte} {i : Nat} (hi : i ≤ 2) (h1 : -(2 ^ (8 * i) : Int) ≤ e.toInt)
    (h2 : e.toInt < 2 ^ (8 * i)) :
    -(2 ^ (8 * (i + 1)) : Int) ≤ ((e <<< 8) ||| b.setWidth 32).toInt ∧
      ((e <<< 8) ||| b.setWidth 32).toInt < 2 ^ (8 * (i + 1)) := by
  have hb := b.isLt
  have e1 : (e <<< 8) ||| b.setWidth 32 = BitVec.ofNat 32 (e.toNat * 2 ^ 8 + b.toNat) := by
    have := shl_or (w := 32) (a := e.toNat) (b := b.toNat) (n := 8) hb
    rw [BitVec.ofNat_toNat, BitVec.ofNat_toNat] at this
    simpa using this
  rw [e1]
  have he := e.isLt
  have hi' : i = 0 ∨ i = 1 ∨ i = 2 := by omega
  rcases hi' with h | h | h <;> subst h <;>
    simp only [Nat.reduceMul, Nat.reduceAdd, Int.reducePow, BitVec.toInt, BitVec.toNat_ofNat] at h1 h2 ⊢ <;>
    omega

theorem exponentLoop_post : ∀ (k i : Nat) (e : BitVec 32), i + k ≤ 3 → -(2 ^ (8 * i) : Int) ≤ e.toInt → e.toInt < 2 ^ (8 * i) →
    Post (exponentLoop k e) (fun x => -(2 ^ (8 * (i + k)) : Int) ≤ x.toInt ∧ x.toInt < 2 ^ (8 * (i + k)))
  | 0, i, e, _, h1, h2 => by
    simp only [exponentLoop, Nat.add_zero]
    exact Post.pure (fun _ => ⟨h1, h2⟩)
  | k + 1, i, e, hk, h1, h2 => by
    simp only [exponentLoop]
    refine Post.bind (fun r => ?_)
    refine Post.ite (fun _ => ?_) (fun _ => Post.false)
    obtain ⟨a, b⟩ := shl8_toInt (b := r.2) (i := i) (by omega) h1 h2
    have := exponentLoop_post k (i + 1) ((e <<< 8) ||| r.2.setWidth 32) (by omega) a b
    rw [show i + 1 + k = i + (k + 1) by omega] at this
    exact this

theorem getDouble_pure (m : U64) {x : Int} (h1 : -(2 ^ 31) < x) (h2 : x < 2 ^ 31) :
    ∃ d, getDoubleByMantissaAndExp m x = pure d := by
  unfold getDoubleByMantissaAndExp
  split
  · exact ⟨_, rfl⟩
  · split
    · exact ⟨_, rfl⟩
    · unfold chk32
      rw [if_pos (by omega), pure_bind]
      exact ⟨_, rfl⟩

theorem decodeRealBinary_safe (length : Nat) {header : Byte} (h : header &&& 3#8 ≠ 3#8) :
    Safe (decodeRealBinary length header) := by
  have hle : (header &&& 3#8).toNat + 1 ≤ 3 := by
    have h3 : (header &&& 3#8).toNat < 4 := by
      rw [BitVec.toNat_and, show (3#8).toNat = 2 ^ 2 - 1 from rfl, Nat.and_two_pow_sub_one_eq_mod]
      omega
    have : (header &&& 3#8).toNat ≠ 3 := fun e => h (BitVec.eq_of_toNat_eq e)
    omega
  unfold decodeRealBinary
  refine Safe.ite (fun _ => Safe.pure _ _) (fun _ => ?_)
  apply Safe.peek
  intro c
  have hpost := exponentLoop_post ((header &&& 3#8).toNat + 1) 0 (if c = true then 0xFFFFFFFF#32 else 0#32) (by omega)
    (by cases c <;> decide) (by cases c <;> decide)
  have hpost' : Post (exponentLoop ((header &&& 3#8).toNat + 1) (if c = true then 0xFFFFFFFF#32 else 0#32))
      (fun x => -(2 ^ 24 : Int) ≤ x.toInt ∧ x.toInt < 2 ^ 24) := by
    refine hpost.mono (fun x hx => ?_)
    have hp : (2 : Nat) ^ (8 * (0 + ((header &&& 3#8).toNat + 1))) ≤ 2 ^ 24 := Nat.pow_le_pow_right (by omega) (by omega)
    have hp' : (2 : Int) ^ (8 * (0 + ((header &&& 3#8).toNat + 1))) ≤ 2 ^ 24 := by exact_mod_cast hp
    omega
  refine (exponentLoop_safe _ _).bindP hpost' (fun x hx => ?_) (fun a => ⟨_, by rw [if_neg (by simp)]⟩)
  rw [if_pos rfl]
  refine (decodeBytesLoop_safe _ _).bind (fun n => ?_) (fun a => ⟨_, by rw [if_neg (by simp)]⟩)
  rw [if_pos rfl]
  dsimp only
  generalize hf : (if header &&& 0x10#8 ≠ 0#8 then (3 : Int) else if header &&& 0x20#8 ≠ 0#8 then 4 else 1) = f
  have hff : f = 1 ∨ f = 3 ∨ f = 4 := by
    rw [← hf]; split
    · simp
    · split <;> simp
  have hb : -(2 ^ 31) < f * x.toInt ∧ f * x.toInt < 2 ^ 31 := by
    rcases hff with h | h | h <;> rw [h] <;> omega
  unfold chk32
  rw [if_pos (by omega), pure_bind]
  obtain ⟨d, hd⟩ := getDouble_pure (n * 1#64 <<< ((header &&& 0x0C#8) >>> 2).toNat) hb.1 hb.2
  rw [hd, pure_bind]
  exact Safe.pure _ _

theorem decodeReal_safe {s : BitStream} (hwf : Wf s) (_hp : s.pos ≤ 8 * s.count) (hsl : Slack s)
    (h : bitAt s.buf (s.pos + 14) = false ∨ bitAt s.buf (s.pos + 15) = false) :
    ∃ r s', decodeReal s = .ok (r, s') ∧ s'.buf = s.buf ∧ s'.count = s.count ∧
      (r.1 = true → s'.currentBit < 8 ∧ s'.pos ≤ 8 * s.count ∧ s.pos ≤ s'.pos) := by
  unfold decodeReal
  by_cases h8 : 8 * s.count < s.pos + 8
  · rw [bind_ok (readByte_short hwf.bit h8)]
    exact ⟨_, s, rfl, rfl, rfl, by simp⟩
  obtain ⟨b, hb⟩ := exists_byte (fun j => bitAt s.buf (s.pos + j))
  rw [bind_ok (readByte_run (b := b) hwf (by omega) (fun j hj => (hb j hj).symm)), if_pos rfl]
  dsimp only
  generalize hs1 : ({ s with currentByte := s.currentByte + 1 } : BitStream) = s1
  have e1 : s1.pos = s.pos + 8 := by rw [← hs1]; simp only [BitStream.pos]; omega
  have e2 : s1.buf = s.buf := by rw [← hs1]
  have e3 : s1.count = s.count := by rw [← hs1]
  have e4 : s1.currentBit = s.currentBit := by rw [← hs1]
  have hwf1 : Wf s1 := ⟨by rw [e4]; exact hwf.bit, by rw [e3, e2]; exact hwf.cap⟩
  by_cases h0 : b = 0#8
  · rw [if_pos h0]
    exact ⟨_, s1, rfl, e2, e3, fun _ => ⟨hwf1.bit, by omega, by omega⟩⟩
  rw [if_neg h0]
  by_cases h16 : 8 * s1.count < s1.pos + 8
  · rw [bind_ok (readByte_short hwf1.bit h16)]
    exact ⟨_, s1, rfl, e2, e3, by simp⟩
  obtain ⟨c, hc⟩ := exists_byte (fun j => bitAt s1.buf (s1.pos + j))
  rw [bind_ok (readByte_run (b := c) hwf1 (by omega) (fun j hj => (hc j hj).symm)), if_pos rfl]
  dsimp only
  generalize hs2 : ({ s1 with currentByte := s1.currentByte + 1 } : BitStream) = s2
  have f1 : s2.pos = s.pos + 16 := by rw [← hs2]; simp only [BitStream.pos] at e1 ⊢; omega
  have f2 : s2.buf = s.buf := by rw [← hs2]; exact e2
  have f3 : s2.count = s.count := by rw [← hs2]; exact e3
  have f4 : s2.currentBit = s.currentBit := by rw [← hs2]; exact e4
  have hwf2 : Wf s2 := ⟨by rw [f4]; exact hwf.bit, by rw [f3, f2]; exact hwf.cap⟩
  have hlow : c &&& 3#8 ≠ 3#8 := by
    intro e
    have c6 := hc 6 (by omega)
    have c7 := hc 7 (by omega)
    rw [e1, e2] at c6 c7
    have g6 := congrArg (fun x : Byte => x.getMsbD 6) e
    have g7 := congrArg (fun x : Byte => x.getMsbD 7) e
    simp only [BitVec.getMsbD_and] at g6 g7
    rw [show (3#8 : Byte).getMsbD 6 = true from rfl, Bool.and_true, c6] at g6
    rw [show (3#8 : Byte).getMsbD 7 = true from rfl, Bool.and_true, c7] at g7
    rw [show s.pos + 8 + 6 = s.pos + 14 by omega] at g6
    rw [show s.pos + 8 + 7 = s.pos + 15 by omega] at g7
    rw [g6, g7] at h
    simp at h
  have fin : ∀ r : Bool × Dbl, ∃ r' s', (pure r : M (Bool × Dbl)) s2 = .ok (r', s') ∧ s'.buf = s.buf ∧ s'.count = s.count ∧
      (r'.1 = true → s'.currentBit < 8 ∧ s'.pos ≤ 8 * s.count ∧ s.pos ≤ s'.pos) :=
    fun r => ⟨r, s2, rfl, f2, f3, fun _ => ⟨hwf2.bit, by omega, by omega⟩⟩
  split
  · exact fin _
  split
  · exact fin _
  split
  · exact fin _
  split
  · exact fin _
  obtain ⟨r, s3, g1, g2, g3, g4⟩ := decodeRealBinary_safe (b.toNat - 1) hlow s2 hwf2 (by omega)
    (by simp only [Slack] at hsl ⊢; rw [f2, f3]; exact hsl)
  refine ⟨r, s3, g1, g2.trans f2, g3.trans f3, fun hr => ?_⟩
  have := g4 hr
  refine ⟨this.1, by omega, by omega⟩

end Asn1
