import Verif.Spec.Bits
/-! Lemmas about the bit vocabulary. -/
namespace Asn1

@[simp] theorem bitsMsb_length (w v : Nat) : (bitsMsb w v).length = w := by simp [bitsMsb]

theorem bitsMsb_getElem? (w v i : Nat) :
    (bitsMsb w v)[i]? = if i < w then some (v.testBit (w - 1 - i)) else none := by
  simp only [bitsMsb, List.getElem?_map]
  split
  · rename_i h; rw [List.getElem?_range h]; rfl
  · rename_i h; rw [List.getElem?_eq_none (by simpa using h)]; rfl

theorem bitsMsb_getD (w v i : Nat) :
    (bitsMsb w v)[i]?.getD false = (decide (i < w) && v.testBit (w - 1 - i)) := by
  rw [bitsMsb_getElem?]; split <;> simp_all <;> omega

theorem bitsMsb_append (a b v : Nat) :
    bitsMsb (a + b) v = bitsMsb a (v >>> b) ++ bitsMsb b v := by
  apply List.ext_getElem?
  intro i
  simp only [bitsMsb_getElem?, List.getElem?_append, bitsMsb_length, Nat.testBit_shiftRight]
  by_cases h : i < a
  · simp only [h, if_true]
    rw [if_pos (by omega)]; congr 2; omega
  · simp only [h, if_false]
    by_cases h2 : i < a + b
    · rw [if_pos h2, if_pos (by omega)]; congr 2; omega
    · rw [if_neg h2, if_neg (by omega)]

theorem bitsMsb_zero_width (v : Nat) : bitsMsb 0 v = [] := rfl

theorem bitsMsb_zero (w : Nat) : bitsMsb w 0 = List.replicate w false := by
  apply List.ext_getElem?
  intro i
  simp [bitsMsb_getElem?, List.getElem?_replicate]

theorem bitsMsb_pad (a b v : Nat) (h : v < 2 ^ b) :
    bitsMsb (a + b) v = List.replicate a false ++ bitsMsb b v := by
  rw [bitsMsb_append, Nat.shiftRight_eq_div_pow, Nat.div_eq_of_lt h, bitsMsb_zero]

theorem bitsMsb_mod (w v : Nat) : bitsMsb w (v % 2 ^ w) = bitsMsb w v := by
  apply List.ext_getElem?
  intro i
  simp only [bitsMsb_getElem?, Nat.testBit_mod_two_pow]
  split
  · simp; omega
  · rfl

theorem bitsMsb_succ (w v : Nat) : bitsMsb (w + 1) v = v.testBit w :: bitsMsb w v := by
  rw [Nat.add_comm, bitsMsb_append]
  simp [bitsMsb]

theorem bitsMsb_inj {w a b : Nat} (ha : a < 2 ^ w) (hb : b < 2 ^ w)
    (h : bitsMsb w a = bitsMsb w b) : a = b := by
  apply Nat.eq_of_testBit_eq
  intro i
  by_cases hi : i < w
  · have := congrArg (fun l => l[w - 1 - i]?) h
    simp only [bitsMsb_getElem?] at this
    rw [if_pos (by omega), if_pos (by omega)] at this
    have e : w - 1 - (w - 1 - i) = i := by omega
    rw [e] at this
    exact Option.some.inj this
  · rw [Nat.testBit_lt_two_pow (Nat.lt_of_lt_of_le ha (Nat.pow_le_pow_right (by omega) (by omega))),
      Nat.testBit_lt_two_pow (Nat.lt_of_lt_of_le hb (Nat.pow_le_pow_right (by omega) (by omega)))]

theorem natOfBits_append_singleton (l : List Bool) (b : Bool) :
    natOfBits (l ++ [b]) = 2 * natOfBits l + b.toNat := by
  simp [natOfBits, List.foldl_append]

theorem foldl_bits (l : List Bool) (acc : Nat) :
    l.foldl (fun acc b => 2 * acc + b.toNat) acc = acc * 2 ^ l.length + natOfBits l := by
  induction l generalizing acc with
  | nil => simp [natOfBits]
  | cons b t ih =>
    simp only [natOfBits, List.foldl_cons, List.length_cons]
    rw [ih, ih]
    simp [Nat.pow_succ, Nat.add_mul]
    grind

theorem natOfBits_cons (b : Bool) (l : List Bool) :
    natOfBits (b :: l) = b.toNat * 2 ^ l.length + natOfBits l := by
  show List.foldl _ _ _ = _
  simp [foldl_bits]

theorem natOfBits_append (l m : List Bool) :
    natOfBits (l ++ m) = natOfBits l * 2 ^ m.length + natOfBits m := by
  simp only [natOfBits, List.foldl_append]
  rw [foldl_bits]; rfl

theorem natOfBits_lt (l : List Bool) : natOfBits l < 2 ^ l.length := by
  induction l with
  | nil => simp [natOfBits]
  | cons b t ih =>
    rw [natOfBits_cons, List.length_cons, Nat.pow_succ]
    have : b.toNat ≤ 1 := Bool.toNat_le b
    have h2 : b.toNat * 2 ^ t.length ≤ 1 * 2 ^ t.length := Nat.mul_le_mul_right _ this
    omega

theorem natOfBits_bitsMsb (w v : Nat) : natOfBits (bitsMsb w v) = v % 2 ^ w := by
  induction w with
  | zero => simp [bitsMsb, natOfBits, Nat.mod_one]
  | succ w ih =>
    rw [bitsMsb_succ, natOfBits_cons, bitsMsb_length, ih]
    rw [Nat.toNat_testBit, Nat.pow_succ]
    have := Nat.mod_mul (x := v) (a := 2 ^ w) (b := 2)
    rw [this, Nat.mul_comm (2 ^ w), Nat.add_comm]

theorem bitsMsb_natOfBits (l : List Bool) : bitsMsb l.length (natOfBits l) = l := by
  induction l with
  | nil => rfl
  | cons b t ih =>
    rw [List.length_cons, bitsMsb_succ, natOfBits_cons]
    have hlt := natOfBits_lt t
    congr 1
    · cases b
      · simp [Nat.testBit_lt_two_pow hlt]
      · simp only [Bool.toNat_true, Nat.one_mul]
        rw [Nat.testBit_two_pow_add_eq, Nat.testBit_lt_two_pow hlt]; rfl
    · rw [← bitsMsb_mod, Nat.add_comm, Nat.add_mul_mod_self_right, bitsMsb_mod, ih]

@[simp] theorem byteBits_length (b : BitVec 8) : (byteBits b).length = 8 := by simp [byteBits]

theorem byteBits_getD (b : BitVec 8) (i : Nat) : (byteBits b)[i]?.getD false = b.getMsbD i := by
  rw [byteBits, bitsMsb_getD]
  simp [BitVec.getMsbD, BitVec.getLsbD]

theorem byteBits_getElem? (b : BitVec 8) (i : Nat) (h : i < 8) : (byteBits b)[i]? = some (b.getMsbD i) := by
  rw [byteBits, bitsMsb_getElem?, if_pos h]
  simp [BitVec.getMsbD, BitVec.getLsbD, h]

theorem byteBits_inj {a b : BitVec 8} (h : byteBits a = byteBits b) : a = b :=
  BitVec.eq_of_toNat_eq (bitsMsb_inj a.isLt b.isLt h)

@[simp] theorem bytesBits_nil : bytesBits [] = [] := rfl
@[simp] theorem bytesBits_cons (b : BitVec 8) (l : List (BitVec 8)) :
    bytesBits (b :: l) = byteBits b ++ bytesBits l := rfl
@[simp] theorem bytesBits_append (l m : List (BitVec 8)) :
    bytesBits (l ++ m) = bytesBits l ++ bytesBits m := by simp [bytesBits]
@[simp] theorem bytesBits_length (l : List (BitVec 8)) : (bytesBits l).length = 8 * l.length := by
  induction l with
  | nil => rfl
  | cons b t ih => simp [ih]; omega

theorem bytesBits_getD (l : List (BitVec 8)) (i : Nat) :
    (bytesBits l)[i]?.getD false = bitAt l i := by
  induction l generalizing i with
  | nil => simp [bitAt]
  | cons b t ih =>
    rw [bytesBits_cons, List.getElem?_append, byteBits_length]
    split
    · rename_i h
      rw [byteBits_getD]
      have : i / 8 = 0 := by omega
      simp only [bitAt, this, List.getD_cons_zero]
      congr 1; omega
    · rename_i h
      rw [ih]
      have : i / 8 = (i - 8) / 8 + 1 := by omega
      simp only [bitAt, this, List.getD_cons_succ]
      congr 1; omega

theorem bytesBits_inj {a b : List (BitVec 8)} (h : bytesBits a = bytesBits b) : a = b := by
  have hl : a.length = b.length := by
    have := congrArg List.length h; simp at this; omega
  induction a generalizing b with
  | nil => cases b with
    | nil => rfl
    | cons => simp at hl
  | cons x t ih =>
    cases b with
    | nil => simp at hl
    | cons y u =>
      simp only [bytesBits_cons] at h
      have := List.append_inj h (by simp)
      rw [byteBits_inj this.1, ih this.2 (by simpa using hl)]

theorem bitAt_set (buf : List (BitVec 8)) (k : Nat) (b : BitVec 8) (i : Nat) (hk : k < buf.length) :
    bitAt (buf.set k b) i = if i / 8 = k then b.getMsbD (i % 8) else bitAt buf i := by
  simp only [bitAt, List.getD_eq_getElem?_getD, List.getElem?_set]
  by_cases h : k = i / 8
  · subst h; simp [hk]
  · rw [if_neg h, if_neg (Ne.symm h)]

theorem bitAt_of_ge (buf : List (BitVec 8)) (i : Nat) (h : 8 * buf.length ≤ i) : bitAt buf i = false := by
  have : buf.length ≤ i / 8 := by omega
  simp [bitAt, List.getElem?_eq_none this]

end Asn1
