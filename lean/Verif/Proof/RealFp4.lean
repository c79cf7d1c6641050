import Verif.Model.RealFp4
import Verif.Proof.Float32
import Verif.Proof.Real4
/-!
REAL with `FP_WORD_SIZE` 4: the encoder, and the `float` that the decoder gives back.
-/
namespace Asn1

/-- What the decoder makes of a binary encoding. -/
def BinaryReal.decoded4 (r : BinaryReal) : M Flt := do
  let v ← getFloatByMantissaAndExp (BitVec.ofNat 64 (r.mantissa * 2 ^ r.scale)) (r.baseLog * r.exponent)
  pure (if r.neg then fltNeg v else v)

theorem decodeReal4_reads {r : BinaryReal} (h : r.Ok) {d : Flt} (hd : r.decoded4 = pure d) :
    Reads decodeReal4 (true, d) r.code ∧ Short decodeReal4 r.code := by
  obtain ⟨h1, h2, h3, h4, h5, h6, h7, h8, h9⟩ := r.header_eq h
  have hlen := h.length
  have hoct := h.octets
  have hk : 1 + r.expOctets + r.manOctets < 256 := by omega
  obtain ⟨w, hw⟩ := twosCode_head h.exponent
  obtain ⟨x, hx, hxr⟩ := exponentLoop_reads (by omega) h.exponent
  obtain ⟨mr, ms⟩ := decodeBytesLoop_reads r.manOctets 0 r.mantissa h.mantissa
  rw [Nat.zero_mul, Nat.zero_add] at mr
  have hl8 : byteBits (BitVec.ofNat 8 (1 + r.expOctets + r.manOctets)) = bitsMsb 8 (1 + r.expOctets + r.manOctets) := by
    rw [byteBits, BitVec.toNat_ofNat, Nat.mod_eq_of_lt hk]
  have hcode : r.code = byteBits (BitVec.ofNat 8 (1 + r.expOctets + r.manOctets)) ++ (byteBits r.header ++
      (twosCode (8 * r.expOctets) r.exponent ++ (bitsMsb (8 * r.manOctets) r.mantissa ++ []))) := by
    unfold BinaryReal.code BinaryReal.contents
    rw [hl8, ← h1]
    simp
  have hL : ((BitVec.ofNat 8 (1 + r.expOctets + r.manOctets) : Byte)).toNat - 1 = r.expOctets + r.manOctets := by
    rw [BitVec.toNat_ofNat, Nat.mod_eq_of_lt hk]; omega
  have hne : (BitVec.ofNat 8 (1 + r.expOctets + r.manOctets) : Byte) ≠ 0#8 := by
    intro e
    have := congrArg BitVec.toNat e
    rw [BitVec.toNat_ofNat, Nat.mod_eq_of_lt hk] at this
    simp at this
  rw [hcode]
  unfold decodeReal4
  have hend : (chk32 ((r.baseLog : Int) * r.exponent) >>= fun x =>
      getFloatByMantissaAndExp (BitVec.ofNat 64 r.mantissa * (1#64 <<< ((r.header &&& 0x0C#8) >>> 2).toNat)) x >>= fun v =>
        (pure (true, if r.neg = true then fltNeg v else v) : M (Bool × Flt))) = pure (true, d) := by
    have e1 : chk32 ((r.baseLog : Int) * r.exponent) = pure ((r.baseLog : Int) * r.exponent) := by
      unfold chk32
      have := BinaryReal.power_bounds h
      rw [if_pos (by omega)]
    have e2 : BitVec.ofNat 64 r.mantissa * (1#64 <<< ((r.header &&& 0x0C#8) >>> 2).toNat)
        = BitVec.ofNat 64 (r.mantissa * 2 ^ r.scale) := by
      apply BitVec.eq_of_toNat_eq
      rw [BitVec.toNat_mul, h8, BitVec.toNat_ofNat, BitVec.toNat_ofNat, Nat.mod_mul_mod]
    rw [e1, pure_bind, e2]
    have := congrArg (fun m : M Flt => m >>= fun v => (pure (true, v) : M (Bool × Flt))) hd
    simp only [BinaryReal.decoded4, bind_assoc, pure_bind] at this
    exact this
  constructor
  · refine (readByte_reads _).bind ?_
    rw [if_pos rfl, if_neg hne]
    refine (readByte_reads _).bind ?_
    rw [if_pos rfl]
    simp only [if_neg h2, if_neg h3, if_neg h4, if_neg h5]
    unfold decodeRealBinary4
    simp only [h6, h7, h9, hL]
    rw [if_neg (by omega), hw, List.cons_append]
    apply Reads.peek
    rw [← List.cons_append, ← hw]
    refine hxr.bind ?_
    rw [if_pos rfl, Nat.add_sub_cancel_left]
    refine mr.bind ?_
    rw [if_pos rfl]
    simp only [hx]
    rw [hend]
    exact Reads.pure _
  · refine (readByte_needs.short (by simp)).bind (readByte_reads _) ?_ (fun a => ⟨_, by rw [if_neg (by simp)]⟩)
    rw [if_pos rfl, if_neg hne]
    refine (readByte_needs.short (by simp)).bind (readByte_reads _) ?_ (fun a => ⟨_, by rw [if_neg (by simp)]⟩)
    rw [if_pos rfl]
    simp only [if_neg h2, if_neg h3, if_neg h4, if_neg h5]
    unfold decodeRealBinary4
    simp only [h6, h7, h9, hL]
    rw [if_neg (by omega)]
    apply Short.peek
    intro c
    obtain ⟨y, hyr⟩ := exponentLoop_reads' (v := r.exponent) (k := r.expOctets) c
    refine (exponentLoop_short c).bind hyr ?_ (fun a => ⟨_, by rw [if_neg (by simp)]⟩)
    rw [if_pos rfl, Nat.add_sub_cancel_left]
    exact ms.bind mr (Short.nil _) (fun a => ⟨_, by rw [if_neg (by simp)]⟩)

theorem decodeReal4_special {n : Byte} {d : Flt} (h : (n = 0x40#8 ∧ d = 0x7F800000#32) ∨ (n = 0x41#8 ∧ d = fltNeg 0x7F800000#32) ∨
      (n = 0x42#8 ∧ d = 0x7FC00000#32) ∨ (n = 0x43#8 ∧ d = 0x80000000#32)) :
    Reads decodeReal4 (true, d) (bitsMsb 8 1 ++ bitsMsb 8 n.toNat) ∧ Short decodeReal4 (bitsMsb 8 1 ++ bitsMsb 8 n.toNat) := by
  have e1 : bitsMsb 8 1 = byteBits 1#8 := rfl
  have e2 : bitsMsb 8 n.toNat = byteBits n ++ [] := by rw [List.append_nil, byteBits]
  rw [e1, e2]
  unfold decodeReal4
  constructor
  · refine (readByte_reads _).bind ?_
    rw [if_pos rfl, if_neg (by decide)]
    refine (readByte_reads _).bind ?_
    rw [if_pos rfl]
    rcases h with ⟨h, h'⟩ | ⟨h, h'⟩ | ⟨h, h'⟩ | ⟨h, h'⟩ <;> subst h <;> subst h' <;> exact Reads.pure _
  · refine (readByte_needs.short (by simp)).bind (readByte_reads _) ?_ (fun a => ⟨_, by rw [if_neg (by simp)]⟩)
    rw [if_pos rfl, if_neg (by decide)]
    exact (readByte_needs.short (by simp)).bind (readByte_reads _) (Short.nil _) (fun a => ⟨_, by rw [if_neg (by simp)]⟩)

theorem decodeReal4_zero : Reads decodeReal4 (true, 0#32) (bitsMsb 8 0) ∧ Short decodeReal4 (bitsMsb 8 0) := by
  have e2 : bitsMsb 8 0 = byteBits 0#8 ++ [] := rfl
  rw [e2]
  unfold decodeReal4
  constructor
  · refine (readByte_reads _).bind ?_
    rw [if_pos rfl, if_pos rfl]
    exact Reads.pure _
  · exact (readByte_needs.short (by simp)).bind (readByte_reads _) (Short.nil _) (fun a => ⟨_, by rw [if_neg (by simp)]⟩)

/-! ## Fields -/

/-- The exponent field. -/
def fltExp (f : Flt) : Nat := f.toNat / 2 ^ 23 % 2 ^ 8

/-- The fraction. -/
def fltFrac (f : Flt) : Nat := f.toNat % 2 ^ 23

/-- The sign. -/
def fltSign (f : Flt) : Bool := decide (2 ^ 31 ≤ f.toNat)

theorem fltExp_lt (f : Flt) : fltExp f < 256 := Nat.mod_lt _ (by decide)
theorem fltFrac_lt (f : Flt) : fltFrac f < 2 ^ 23 := Nat.mod_lt _ (by decide)

theorem fltMake_self (f : Flt) : fltMake (fltSign f) (fltExp f * 2 ^ 23 + fltFrac f) = f := (flt_fields f).symm

theorem fltNeg_low (f : Flt) : (fltNeg f).toNat % 2 ^ 31 = f.toNat % 2 ^ 31 := by
  unfold fltNeg
  rw [BitVec.toNat_xor, Nat.xor_mod_two_pow, show (0x80000000#32).toNat % 2 ^ 31 = 0 from rfl, Nat.xor_zero]

theorem fltExp_neg (f : Flt) : fltExp (fltNeg f) = fltExp f := by
  have := fltNeg_low f
  unfold fltExp; omega

theorem fltFrac_neg (f : Flt) : fltFrac (fltNeg f) = fltFrac f := by
  have := fltNeg_low f
  unfold fltFrac; omega

theorem fltNeg_make {mag : Nat} (h : mag < 2 ^ 31) : fltNeg (fltMake false mag) = fltMake true mag := by
  apply BitVec.eq_of_toNat_eq
  unfold fltNeg fltMake
  rw [BitVec.toNat_xor, BitVec.toNat_ofNat, BitVec.toNat_ofNat, BitVec.toNat_ofNat, show 2147483648 % 2 ^ 32 = 2 ^ 31 from rfl]
  simp only [Bool.false_eq_true, if_false, if_true, Nat.zero_add]
  rw [Nat.mod_eq_of_lt (by omega), Nat.mod_eq_of_lt (by omega), pow_add_eq_or h]
  apply Nat.eq_of_testBit_eq
  intro i
  simp only [Nat.testBit_xor, Nat.testBit_or, Nat.testBit_two_pow]
  by_cases hi : 31 = i
  · subst hi; rw [Nat.testBit_lt_two_pow h]; simp
  · simp [hi]

theorem calculate4_exponent (f : Flt) : (calculateMantissaAndExponent4 f).1 = (fltExp f : Int) - 150 := by
  unfold calculateMantissaAndExponent4
  have h := fltExp_lt f
  have e : (f &&& 0x7F800000#32) >>> 23 = BitVec.ofNat 32 (fltExp f) := by
    apply BitVec.eq_of_toNat_eq
    rw [BitVec.toNat_ushiftRight, BitVec.toNat_and, Nat.shiftRight_and_distrib, BitVec.toNat_ofNat, BitVec.toNat_ofNat,
      show (0x7F800000 % 2 ^ 32) >>> 23 = 2 ^ 8 - 1 from rfl, Nat.and_two_pow_sub_one_eq_mod,
      Nat.shiftRight_eq_div_pow, Nat.mod_eq_of_lt (by omega : fltExp f < 2 ^ 32)]
    rfl
  simp only [e]
  simp only [BitVec.toInt, BitVec.toNat_sub, BitVec.toNat_ofNat]
  omega

theorem calculate4_mantissa (f : Flt) : (calculateMantissaAndExponent4 f).2.toNat = 2 ^ 23 + fltFrac f := by
  unfold calculateMantissaAndExponent4
  dsimp only
  have hf := fltFrac_lt f
  rw [BitVec.toNat_setWidth, BitVec.toNat_or, BitVec.toNat_and, show (0x007FFFFF#32).toNat = 2 ^ 23 - 1 from rfl,
    Nat.and_two_pow_sub_one_eq_mod, show (0x00800000#32).toNat = 2 ^ 23 from rfl, Nat.or_comm,
    ← pow_add_eq_or (Nat.mod_lt _ (by decide))]
  unfold fltFrac at *
  omega

/-! ## The encoder -/

/-- The binary encoding that the encoder chooses for a finite number that is not 0. -/
def chosenReal4 (f : Flt) : BinaryReal where
  neg := fltSign f
  baseCode := 0
  scale := 0
  expOctets := octetsInt ((fltExp f : Int) - 150)
  exponent := (fltExp f : Int) - 150
  manOctets := 3
  mantissa := 2 ^ 23 + fltFrac f

theorem chosenReal4_ok (f : Flt) : (chosenReal4 f).Ok := by
  have h := fltExp_lt f
  have hf := fltFrac_lt f
  obtain ⟨h1, h2, h3⟩ := octetsInt_real (e := (fltExp f : Int) - 150) (by omega) (by omega)
  exact ⟨by simp [chosenReal4], by simp [chosenReal4], ⟨h1, by simp only [chosenReal4]; omega⟩, h3,
    by simp only [chosenReal4]; omega, by simp only [chosenReal4]; omega⟩

theorem octetsNat_mantissa4 {m : Nat} (h1 : 2 ^ 23 ≤ m) (h2 : m < 2 ^ 24) : octetsNat m = 3 := by
  have a := (octetsNat_le_iff m 3 (by omega)).2 (by omega)
  have b : ¬ octetsNat m ≤ 2 := fun h => by
    have := (octetsNat_le_iff m 2 (by omega)).1 h
    omega
  omega

theorem encodeRealBinary4_appends {f v : Flt} (he : fltExp v = fltExp f) (hf : fltFrac v = fltFrac f) :
    Appends (encodeRealBinary4 (if fltSign f then 0x80#8 ||| 0x40#8 else 0x80#8) v) () (chosenReal4 f).code := by
  have hok := chosenReal4_ok f
  have hE := fltExp_lt f
  have hF := fltFrac_lt f
  obtain ⟨h1, h2, h3⟩ := octetsInt_real (e := (fltExp f : Int) - 150) (by omega) (by omega)
  have hx : (calculateMantissaAndExponent4 v).1 = (fltExp f : Int) - 150 := by rw [calculate4_exponent, he]
  have hm : (calculateMantissaAndExponent4 v).2.toNat = 2 ^ 23 + fltFrac f := by rw [calculate4_mantissa, hf]
  unfold encodeRealBinary4
  simp only [hx]
  rw [getLengthInBytesOfSInt_eq (by omega) (by omega), pure_bind]
  have ha : assertC (decide (octetsInt ((fltExp f : Int) - 150) ≤ 3)) = pure () := by
    funext s; simp [assertC, show octetsInt ((fltExp f : Int) - 150) ≤ 3 by omega]
  rw [ha, pure_bind, getLengthInBytesOfUInt_eq, hm, octetsNat_mantissa4 (by omega) (by omega)]
  have hh : (if octetsInt ((fltExp f : Int) - 150) = 2 then (if fltSign f then 0x80#8 ||| 0x40#8 else 0x80#8) ||| 1#8
      else if octetsInt ((fltExp f : Int) - 150) = 3 then (if fltSign f then 0x80#8 ||| 0x40#8 else 0x80#8) ||| 2#8
      else (if fltSign f then 0x80#8 ||| 0x40#8 else 0x80#8)) = (chosenReal4 f).header := by
    have := header_ors (fltSign f) ⟨octetsInt ((fltExp f : Int) - 150) - 1, by omega⟩
    simp only [show octetsInt ((fltExp f : Int) - 150) - 1 + 1 = octetsInt ((fltExp f : Int) - 150) by omega] at this
    exact this
  rw [hh]
  have hcode : (chosenReal4 f).code = bitsMsb 8 (1 + octetsInt ((fltExp f : Int) - 150) + 3) ++
      (bitsMsb 8 (chosenReal4 f).header.toNat ++ (twosCode (8 * octetsInt ((fltExp f : Int) - 150)) ((fltExp f : Int) - 150) ++
        bitsMsb (8 * 3) (2 ^ 23 + fltFrac f))) := by
    unfold BinaryReal.code BinaryReal.contents
    have e := (BinaryReal.header_eq _ hok).1
    rw [byteBits] at e
    rw [e]
    simp only [List.append_assoc]
    rfl
  rw [hcode]
  refine (octet_appends (by omega)).bind ?_
  refine (octet_appends (by have := (chosenReal4 f).header.isLt; omega)).bind ?_
  have ht := twosPart_appends h3 (by omega) (by omega)
  rw [Nat.mul_comm 8] at ht
  rw [Nat.mul_comm 8 (octetsInt _)]
  refine ht.bind ?_
  have hp := padded_appends (n := 3 * 8) (v := (calculateMantissaAndExponent4 v).2) (by rw [hm]; omega)
  rw [hm] at hp
  exact hp

theorem floatToDouble_sign (f : Flt) : dblSign (floatToDouble f) = fltSign f := by
  have hm := Nat.mod_lt f.toNat (by decide : 0 < 2 ^ 23)
  have he := Nat.mod_lt (f.toNat / 2 ^ 23) (by decide : 0 < 2 ^ 8)
  unfold floatToDouble fltSign
  dsimp only
  generalize f.toNat / 2 ^ 23 % 2 ^ 8 = e at *
  generalize f.toNat % 2 ^ 23 = m at *
  split
  · split
    · exact dblSign_make _ (by omega)
    · exact dblSign_make _ (by omega)
  · split
    · split
      · exact dblSign_make _ (by omega)
      · rename_i h3
        have hk2 := @Nat.lt_log2_self m
        have hk : Nat.log2 m ≤ 22 := by have := (Nat.log2_lt h3).2 hm; omega
        generalize Nat.log2 m = k at *
        have p2 : 2 ^ (k + 1) * 2 ^ (52 - k) = 2 ^ 53 := by rw [← Nat.pow_add]; congr 1; omega
        have b2 : m * 2 ^ (52 - k) < 2 ^ 53 := by rw [← p2]; exact Nat.mul_lt_mul_of_pos_right hk2 (Nat.two_pow_pos _)
        exact dblSign_make _ (by omega)
    · exact dblSign_make _ (by omega)

theorem floatToDouble_finNonzero {f : Flt} (h1 : FiniteFloat f) (h2 : floatValue f ≠ 0) : FinNonzero (floatToDouble f) := by
  obtain ⟨v1, v2, v3⟩ := floatToDouble_value h1
  have := v3 h2
  have e1 : dblExp (floatToDouble f) = (floatToDouble f).toNat / 2 ^ 52 % 2 ^ 11 := by unfold dblExp dblMag; omega
  exact ⟨by rw [e1]; exact v1, by rw [dblMag_split]; omega⟩

theorem encodeReal4_appends {f : Flt} (h1 : FiniteFloat f) (h2 : floatValue f ≠ 0) : Appends (encodeReal4 f) () (chosenReal4 f).code := by
  have h := floatToDouble_finNonzero h1 h2
  have hsg := floatToDouble_sign f
  unfold encodeReal4
  generalize floatToDouble f = d at *
  have hlt := h.mag_lt
  have hnz := h.2
  have hnan : dblIsNan d = false := decide_eq_false (by omega)
  obtain ⟨k0, k1, k2, k3⟩ := key_zero
  have hkey : dblKey d ≠ 0 ∧ dblKey d ≠ 2047 * 2 ^ 52 ∧ dblKey d ≠ -(2047 * 2 ^ 52) := by
    unfold dblKey; split <;> omega
  rw [if_neg (by simp [hnan]), if_neg (by simp [dblEq, k0, hkey.1]), if_neg (by simp [dblEq, k1, hkey.1]),
    if_neg (by simp only [dblEq, k2]; simp only [hkey.2.1, decide_false, Bool.and_false]; simp),
    if_neg (by simp only [dblEq, k3]; simp only [hkey.2.2, decide_false, Bool.and_false]; simp)]
  have hz : dblIsNan 0#64 = false := by decide +kernel
  by_cases hs : dblSign d
  · have := encodeRealBinary4_appends (fltExp_neg f) (fltFrac_neg f)
    rw [if_pos (by rw [← hsg]; exact hs)] at this
    rw [if_pos]
    · exact this
    · have hk : dblKey d = -(dblMag d : Int) := by unfold dblKey; rw [if_pos hs]
      simp only [dblLt, hnan, hz, k0, hk]
      simp; omega
  · have := encodeRealBinary4_appends (f := f) (v := f) rfl rfl
    rw [if_neg (by rw [← hsg]; exact hs)] at this
    rw [if_neg]
    · exact this
    · have hk : dblKey d = (dblMag d : Int) := by unfold dblKey; rw [if_neg hs]
      simp only [dblLt, hnan, hz, k0, hk]
      simp

/-! ## The arithmetic of the decoder -/

/-- `2 ^ k` as a `float`; infinity for 128. -/
def fltPow2 (k : Nat) : Flt := fltMake false ((k + 127) * 2 ^ 23)

theorem fltPow2_facts : ∀ k : Fin 128, floatToDouble (fltPow2 k.val) = pow2 k.val ∧
    doubleToFloat (dblMul (floatToDouble (fltPow2 k.val)) 0x4000000000000000#64) = fltPow2 (k.val + 1) := by
  decide +kernel

theorem fltInf_facts : floatToDouble (fltPow2 128) = dblInf ∧
    doubleToFloat (dblMul (floatToDouble (fltPow2 128)) 0x4000000000000000#64) = fltPow2 128 := by decide +kernel

theorem powLoop4_pow2 : ∀ (n k : Nat), k ≤ 128 → powLoop4 n (fltPow2 k) = fltPow2 (min (k + n) 128)
  | 0, k, h => by rw [powLoop4, Nat.add_zero, Nat.min_eq_left h]
  | n + 1, k, h => by
    rw [powLoop4]
    by_cases hk : k < 128
    · rw [(fltPow2_facts ⟨k, hk⟩).2, powLoop4_pow2 n (k + 1) (by omega), show k + 1 + n = k + (n + 1) by omega]
    · have : k = 128 := by omega
      subst this
      rw [fltInf_facts.2, powLoop4_pow2 n 128 (by omega), show min (128 + n) 128 = 128 by omega, show min (128 + (n + 1)) 128 = 128 by omega]

theorem powLoop4_one (n : Nat) : powLoop4 n 0x3F800000#32 = fltPow2 (min n 128) := by
  have := powLoop4_pow2 n 0 (by omega)
  rw [Nat.zero_add] at this
  rw [← this]
  rfl

/-- The mantissa as a number. -/
theorem fltOfU64_fields {n : U64} {m : Nat} (hm : m < 2 ^ 23) (hn : n.toNat = 2 ^ 23 + m) :
    floatToDouble (fltOfU64 n) = dblMake false (1046 * 2 ^ 52 + m * 2 ^ 29) := by
  have hne : n ≠ 0#64 := by intro h; subst h; simp at hn; omega
  have hl : Nat.log2 n.toNat = 23 := log2_eq (by omega) (by omega)
  have e : fltOfU64 n = fltMake false (150 * 2 ^ 23 + m) := by
    unfold fltOfU64
    rw [if_neg hne, hl]
    have hq : max (((23 : Nat) : Int) - 23) (-149) = 0 := by omega
    simp only [hq]
    have e1 : rne (n.toNat * 2 ^ (-0 : Int).toNat) (2 ^ (0 : Int).toNat) = n.toNat := by
      have := rne_mul (q := n.toNat) (d := 1) (by decide)
      simpa using this
    rw [e1, hn]
    have e2 : ((0 : Int) + 149).toNat * 2 ^ 23 + (2 ^ 23 + m) = 150 * 2 ^ 23 + m := by
      rw [show ((0 : Int) + 149).toNat = 149 from rfl]; omega
    rw [e2]
  have ht : (fltMake false (150 * 2 ^ 23 + m)).toNat = 150 * 2 ^ 23 + m := by
    unfold fltMake
    rw [BitVec.toNat_ofNat, if_neg (by simp)]
    omega
  rw [e]
  unfold floatToDouble
  rw [ht]
  dsimp only
  have a1 : (150 * 2 ^ 23 + m) / 2 ^ 23 % 2 ^ 8 = 150 := by omega
  have a2 : (150 * 2 ^ 23 + m) % 2 ^ 23 = m := by omega
  have a3 : decide (2 ^ 31 ≤ 150 * 2 ^ 23 + m) = false := decide_eq_false (by omega)
  rw [a1, a2, a3, if_neg (by decide), if_neg (by decide)]

/-- The number with the given mantissa and exponent. -/
theorem exactMag_float {m : Nat} {x : Int} (hm : m < 2 ^ 23) (h1 : -149 ≤ x) (h2 : x ≤ 104) :
    exactMag (2 ^ 23 + m) x = (x + 1046).toNat * 2 ^ 52 + m * 2 ^ 29 := by
  have hl : Nat.log2 (2 ^ 23 + m) = 23 := log2_eq (by omega) (by omega)
  have hp : lastPlace (2 ^ 23 + m) x = x - 29 := by unfold lastPlace; rw [hl]; omega
  unfold exactMag
  rw [hp, show (x - (x - 29)).toNat = 29 by omega]
  obtain ⟨a, ha⟩ : ∃ a : Nat, x = (a : Int) - 1045 := ⟨(x + 1045).toNat, by omega⟩
  have e1 : (x - 29 + 1074).toNat = a := by omega
  have e2 : (x + 1046).toNat = a + 1 := by omega
  rw [e1, e2]
  have ha2 : a ≤ 1149 := by omega
  clear hl hp h1 h2 ha e1 e2
  omega

theorem getFloat_eq {n : U64} {m : Nat} {x : Int} (hm : m < 2 ^ 23) (hn : n.toNat = 2 ^ 23 + m) (h1 : -150 ≤ x) (h2 : x ≤ 104) :
    getFloatByMantissaAndExp n x = pure (if -127 ≤ x then fltMake false ((x + 150).toNat * 2 ^ 23 + m) else 0#32) := by
  have hne : n ≠ 0#64 := by intro h; subst h; simp at hn; omega
  have hfl := fltOfU64_fields hm hn
  obtain ⟨a1, a2, a3, a4, a5⟩ := dbl_parts false (e := 1046) (m := m * 2 ^ 29) (by omega) (by omega) (by omega)
  have a6 : dblMag (dblMake false (1046 * 2 ^ 52 + m * 2 ^ 29)) ≠ 0 := by rw [dblMag_make _ (by omega)]; omega
  have hpos : 0 < 2 ^ 23 + m := by omega
  have hlt : 2 ^ 23 + m < 2 ^ 53 := by omega
  have a4' : dblMant (dblMake false (1046 * 2 ^ 52 + m * 2 ^ 29)) = (2 ^ 23 + m) * 2 ^ 29 := by rw [a4]; omega
  have back : -127 ≤ x → doubleToFloat (dblMake false (exactMag (2 ^ 23 + m) x)) = fltMake false ((x + 150).toNat * 2 ^ 23 + m) := by
    intro h3
    rw [exactMag_float hm (by omega) h2, doubleToFloat_normal false (by omega) (by omega) hm,
      show (x + 1046).toNat - 896 = (x + 150).toNat by omega]
  unfold getFloatByMantissaAndExp
  rw [if_neg hne, hfl]
  by_cases h0 : x ≥ 0
  · rw [if_pos h0, if_pos (by omega), powLoop4_one, show min x.toNat 128 = x.toNat by omega,
      (fltPow2_facts ⟨x.toNat, by omega⟩).1]
    obtain ⟨b1, b2, b3, b4, b5, b6⟩ := pow2_fields (k := x.toNat) (by omega)
    rw [dblMul_finite ⟨a2, a3, a6⟩ ⟨b3, b4, b5⟩, a1, a4', a5, b1, b2, b6]
    have e := roundMag_exact (m := 2 ^ 23 + m) (29 + 52) 0
      (e := ((1046 : Nat) : Int) - 1075 + ((x.toNat : Int) - 52)) (x := x) hpos hlt (by omega) (by omega)
    rw [Nat.pow_zero, Nat.pow_add, ← Nat.mul_assoc] at e
    rw [e]
    exact congrArg pure (back (by omega))
  · rw [if_neg h0]
    unfold chk32
    rw [if_pos (by omega), pure_bind, powLoop4_one]
    by_cases hk : -127 ≤ x
    · rw [if_pos hk, show min (-x).toNat 128 = (-x).toNat by omega, (fltPow2_facts ⟨(-x).toNat, by omega⟩).1]
      obtain ⟨b1, b2, b3, b4, b5, b6⟩ := pow2_fields (k := (-x).toNat) (by omega)
      rw [dblDiv_finite ⟨a2, a3, a6⟩ ⟨b3, b4, b5⟩, a1, a4', a5, b1, b2, b6]
      rw [roundMag_exact (m := 2 ^ 23 + m) 29 52
        (e := ((1046 : Nat) : Int) - 1075 - (((-x).toNat : Int) - 52)) (x := x) hpos hlt (by omega) (by omega)]
      exact congrArg pure (back hk)
    · rw [if_neg hk, show min (-x).toNat 128 = 128 by omega, fltInf_facts.1, dblDiv_inf ⟨a2, a3, a6⟩ a1]
      exact congrArg pure (by decide +kernel)

/-- What the decoder makes of the encoding. -/
theorem chosenReal4_decoded {f : Flt} (h : FiniteFloat f) :
    (chosenReal4 f).decoded4 = pure (if 23 ≤ fltExp f then f else fltMake (fltSign f) 0) := by
  have hF := fltFrac_lt f
  have hE : fltExp f ≤ 254 := by have := fltExp_lt f; unfold FiniteFloat at h; unfold fltExp at *; omega
  have hM : (chosenReal4 f).mantissa * 2 ^ (chosenReal4 f).scale = 2 ^ 23 + fltFrac f := by
    show (2 ^ 23 + fltFrac f) * 2 ^ 0 = _
    rw [Nat.pow_zero, Nat.mul_one]
  have hX : (((chosenReal4 f).baseLog : Nat) : Int) * (chosenReal4 f).exponent = (fltExp f : Int) - 150 := by
    show ((1 : Nat) : Int) * ((fltExp f : Int) - 150) = _; omega
  unfold BinaryReal.decoded4
  rw [hM, hX, getFloat_eq (m := fltFrac f) hF (by rw [BitVec.toNat_ofNat]; omega) (by omega) (by omega), pure_bind]
  rw [show ((fltExp f : Int) - 150 + 150).toNat = fltExp f by omega]
  refine congrArg pure ?_
  show (if fltSign f = true then _ else _) = _
  by_cases he : 23 ≤ fltExp f
  · rw [if_pos (show (-127 : Int) ≤ (fltExp f : Int) - 150 by omega), if_pos he]
    have hs := fltMake_self f
    cases hsg : fltSign f
    · rw [hsg] at hs; rw [if_neg (by simp)]; exact hs
    · rw [hsg] at hs
      rw [if_pos rfl, fltNeg_make (by omega)]
      exact hs
  · rw [if_neg (show ¬ (-127 : Int) ≤ (fltExp f : Int) - 150 by omega), if_neg he]
    cases fltSign f <;> decide +kernel

/-! ## Safety of the decoder -/

theorem getFloat_pure (m : U64) {x : Int} (h1 : -(2 ^ 31) < x) (h2 : x < 2 ^ 31) :
    ∃ d, getFloatByMantissaAndExp m x = pure d := by
  unfold getFloatByMantissaAndExp
  split
  · exact ⟨_, rfl⟩
  · split
    · exact ⟨_, rfl⟩
    · unfold chk32
      rw [if_pos (by omega), pure_bind]
      exact ⟨_, rfl⟩

theorem decodeRealBinary4_safe (length : Nat) {header : Byte} (h : header &&& 3#8 ≠ 3#8) :
    Safe (decodeRealBinary4 length header) := by
  have hle : (header &&& 3#8).toNat + 1 ≤ 3 := by
    have h3 : (header &&& 3#8).toNat < 4 := by
      rw [BitVec.toNat_and, show (3#8).toNat = 2 ^ 2 - 1 from rfl, Nat.and_two_pow_sub_one_eq_mod]
      omega
    have : (header &&& 3#8).toNat ≠ 3 := fun e => h (BitVec.eq_of_toNat_eq e)
    omega
  unfold decodeRealBinary4
  refine Safe.ite (fun _ => Safe.pure _ _) (fun _ => ?_)
  apply Safe.peek
  intro c
  have hpost := exponentLoop_post ((header &&& 3#8).toNat + 1) 0 (if c = true then 0xFFFFFFFF#32 else 0#32) (by omega)
    (by cases c <;> decide) (by cases c <;> decide)
  have hpost' : Post (exponentLoop ((header &&& 3#8).toNat + 1) (if c = true then 0xFFFFFFFF#32 else 0#32))
      (fun x => -(2 ^ 24 : Int) ≤ x.toInt ∧ x.toInt < 2 ^ 24) := by
    refine hpost.mono (fun x hx => ?_)
    have hp : (2 : Nat) ^ (8 * (0 + ((header &&& 3#8).toNat + 1))) ≤ 2 ^ 24 := Nat.pow_le_pow_right (by omega) (by omega)
    have hp' : (2 : Int) ^ (8 * (0 + ((header &&& 3#8).toNat + 1))) ≤ 2 ^ 24 := by exact_mod_cast hp
    omega
  refine (exponentLoop_safe _ _).bindP hpost' (fun x hx => ?_) (fun a => ⟨_, by rw [if_neg (by simp)]⟩)
  rw [if_pos rfl]
  refine (decodeBytesLoop_safe _ _).bind (fun n => ?_) (fun a => ⟨_, by rw [if_neg (by simp)]⟩)
  rw [if_pos rfl]
  dsimp only
  generalize hf : (if header &&& 0x10#8 ≠ 0#8 then (3 : Int) else if header &&& 0x20#8 ≠ 0#8 then 4 else 1) = f
  have hff : f = 1 ∨ f = 3 ∨ f = 4 := by
    rw [← hf]; split
    · simp
    · split <;> simp
  have hb : -(2 ^ 31) < f * x.toInt ∧ f * x.toInt < 2 ^ 31 := by
    rcases hff with h | h | h <;> rw [h] <;> omega
  unfold chk32
  rw [if_pos (by omega), pure_bind]
  obtain ⟨d, hd⟩ := getFloat_pure (n * 1#64 <<< ((header &&& 0x0C#8) >>> 2).toNat) hb.1 hb.2
  rw [hd, pure_bind]
  exact Safe.pure _ _

theorem decodeReal4_safe {s : BitStream} (hwf : Wf s) (_hp : s.pos ≤ 8 * s.count) (hsl : Slack s)
    (h : bitAt s.buf (s.pos + 14) = false ∨ bitAt s.buf (s.pos + 15) = false) :
    ∃ r s', decodeReal4 s = .ok (r, s') ∧ s'.buf = s.buf ∧ s'.count = s.count ∧
      (r.1 = true → s'.currentBit < 8 ∧ s'.pos ≤ 8 * s.count ∧ s.pos ≤ s'.pos) := by
  unfold decodeReal4
  by_cases h8 : 8 * s.count < s.pos + 8
  · rw [bind_ok (readByte_short hwf.bit h8)]
    exact ⟨_, s, rfl, rfl, rfl, by simp⟩
  obtain ⟨b, hb⟩ := exists_byte (fun j => bitAt s.buf (s.pos + j))
  rw [bind_ok (readByte_run (b := b) hwf (by omega) (fun j hj => (hb j hj).symm)), if_pos rfl]
  dsimp only
  generalize hs1 : ({ s with currentByte := s.currentByte + 1 } : BitStream) = s1
  have e1 : s1.pos = s.pos + 8 := by rw [← hs1]; simp only [BitStream.pos]; omega
  have e2 : s1.buf = s.buf := by rw [← hs1]
  have e3 : s1.count = s.count := by rw [← hs1]
  have e4 : s1.currentBit = s.currentBit := by rw [← hs1]
  have hwf1 : Wf s1 := ⟨by rw [e4]; exact hwf.bit, by rw [e3, e2]; exact hwf.cap⟩
  by_cases h0 : b = 0#8
  · rw [if_pos h0]
    exact ⟨_, s1, rfl, e2, e3, fun _ => ⟨hwf1.bit, by omega, by omega⟩⟩
  rw [if_neg h0]
  by_cases h16 : 8 * s1.count < s1.pos + 8
  · rw [bind_ok (readByte_short hwf1.bit h16)]
    exact ⟨_, s1, rfl, e2, e3, by simp⟩
  obtain ⟨c, hc⟩ := exists_byte (fun j => bitAt s1.buf (s1.pos + j))
  rw [bind_ok (readByte_run (b := c) hwf1 (by omega) (fun j hj => (hc j hj).symm)), if_pos rfl]
  dsimp only
  generalize hs2 : ({ s1 with currentByte := s1.currentByte + 1 } : BitStream) = s2
  have f1 : s2.pos = s.pos + 16 := by rw [← hs2]; simp only [BitStream.pos] at e1 ⊢; omega
  have f2 : s2.buf = s.buf := by rw [← hs2]; exact e2
  have f3 : s2.count = s.count := by rw [← hs2]; exact e3
  have f4 : s2.currentBit = s.currentBit := by rw [← hs2]; exact e4
  have hwf2 : Wf s2 := ⟨by rw [f4]; exact hwf.bit, by rw [f3, f2]; exact hwf.cap⟩
  have hlow : c &&& 3#8 ≠ 3#8 := by
    intro e
    have c6 := hc 6 (by omega)
    have c7 := hc 7 (by omega)
    rw [e1, e2] at c6 c7
    have g6 := congrArg (fun x : Byte => x.getMsbD 6) e
    have g7 := congrArg (fun x : Byte => x.getMsbD 7) e
    simp only [BitVec.getMsbD_and] at g6 g7
    rw [show (3#8 : Byte).getMsbD 6 = true from rfl, Bool.and_true, c6] at g6
    rw [show (3#8 : Byte).getMsbD 7 = true from rfl, Bool.and_true, c7] at g7
    rw [show s.pos + 8 + 6 = s.pos + 14 by omega] at g6
    rw [show s.pos + 8 + 7 = s.pos + 15 by omega] at g7
    rw [g6, g7] at h
    simp at h
  have fin : ∀ r : Bool × Flt, ∃ r' s', (pure r : M (Bool × Flt)) s2 = .ok (r', s') ∧ s'.buf = s.buf ∧ s'.count = s.count ∧
      (r'.1 = true → s'.currentBit < 8 ∧ s'.pos ≤ 8 * s.count ∧ s.pos ≤ s'.pos) :=
    fun r => ⟨r, s2, rfl, f2, f3, fun _ => ⟨hwf2.bit, by omega, by omega⟩⟩
  split
  · exact fin _
  split
  · exact fin _
  split
  · exact fin _
  split
  · exact fin _
  obtain ⟨r, s3, g1, g2, g3, g4⟩ := decodeRealBinary4_safe (b.toNat - 1) hlow s2 hwf2 (by omega)
    (by simp only [Slack] at hsl ⊢; rw [f2, f3]; exact hsl)
  refine ⟨r, s3, g1, g2.trans f2, g3.trans f3, fun hr => ?_⟩
  have := g4 hr
  refine ⟨this.1, by omega, by omega⟩

/-! ## Mantissas of a peer with more digits -/

theorem fltOfU64_shift {n : U64} {m j : Nat} (hm : m < 2 ^ 23) (hj : j ≤ 40) (hn : n.toNat = (2 ^ 23 + m) * 2 ^ j) :
    floatToDouble (fltOfU64 n) = dblMake false ((1046 + j) * 2 ^ 52 + m * 2 ^ 29) := by
  have hp := Nat.two_pow_pos j
  have hne : n ≠ 0#64 := by
    intro h; subst h
    have : 0 < (2 ^ 23 + m) * 2 ^ j := Nat.mul_pos (by omega) hp
    rw [← hn] at this; simp at this
  have hl : Nat.log2 n.toNat = 23 + j := by
    rw [hn, log2_mul_pow j (by omega), log2_eq (k := 23) (by omega) (by omega)]
  have e : fltOfU64 n = fltMake false ((150 + j) * 2 ^ 23 + m) := by
    unfold fltOfU64
    rw [if_neg hne, hl]
    have hq : max (((23 + j : Nat) : Int) - 23) (-149) = (j : Int) := by omega
    simp only [hq]
    have e1 : rne (n.toNat * 2 ^ (-(j : Int)).toNat) (2 ^ (j : Int).toNat) = 2 ^ 23 + m := by
      rw [show (-(j : Int)).toNat = 0 by omega, show (j : Int).toNat = j from rfl, Nat.pow_zero, Nat.mul_one, hn, rne_mul hp]
    rw [e1, show ((j : Int) + 149).toNat = j + 149 by omega]
    have e2 : (j + 149) * 2 ^ 23 + (2 ^ 23 + m) = (150 + j) * 2 ^ 23 + m := by omega
    rw [e2]
  have ht : (fltMake false ((150 + j) * 2 ^ 23 + m)).toNat = (150 + j) * 2 ^ 23 + m := by
    unfold fltMake
    rw [BitVec.toNat_ofNat, if_neg (by simp)]
    omega
  rw [e]
  unfold floatToDouble
  rw [ht]
  dsimp only
  have a1 : ((150 + j) * 2 ^ 23 + m) / 2 ^ 23 % 2 ^ 8 = 150 + j := by omega
  have a2 : ((150 + j) * 2 ^ 23 + m) % 2 ^ 23 = m := by omega
  have a3 : decide (2 ^ 31 ≤ (150 + j) * 2 ^ 23 + m) = false := decide_eq_false (by omega)
  rw [a1, a2, a3, if_neg (by omega), if_neg (by omega), show 150 + j + 896 = 1046 + j by omega]

theorem getFloat_shift {n : U64} {m j : Nat} {x : Int} (hm : m < 2 ^ 23) (hj : j ≤ 40) (hn : n.toNat = (2 ^ 23 + m) * 2 ^ j)
    (h1 : -127 ≤ x) (h2 : x ≤ 127) (h3 : x + j ≤ 104) :
    getFloatByMantissaAndExp n x = pure (fltMake false ((x + j + 150).toNat * 2 ^ 23 + m)) := by
  have hne : n ≠ 0#64 := by
    intro h; subst h
    have : 0 < (2 ^ 23 + m) * 2 ^ j := Nat.mul_pos (by omega) (Nat.two_pow_pos j)
    rw [← hn] at this; simp at this
  have hfl := fltOfU64_shift hm hj hn
  obtain ⟨a1, a2, a3, a4, a5⟩ := dbl_parts false (e := 1046 + j) (m := m * 2 ^ 29) (by omega) (by omega) (by omega)
  have a6 : dblMag (dblMake false ((1046 + j) * 2 ^ 52 + m * 2 ^ 29)) ≠ 0 := by rw [dblMag_make _ (by omega)]; omega
  have hpos : 0 < 2 ^ 23 + m := by omega
  have hlt : 2 ^ 23 + m < 2 ^ 53 := by omega
  have a4' : dblMant (dblMake false ((1046 + j) * 2 ^ 52 + m * 2 ^ 29)) = (2 ^ 23 + m) * 2 ^ 29 := by rw [a4]; omega
  have back : doubleToFloat (dblMake false (exactMag (2 ^ 23 + m) (x + j))) = fltMake false ((x + j + 150).toNat * 2 ^ 23 + m) := by
    rw [exactMag_float hm (by omega) h3, doubleToFloat_normal false (by omega) (by omega) hm,
      show (x + j + 1046).toNat - 896 = (x + j + 150).toNat by omega]
  unfold getFloatByMantissaAndExp
  rw [if_neg hne, hfl]
  by_cases h0 : x ≥ 0
  · rw [if_pos h0, powLoop4_one, show min x.toNat 128 = x.toNat by omega, (fltPow2_facts ⟨x.toNat, by omega⟩).1]
    obtain ⟨b1, b2, b3, b4, b5, b6⟩ := pow2_fields (k := x.toNat) (by omega)
    rw [dblMul_finite ⟨a2, a3, a6⟩ ⟨b3, b4, b5⟩, a1, a4', a5, b1, b2, b6]
    have e := roundMag_exact (m := 2 ^ 23 + m) (29 + 52) 0
      (e := ((1046 + j : Nat) : Int) - 1075 + ((x.toNat : Int) - 52)) (x := x + j) hpos hlt (by omega) (by omega)
    rw [Nat.pow_zero, Nat.pow_add, ← Nat.mul_assoc] at e
    rw [e]
    exact congrArg pure back
  · rw [if_neg h0]
    unfold chk32
    rw [if_pos (by omega), pure_bind, powLoop4_one, show min (-x).toNat 128 = (-x).toNat by omega,
      (fltPow2_facts ⟨(-x).toNat, by omega⟩).1]
    obtain ⟨b1, b2, b3, b4, b5, b6⟩ := pow2_fields (k := (-x).toNat) (by omega)
    rw [dblDiv_finite ⟨a2, a3, a6⟩ ⟨b3, b4, b5⟩, a1, a4', a5, b1, b2, b6]
    rw [roundMag_exact (m := 2 ^ 23 + m) 29 52
      (e := ((1046 + j : Nat) : Int) - 1075 - (((-x).toNat : Int) - 52)) (x := x + j) hpos hlt (by omega) (by omega)]
    exact congrArg pure back

/-- What the decoder makes of the encoding that the runtime for `double` chooses. -/
theorem chosenReal_decoded4 {f : Flt} (h : FiniteFloat f) (he : 52 ≤ fltExp f) : (chosenReal (floatToDouble f)).decoded4 = pure f := by
  have hF := fltFrac_lt f
  have hE : fltExp f ≤ 254 := by have := fltExp_lt f; unfold FiniteFloat at h; unfold fltExp at *; omega
  have hd : floatToDouble f = dblMake (fltSign f) ((fltExp f + 896) * 2 ^ 52 + fltFrac f * 2 ^ 29) := by
    unfold floatToDouble
    dsimp only
    rw [if_neg h, if_neg (show ¬ f.toNat / 2 ^ 23 % 2 ^ 8 = 0 from fun c => by unfold fltExp at he; omega)]
    rfl
  have hmag := dblMag_make (fltSign f) (mag := (fltExp f + 896) * 2 ^ 52 + fltFrac f * 2 ^ 29) (by omega)
  have hexp : dblExp (floatToDouble f) = fltExp f + 896 := by rw [hd]; unfold dblExp; rw [hmag]; omega
  have hfr : dblFrac (floatToDouble f) = fltFrac f * 2 ^ 29 := by rw [hd]; unfold dblFrac; rw [hmag]; omega
  have hM : (chosenReal (floatToDouble f)).mantissa * 2 ^ (chosenReal (floatToDouble f)).scale = (2 ^ 23 + fltFrac f) * 2 ^ 29 := by
    show (2 ^ 52 + dblFrac (floatToDouble f)) * 2 ^ 0 = _
    rw [hfr]; omega
  have hX : (((chosenReal (floatToDouble f)).baseLog : Nat) : Int) * (chosenReal (floatToDouble f)).exponent = (fltExp f : Int) - 179 := by
    show ((1 : Nat) : Int) * ((dblExp (floatToDouble f) : Int) - 1075) = _
    rw [hexp]; omega
  have hN : (chosenReal (floatToDouble f)).neg = fltSign f := floatToDouble_sign f
  unfold BinaryReal.decoded4
  rw [hM, hX, hN, getFloat_shift (m := fltFrac f) (j := 29) hF (by omega) (by rw [BitVec.toNat_ofNat]; omega) (by omega) (by omega) (by omega),
    pure_bind, show ((fltExp f : Int) - 179 + ((29 : Nat) : Int) + 150).toNat = fltExp f by omega]
  refine congrArg pure ?_
  have hs := fltMake_self f
  cases hsg : fltSign f
  · rw [hsg] at hs; rw [if_neg (by simp)]; exact hs
  · rw [hsg] at hs
    rw [if_pos rfl, fltNeg_make (by omega)]
    exact hs

end Asn1
