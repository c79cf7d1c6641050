import Verif.Proof.Real
/-!
# REAL: the encoder, and the double the decoder gives back
-/
namespace Asn1

/-- The binary encoding that the encoder chooses for a finite number that is not 0. -/
def chosenReal (d : Dbl) : BinaryReal where
  neg := dblSign d
  baseCode := 0
  scale := 0
  expOctets := octetsInt ((dblExp d : Int) - 1075)
  exponent := (dblExp d : Int) - 1075
  manOctets := 7
  mantissa := 2 ^ 52 + dblFrac d

theorem octetsInt_real {e : Int} (h1 : -1075 ≤ e) (h2 : e < 1024) :
    1 ≤ octetsInt e ∧ octetsInt e ≤ 2 ∧ FitsTwos (8 * octetsInt e) e := by
  have hpos := octetsInt_pos e
  have hle := (octetsInt_le_iff e 2 (by omega)).2 (by constructor <;> (simp only [Nat.reduceMul, Nat.reduceSub]; omega))
  have hf := (octetsInt_le_iff e _ hpos).1 (Nat.le_refl _)
  exact ⟨hpos, hle, by omega, hf⟩

theorem chosenReal_ok (d : Dbl) : (chosenReal d).Ok := by
  have h := dblExp_lt d
  have hf := dblFrac_lt d
  obtain ⟨h1, h2, h3⟩ := octetsInt_real (e := (dblExp d : Int) - 1075) (by omega) (by omega)
  exact ⟨by simp [chosenReal], by simp [chosenReal], ⟨h1, by simp only [chosenReal]; omega⟩, h3,
    by simp only [chosenReal]; omega, by simp only [chosenReal]; omega⟩

theorem octetsNat_mantissa {m : Nat} (h1 : 2 ^ 52 ≤ m) (h2 : m < 2 ^ 53) : octetsNat m = 7 := by
  have a := (octetsNat_le_iff m 7 (by omega)).2 (by omega)
  have b : ¬ octetsNat m ≤ 6 := fun h => by
    have := (octetsNat_le_iff m 6 (by omega)).1 h
    omega
  omega

theorem octet_appends {n : Nat} (h : n ≤ 255) : Appends (encodeConstraintWholeNumber (n : Int) 0 0xFF) () (bitsMsb 8 n) :=
  lengthOctet_appends h

theorem header_ors : ∀ (s : Bool) (n : Fin 3),
    ((if n.val + 1 = 2 then (if s then 0x80#8 ||| 0x40#8 else 0x80#8) ||| 1#8
      else if n.val + 1 = 3 then (if s then 0x80#8 ||| 0x40#8 else 0x80#8) ||| 2#8
      else (if s then 0x80#8 ||| 0x40#8 else 0x80#8)) : Byte)
    = BitVec.ofNat 8 (128 + (if s then 64 else 0) + 16 * 0 + 4 * 0 + (n.val + 1 - 1)) := by
  decide

theorem encodeRealBinary_appends {d v : Dbl} (he : dblExp v = dblExp d) (hf : dblFrac v = dblFrac d) :
    Appends (encodeRealBinary (if dblSign d then 0x80#8 ||| 0x40#8 else 0x80#8) v) () (chosenReal d).code := by
  have hok := chosenReal_ok d
  have hE := dblExp_lt d
  have hF := dblFrac_lt d
  obtain ⟨h1, h2, h3⟩ := octetsInt_real (e := (dblExp d : Int) - 1075) (by omega) (by omega)
  have hx : (calculateMantissaAndExponent v).1 = (dblExp d : Int) - 1075 := by rw [calculate_exponent, he]
  have hm : (calculateMantissaAndExponent v).2.toNat = 2 ^ 52 + dblFrac d := by rw [calculate_mantissa, hf]
  unfold encodeRealBinary
  simp only [hx]
  rw [getLengthInBytesOfSInt_eq (by omega) (by omega), pure_bind]
  have ha : assertC (decide (octetsInt ((dblExp d : Int) - 1075) ≤ 3)) = pure () := by
    funext s; simp [assertC, show octetsInt ((dblExp d : Int) - 1075) ≤ 3 by omega]
  rw [ha, pure_bind, getLengthInBytesOfUInt_eq, hm, octetsNat_mantissa (by omega) (by omega)]
  have hh : (if octetsInt ((dblExp d : Int) - 1075) = 2 then (if dblSign d then 0x80#8 ||| 0x40#8 else 0x80#8) ||| 1#8
      else if octetsInt ((dblExp d : Int) - 1075) = 3 then (if dblSign d then 0x80#8 ||| 0x40#8 else 0x80#8) ||| 2#8
      else (if dblSign d then 0x80#8 ||| 0x40#8 else 0x80#8)) = (chosenReal d).header := by
    have := header_ors (dblSign d) ⟨octetsInt ((dblExp d : Int) - 1075) - 1, by omega⟩
    simp only [show octetsInt ((dblExp d : Int) - 1075) - 1 + 1 = octetsInt ((dblExp d : Int) - 1075) by omega] at this
    exact this
  rw [hh]
  have hcode : (chosenReal d).code = bitsMsb 8 (1 + octetsInt ((dblExp d : Int) - 1075) + 7) ++
      (bitsMsb 8 (chosenReal d).header.toNat ++ (twosCode (8 * octetsInt ((dblExp d : Int) - 1075)) ((dblExp d : Int) - 1075) ++
        bitsMsb (8 * 7) (2 ^ 52 + dblFrac d))) := by
    unfold BinaryReal.code BinaryReal.contents
    have e := (BinaryReal.header_eq _ hok).1
    rw [byteBits] at e
    rw [e]
    simp only [List.append_assoc]
    rfl
  rw [hcode]
  refine (octet_appends (by omega)).bind ?_
  refine (octet_appends (by have := (chosenReal d).header.isLt; omega)).bind ?_
  have ht := twosPart_appends h3 (by omega) (by omega)
  rw [Nat.mul_comm 8] at ht
  rw [Nat.mul_comm 8 (octetsInt _)]
  refine ht.bind ?_
  have hp := padded_appends (n := 7 * 8) (v := (calculateMantissaAndExponent v).2) (by rw [hm]; omega)
  rw [hm] at hp
  exact hp

/-- A finite number that is not 0. -/
def FinNonzero (d : Dbl) : Prop := dblExp d ≠ 2047 ∧ dblMag d ≠ 0

theorem FinNonzero.mag_lt {d : Dbl} (h : FinNonzero d) : dblMag d < 2047 * 2 ^ 52 := by
  have := dblExp_lt d
  have := dblMag_split d
  have := dblFrac_lt d
  have := h.1
  omega

theorem key_zero : dblKey 0#64 = 0 ∧ dblKey 0x8000000000000000#64 = 0 ∧ dblKey dblInf = 2047 * 2 ^ 52 ∧
    dblKey (dblNeg dblInf) = -(2047 * 2 ^ 52) := by decide +kernel

theorem encodeReal_appends {d : Dbl} (h : FinNonzero d) : Appends (encodeReal d) () (chosenReal d).code := by
  have hlt := h.mag_lt
  have hnz := h.2
  have hnan : dblIsNan d = false := decide_eq_false (by omega)
  obtain ⟨k0, k1, k2, k3⟩ := key_zero
  unfold encodeReal
  have hkey : dblKey d ≠ 0 ∧ dblKey d ≠ 2047 * 2 ^ 52 ∧ dblKey d ≠ -(2047 * 2 ^ 52) := by
    unfold dblKey; split <;> omega
  rw [if_neg (by simp [hnan]), if_neg (by simp [dblEq, k0, hkey.1]), if_neg (by simp [dblEq, k1, hkey.1]),
    if_neg (by simp only [dblEq, k2]; simp only [hkey.2.1, decide_false, Bool.and_false]; simp),
    if_neg (by simp only [dblEq, k3]; simp only [hkey.2.2, decide_false, Bool.and_false]; simp)]
  have hz : dblIsNan 0#64 = false := by decide +kernel
  by_cases hs : dblSign d
  · have := encodeRealBinary_appends (d := d) (v := dblNeg d)
      (by rw [dblNeg_eq, dblExp_make _ (dblMag_lt d)]; rfl) (by rw [dblNeg_eq, dblFrac_make _ (dblMag_lt d)]; rfl)
    rw [if_pos hs] at this
    rw [if_pos]
    · exact this
    · have hk : dblKey d = -(dblMag d : Int) := by unfold dblKey; rw [if_pos hs]
      simp only [dblLt, hnan, hz, k0, hk]
      simp; omega
  · have := encodeRealBinary_appends (d := d) (v := d) rfl rfl
    rw [if_neg hs] at this
    rw [if_neg]
    · exact this
    · have hk : dblKey d = (dblMag d : Int) := by unfold dblKey; rw [if_neg hs]
      simp only [dblLt, hnan, hz, k0, hk]
      simp

/-- The contents octets of the special values. -/
theorem encodeReal_special {d : Dbl} {n : Nat} (hn : n ≤ 255)
    (h : encodeReal d = (do encodeConstraintWholeNumber 1 0 0xFF; encodeConstraintWholeNumber (n : Nat) 0 0xFF)) :
    Appends (encodeReal d) () (bitsMsb 8 1 ++ bitsMsb 8 n) := by
  rw [h]
  exact (octet_appends (n := 1) (by omega)).bind (octet_appends hn)

theorem decodeReal_special {n : Byte} {d : Dbl} (h : (n = 0x40#8 ∧ d = dblInf) ∨ (n = 0x41#8 ∧ d = dblNeg dblInf) ∨
      (n = 0x42#8 ∧ d = dblNan) ∨ (n = 0x43#8 ∧ d = 0x8000000000000000#64)) :
    Reads decodeReal (true, d) (bitsMsb 8 1 ++ bitsMsb 8 n.toNat) ∧ Short decodeReal (bitsMsb 8 1 ++ bitsMsb 8 n.toNat) := by
  have e1 : bitsMsb 8 1 = byteBits 1#8 := rfl
  have e2 : bitsMsb 8 n.toNat = byteBits n ++ [] := by rw [List.append_nil, byteBits]
  rw [e1, e2]
  unfold decodeReal
  constructor
  · refine (readByte_reads _).bind ?_
    rw [if_pos rfl, if_neg (by decide)]
    refine (readByte_reads _).bind ?_
    rw [if_pos rfl]
    rcases h with ⟨h, h'⟩ | ⟨h, h'⟩ | ⟨h, h'⟩ | ⟨h, h'⟩ <;> subst h <;> subst h' <;> exact Reads.pure _
  · refine (readByte_needs.short (by simp)).bind (readByte_reads _) ?_ (fun a => ⟨_, by rw [if_neg (by simp)]⟩)
    rw [if_pos rfl, if_neg (by decide)]
    exact (readByte_needs.short (by simp)).bind (readByte_reads _) (Short.nil _) (fun a => ⟨_, by rw [if_neg (by simp)]⟩)

theorem encodeReal_zero {d : Dbl} (h : dblMag d = 0) : Appends (encodeReal d) () (bitsMsb 8 0) := by
  have hnan : dblIsNan d = false := decide_eq_false (by omega)
  have hz : dblIsNan 0#64 = false := by decide +kernel
  have hk : dblKey d = 0 := by unfold dblKey; rw [h]; simp
  unfold encodeReal
  rw [if_neg (by simp [hnan]), if_pos (by simp [dblEq, hnan, hz, hk, key_zero.1])]
  exact octet_appends (n := 0) (by omega)

theorem decodeReal_zero : Reads decodeReal (true, 0#64) (bitsMsb 8 0) ∧ Short decodeReal (bitsMsb 8 0) := by
  have e2 : bitsMsb 8 0 = byteBits 0#8 ++ [] := rfl
  rw [e2]
  unfold decodeReal
  constructor
  · refine (readByte_reads _).bind ?_
    rw [if_pos rfl, if_pos rfl]
    exact Reads.pure _
  · exact (readByte_needs.short (by simp)).bind (readByte_reads _) (Short.nil _) (fun a => ⟨_, by rw [if_neg (by simp)]⟩)

/-- The double that the decoder computes. -/
theorem BinaryReal.decoded_eq {r : BinaryReal} (h : r.Ok) (hm : 0 < r.mantissa) (hm2 : r.mantissa * 2 ^ r.scale < 2 ^ 53) :
    r.decoded = pure (dblMake r.neg (if -1023 ≤ (r.baseLog : Int) * r.exponent
      then exactMag (r.mantissa * 2 ^ r.scale) (r.baseLog * r.exponent) else 0)) := by
  unfold BinaryReal.decoded
  obtain ⟨p1, p2⟩ := BinaryReal.power_bounds h
  have hpos : 0 < r.mantissa * 2 ^ r.scale := Nat.mul_pos hm (Nat.two_pow_pos _)
  have et : (BitVec.ofNat 64 (r.mantissa * 2 ^ r.scale)).toNat = r.mantissa * 2 ^ r.scale := by
    rw [BitVec.toNat_ofNat, Nat.mod_eq_of_lt (by omega)]
  rw [getDouble_eq (by rw [et]; exact hpos) (by rw [et]; exact hm2) p1 p2, pure_bind, et]
  congr 1
  have hb : exactMag (r.mantissa * 2 ^ r.scale) (r.baseLog * r.exponent) < 2 ^ 63 := by unfold exactMag; omega
  have hz : (0#64 : Dbl) = dblMake false 0 := by decide
  cases r.neg
  · rw [if_neg (by simp)]; split
    · rfl
    · exact hz
  · rw [if_pos rfl]
    split
    · rw [dblNeg_make _ hb]; rfl
    · rw [hz, dblNeg_make _ (by omega)]; rfl

/-- Round trip of the numbers from `2 ^ -971` on. -/
theorem chosenReal_decoded {d : Dbl} (h : FinNonzero d) :
    (chosenReal d).decoded = pure (if 52 ≤ dblExp d then d else dblMake (dblSign d) 0) := by
  have hF := dblFrac_lt d
  have hE := dblExp_lt d
  have hlt := h.mag_lt
  have hs := dblMag_split d
  have hb : (chosenReal d).baseLog = 1 := rfl
  have hM : (chosenReal d).mantissa * 2 ^ (chosenReal d).scale = 2 ^ 52 + dblFrac d := by
    show (2 ^ 52 + dblFrac d) * 2 ^ 0 = _
    rw [Nat.pow_zero, Nat.mul_one]
  have hX : (((chosenReal d).baseLog : Nat) : Int) * (chosenReal d).exponent = (dblExp d : Int) - 1075 := by
    rw [hb]; show ((1 : Nat) : Int) * ((dblExp d : Int) - 1075) = _; omega
  rw [BinaryReal.decoded_eq (chosenReal_ok d) (by show 0 < 2 ^ 52 + dblFrac d; omega) (by rw [hM]; omega), hM, hX]
  congr 1
  show dblMake (dblSign d) _ = _
  by_cases he : 52 ≤ dblExp d
  · rw [if_pos (by omega), if_pos he]
    have hl : Nat.log2 (2 ^ 52 + dblFrac d) = 52 := (Nat.log2_eq_iff (by omega)).2 (by omega)
    have hp : lastPlace (2 ^ 52 + dblFrac d) ((dblExp d : Int) - 1075) = (dblExp d : Int) - 1075 := by
      unfold lastPlace; rw [hl]; omega
    have hx : exactMag (2 ^ 52 + dblFrac d) ((dblExp d : Int) - 1075) = dblMag d := by
      unfold exactMag
      rw [hp, Int.sub_self, show (0 : Int).toNat = 0 from rfl, Nat.pow_zero, Nat.mul_one,
        show ((dblExp d : Int) - 1075 + 1074).toNat = dblExp d - 1 by omega]
      have : (dblExp d - 1) * 2 ^ 52 + 2 ^ 52 = dblExp d * 2 ^ 52 := by omega
      omega
    rw [hx, dblMake_fields]
  · rw [if_neg (by omega), if_neg he]

end Asn1
