import Verif.Proof.Float
import Verif.Proof.AcnInt
import Verif.Spec.Real
/-!
# REAL: what encoder and decoder write and read
-/
namespace Asn1

/-- Two's complement in `n` bits, as written for the exponent. -/
theorem twosPart_appends {v : Int} {n : Nat} (h : FitsTwos n v) (h1 : -(2 ^ 63) < v) (h2 : v < 2 ^ 63) :
    Appends (if v ≥ 0 then do
        appendNBitZero ((n : Int) - getNumberOfBits (BitVec.ofInt 64 v))
        encodeNonNegativeInteger (BitVec.ofInt 64 v)
      else do
        appendNBitOne ((n : Int) - getNumberOfBits (BitVec.ofInt 64 (-v - 1))).toNat
        encodeNonNegativeIntegerNeg (BitVec.ofInt 64 (-v - 1)) true) () (twosCode n v) := by
  unfold twosCode
  rw [twos_mod h]
  obtain ⟨P, p1, p2, p3, p4, p5, p6⟩ := h.nat
  by_cases hv : v ≥ 0
  · rw [if_pos hv, if_neg (by omega)]
    have e := ofInt_toNat (x := v) hv (by omega)
    have := padded_appends (n := n) (v := BitVec.ofInt 64 v) (by rw [e]; omega)
    rw [e] at this
    exact this
  · rw [if_neg hv, if_pos (by omega)]
    have e := ofInt_toNat (x := -v - 1) (by omega) (by omega)
    have hw : (-v - 1).toNat < 2 ^ n := by omega
    have hle := (bitLen_le_iff _ _).2 hw
    rw [show 2 ^ n - (-v).toNat = 2 ^ n - ((-v - 1).toNat + 1) by omega, ← bitsMsb_compl hw]
    have hn : ((n : Int) - getNumberOfBits (BitVec.ofInt 64 (-v - 1))).toNat = n - bitLen (-v - 1).toNat := by
      rw [getNumberOfBits_eq, e]; omega
    rw [hn]
    have := (appendNBitOne_appends (n - bitLen (-v - 1).toNat)).bind
      (g := fun _ => encodeNonNegativeIntegerNeg (BitVec.ofInt 64 (-v - 1)) true)
      (encodeNonNegativeIntegerNeg_appends (BitVec.ofInt 64 (-v - 1)) true)
    refine this.congr ?_
    rw [e]
    have hs := bitsMsb_pad (n - bitLen (-v - 1).toNat) (bitLen (-v - 1).toNat) (-v - 1).toNat (lt_two_pow_bitLen _)
    rw [Nat.sub_add_cancel hle] at hs
    rw [hs]
    simp [negBits]

/-! ## The exponent octets -/

theorem exponentLoop_eq : ∀ (k : Nat) (v : U64),
    exponentLoop k (v.setWidth 32) = decodeBytesLoop k v >>= fun r => pure (r.1, r.2.setWidth 32)
  | 0, v => rfl
  | k + 1, v => by
    simp only [exponentLoop, decodeBytesLoop, bind_assoc]
    congr 1
    funext r
    cases h : r.1
    · simp
    · simp only [if_true]
      rw [← exponentLoop_eq k]
      congr 1
      ext i hi
      simp

theorem exponentLoop_safe : ∀ (k : Nat) (e : BitVec 32), Safe (exponentLoop k e)
  | 0, e => Safe.pure true e
  | k + 1, e => by
    simp only [exponentLoop]
    refine readByte_safe.bind (fun a => ?_) (fun a => ⟨_, by rw [if_neg (by simp)]⟩)
    rw [if_pos rfl]
    exact exponentLoop_safe k _

/-- Accumulating one to four octets onto all-ones or zero gives the signed value. -/
theorem twos_value32 {v : Int} {k : Nat} (hk : 1 ≤ k) (hk8 : k ≤ 4) (h1 : -(2 ^ (8 * k - 1) : Int) ≤ v) (h2 : v < 2 ^ (8 * k - 1)) :
    ((BitVec.ofNat 64 ((if decide (v < 0) = true then 2 ^ 64 - 1 else 0) * 2 ^ (8 * k) + (v % 2 ^ (8 * k)).toNat)).setWidth 32).toInt = v := by
  have hk' : k = 1 ∨ k = 2 ∨ k = 3 ∨ k = 4 := by omega
  simp only [BitVec.toInt, BitVec.toNat_ofNat, BitVec.toNat_setWidth, decide_eq_true_eq]
  rcases hk' with h | h | h | h <;> subst h <;>
  (simp only [Nat.reduceMul, Nat.reduceSub, Nat.reducePow, Int.reducePow] at h1 h2 ⊢
   split <;> split <;> omega)

theorem twosCode_head {v : Int} {k : Nat} (h : FitsTwos (8 * k) v) : ∃ w, twosCode (8 * k) v = decide (v < 0) :: w := by
  have := h.1
  exact twos_head (by omega) h.2.1 h.2.2

theorem twosCode_mod_lt (n : Nat) (v : Int) : (v % 2 ^ n).toNat < 2 ^ n := by
  have hnat : ((2 ^ n : Nat) : Int) = 2 ^ n := by norm_cast
  rw [← hnat]
  have hp : 0 < 2 ^ n := Nat.two_pow_pos _
  have := Int.emod_lt_of_pos v (b := ((2 ^ n : Nat) : Int)) (by omega)
  omega

theorem exponentLoop_reads {v : Int} {k : Nat} (hk : k ≤ 4) (h : FitsTwos (8 * k) v) :
    ∃ x : BitVec 32, x.toInt = v ∧
      Reads (exponentLoop k (if decide (v < 0) = true then 0xFFFFFFFF#32 else 0#32)) (true, x) (twosCode (8 * k) v) := by
  have h1 := h.1
  refine ⟨_, twos_value32 (by omega) hk h.2.1 h.2.2, ?_⟩
  obtain ⟨r, _⟩ := decodeBytesLoop_reads k (if decide (v < 0) = true then 2 ^ 64 - 1 else 0) _ (twosCode_mod_lt (8 * k) v)
  have e : (if decide (v < 0) = true then 0xFFFFFFFF#32 else 0#32)
      = (BitVec.ofNat 64 (if decide (v < 0) = true then 2 ^ 64 - 1 else 0)).setWidth 32 := by
    by_cases h : v < 0 <;> simp [h]
  rw [e, exponentLoop_eq]
  exact r.map (h := fun r : Bool × U64 => (r.1, r.2.setWidth 32))

theorem exponentLoop_short {v : Int} {k : Nat} (c : Bool) :
    Short (exponentLoop k (if c = true then 0xFFFFFFFF#32 else 0#32)) (twosCode (8 * k) v) := by
  obtain ⟨_, s⟩ := decodeBytesLoop_reads k (if c = true then 2 ^ 64 - 1 else 0) _ (twosCode_mod_lt (8 * k) v)
  have e : (if c = true then 0xFFFFFFFF#32 else 0#32)
      = (BitVec.ofNat 64 (if c = true then 2 ^ 64 - 1 else 0)).setWidth 32 := by
    cases c <;> simp
  rw [e, exponentLoop_eq]
  exact s.map (h := fun r : Bool × U64 => (r.1, r.2.setWidth 32)) (fun _ h => h)

theorem exponentLoop_reads' {v : Int} {k : Nat} (c : Bool) :
    ∃ x, Reads (exponentLoop k (if c = true then 0xFFFFFFFF#32 else 0#32)) (true, x) (twosCode (8 * k) v) := by
  obtain ⟨r, _⟩ := decodeBytesLoop_reads k (if c = true then 2 ^ 64 - 1 else 0) _ (twosCode_mod_lt (8 * k) v)
  have e : (if c = true then 0xFFFFFFFF#32 else 0#32)
      = (BitVec.ofNat 64 (if c = true then 2 ^ 64 - 1 else 0)).setWidth 32 := by
    cases c <;> simp
  rw [e, exponentLoop_eq]
  exact ⟨_, r.map (h := fun r : Bool × U64 => (r.1, r.2.setWidth 32))⟩

/-! ## The decoder -/

/-- The first contents octet. -/
def BinaryReal.header (r : BinaryReal) : Byte :=
  BitVec.ofNat 8 (128 + (if r.neg then 64 else 0) + 16 * r.baseCode + 4 * r.scale + (r.expOctets - 1))

theorem header_facts : ∀ (neg : Bool) (b : Fin 3) (f : Fin 4) (n : Fin 3),
    (let h := BitVec.ofNat 8 (128 + (if neg then 64 else 0) + 16 * b.val + 4 * f.val + n.val)
     [true, neg] ++ bitsMsb 2 b.val ++ bitsMsb 2 f.val ++ bitsMsb 2 n.val = byteBits h ∧
     h ≠ 0x40#8 ∧ h ≠ 0x41#8 ∧ h ≠ 0x42#8 ∧ h ≠ 0x43#8 ∧
     decide (h &&& 0x40#8 ≠ 0#8) = neg ∧
     (if h &&& 0x10#8 ≠ 0#8 then (3 : Int) else if h &&& 0x20#8 ≠ 0#8 then 4 else 1)
        = ((if b.val = 0 then 1 else if b.val = 1 then 3 else 4 : Nat) : Int) ∧
     (1#64 <<< ((h &&& 0x0C#8) >>> 2).toNat).toNat = 2 ^ f.val ∧
     (h &&& 0x03#8).toNat = n.val) := by
  decide +kernel

theorem BinaryReal.header_eq (r : BinaryReal) (h : r.Ok) :
    [true, r.neg] ++ bitsMsb 2 r.baseCode ++ bitsMsb 2 r.scale ++ bitsMsb 2 (r.expOctets - 1) = byteBits r.header ∧
    r.header ≠ 0x40#8 ∧ r.header ≠ 0x41#8 ∧ r.header ≠ 0x42#8 ∧ r.header ≠ 0x43#8 ∧
    decide (r.header &&& 0x40#8 ≠ 0#8) = r.neg ∧
    (if r.header &&& 0x10#8 ≠ 0#8 then (3 : Int) else if r.header &&& 0x20#8 ≠ 0#8 then 4 else 1) = (r.baseLog : Int) ∧
    (1#64 <<< ((r.header &&& 0x0C#8) >>> 2).toNat).toNat = 2 ^ r.scale ∧
    (r.header &&& 0x03#8).toNat + 1 = r.expOctets := by
  have := h.octets
  obtain ⟨h1, h2, h3, h4, h5, h6, h7, h8, h9⟩ :=
    header_facts r.neg ⟨r.baseCode, h.base⟩ ⟨r.scale, h.scale⟩ ⟨r.expOctets - 1, by omega⟩
  refine ⟨h1, h2, h3, h4, h5, h6, h7, h8, ?_⟩
  have h9' : (r.header &&& 0x03#8).toNat = r.expOctets - 1 := h9
  omega

/-- What the decoder makes of a binary encoding. -/
def BinaryReal.decoded (r : BinaryReal) : M Dbl := do
  let v ← getDoubleByMantissaAndExp (BitVec.ofNat 64 (r.mantissa * 2 ^ r.scale)) (r.baseLog * r.exponent)
  pure (if r.neg then dblNeg v else v)

theorem exponent_lt {n : Nat} {e : Int} (hn : n ≤ 3) (h : FitsTwos (8 * n) e) : -(2 ^ 23) ≤ e ∧ e < 2 ^ 23 := by
  have h0 := h.1
  have hle : (2 : Nat) ^ (8 * n - 1) ≤ 2 ^ 23 := Nat.pow_le_pow_right (by omega) (by omega)
  have hle' : (2 : Int) ^ (8 * n - 1) ≤ 2 ^ 23 := by exact_mod_cast hle
  have := h.2
  omega

theorem BinaryReal.baseLog_bounds (r : BinaryReal) : 1 ≤ r.baseLog ∧ r.baseLog ≤ 4 := by
  unfold BinaryReal.baseLog; split
  · omega
  · split <;> omega

theorem BinaryReal.power_bounds {r : BinaryReal} (h : r.Ok) :
    -(2 ^ 31) < (r.baseLog : Int) * r.exponent ∧ (r.baseLog : Int) * r.exponent < 2 ^ 31 := by
  obtain ⟨e1, e2⟩ := exponent_lt h.octets.2 h.exponent
  have hb : r.baseLog = 1 ∨ r.baseLog = 3 ∨ r.baseLog = 4 := by
    unfold BinaryReal.baseLog; split
    · omega
    · split <;> omega
  rcases hb with hb | hb | hb <;> rw [hb] <;> omega

theorem decodeReal_reads {r : BinaryReal} (h : r.Ok) {d : Dbl} (hd : r.decoded = pure d) :
    Reads decodeReal (true, d) r.code ∧ Short decodeReal r.code := by
  obtain ⟨h1, h2, h3, h4, h5, h6, h7, h8, h9⟩ := r.header_eq h
  have hlen := h.length
  have hoct := h.octets
  have hk : 1 + r.expOctets + r.manOctets < 256 := by omega
  obtain ⟨w, hw⟩ := twosCode_head h.exponent
  obtain ⟨x, hx, hxr⟩ := exponentLoop_reads (by omega) h.exponent
  obtain ⟨mr, ms⟩ := decodeBytesLoop_reads r.manOctets 0 r.mantissa h.mantissa
  rw [Nat.zero_mul, Nat.zero_add] at mr
  have hl8 : byteBits (BitVec.ofNat 8 (1 + r.expOctets + r.manOctets)) = bitsMsb 8 (1 + r.expOctets + r.manOctets) := by
    rw [byteBits, BitVec.toNat_ofNat, Nat.mod_eq_of_lt hk]
  have hcode : r.code = byteBits (BitVec.ofNat 8 (1 + r.expOctets + r.manOctets)) ++ (byteBits r.header ++
      (twosCode (8 * r.expOctets) r.exponent ++ (bitsMsb (8 * r.manOctets) r.mantissa ++ []))) := by
    unfold BinaryReal.code BinaryReal.contents
    rw [hl8, ← h1]
    simp
  have hL : ((BitVec.ofNat 8 (1 + r.expOctets + r.manOctets) : Byte)).toNat - 1 = r.expOctets + r.manOctets := by
    rw [BitVec.toNat_ofNat, Nat.mod_eq_of_lt hk]; omega
  have hne : (BitVec.ofNat 8 (1 + r.expOctets + r.manOctets) : Byte) ≠ 0#8 := by
    intro e
    have := congrArg BitVec.toNat e
    rw [BitVec.toNat_ofNat, Nat.mod_eq_of_lt hk] at this
    simp at this
  rw [hcode]
  unfold decodeReal
  have hend : (chk32 ((r.baseLog : Int) * r.exponent) >>= fun x =>
      getDoubleByMantissaAndExp (BitVec.ofNat 64 r.mantissa * (1#64 <<< ((r.header &&& 0x0C#8) >>> 2).toNat)) x >>= fun v =>
        (pure (true, if r.neg = true then dblNeg v else v) : M (Bool × Dbl))) = pure (true, d) := by
    have e1 : chk32 ((r.baseLog : Int) * r.exponent) = pure ((r.baseLog : Int) * r.exponent) := by
      unfold chk32
      have := BinaryReal.power_bounds h
      rw [if_pos (by omega)]
    have e2 : BitVec.ofNat 64 r.mantissa * (1#64 <<< ((r.header &&& 0x0C#8) >>> 2).toNat)
        = BitVec.ofNat 64 (r.mantissa * 2 ^ r.scale) := by
      apply BitVec.eq_of_toNat_eq
      rw [BitVec.toNat_mul, h8, BitVec.toNat_ofNat, BitVec.toNat_ofNat, Nat.mod_mul_mod]
    rw [e1, pure_bind, e2]
    have := congrArg (fun m : M Dbl => m >>= fun v => (pure (true, v) : M (Bool × Dbl))) hd
    simp only [BinaryReal.decoded, bind_assoc, pure_bind] at this
    exact this
  constructor
  · refine (readByte_reads _).bind ?_
    rw [if_pos rfl, if_neg hne]
    refine (readByte_reads _).bind ?_
    rw [if_pos rfl]
    simp only [if_neg h2, if_neg h3, if_neg h4, if_neg h5]
    unfold decodeRealBinary
    simp only [h6, h7, h9, hL]
    rw [if_neg (by omega), hw, List.cons_append]
    apply Reads.peek
    rw [← List.cons_append, ← hw]
    refine hxr.bind ?_
    rw [if_pos rfl, Nat.add_sub_cancel_left]
    refine mr.bind ?_
    rw [if_pos rfl]
    simp only [hx]
    rw [hend]
    exact Reads.pure _
  · refine (readByte_needs.short (by simp)).bind (readByte_reads _) ?_ (fun a => ⟨_, by rw [if_neg (by simp)]⟩)
    rw [if_pos rfl, if_neg hne]
    refine (readByte_needs.short (by simp)).bind (readByte_reads _) ?_ (fun a => ⟨_, by rw [if_neg (by simp)]⟩)
    rw [if_pos rfl]
    simp only [if_neg h2, if_neg h3, if_neg h4, if_neg h5]
    unfold decodeRealBinary
    simp only [h6, h7, h9, hL]
    rw [if_neg (by omega)]
    apply Short.peek
    intro c
    obtain ⟨y, hyr⟩ := exponentLoop_reads' (v := r.exponent) (k := r.expOctets) c
    refine (exponentLoop_short c).bind hyr ?_ (fun a => ⟨_, by rw [if_neg (by simp)]⟩)
    rw [if_pos rfl, Nat.add_sub_cancel_left]
    exact ms.bind mr (Short.nil _) (fun a => ⟨_, by rw [if_neg (by simp)]⟩)

end Asn1
