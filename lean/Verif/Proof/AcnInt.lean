import Verif.Model.AcnInt
import Verif.Spec.Acn
import Verif.Proof.Oid
import Verif.Proof.Pattern
/-! Proofs about ACN integers, alignment, booleans and IEEE754 images. -/
namespace Asn1

theorem assertInBounds_appends : Appends assertInBounds () [] := by
  intro s bs hs hroom
  refine ⟨s, assertInBounds_run ?_, by simpa using hs, Frame.refl s⟩
  rw [hs.pos]; exact hs.room

theorem Appends.check {f : M Unit} {w : List Bool} (h : Appends f () w) : Appends (do f; assertInBounds) () w := by
  have := h.bind (g := fun _ => assertInBounds) assertInBounds_appends
  simpa using this

theorem Appends.checkV {α : Type} {f : M α} {a : α} {w : List Bool} (h : Appends f a w) :
    Appends (do let _ ← f; assertInBounds) () w := by
  have := h.bind (g := fun _ => assertInBounds) assertInBounds_appends
  simpa using this

/-! ### positive integers -/

theorem acnEncUIntConstSize_appends {v : U64} {n : Nat} (h : v.toNat < 2 ^ n) :
    Appends (acnEncUIntConstSize v n) () (bitsMsb n v.toNat) := by
  unfold acnEncUIntConstSize
  by_cases h0 : n = 0
  · subst h0; exact Appends.pure _
  · rw [if_neg h0]
    have := (padded_appends (n := n) (v := v) h).check
    simpa only [bind_assoc] using this

theorem acnDecUIntConstSize_reads {v n : Nat} (hn : n ≤ 64) (h : v < 2 ^ n) :
    Reads (acnDecUIntConstSize n) (true, BitVec.ofNat 64 v) (bitsMsb n v) ∧
    Short (acnDecUIntConstSize n) (bitsMsb n v) := by
  obtain ⟨r, s⟩ := decodeNonNegativeInteger_reads hn h
  unfold acnDecUIntConstSize
  constructor
  · rw [← List.append_nil (bitsMsb _ _)]
    refine r.bind ?_
    rw [if_pos rfl]; exact Reads.pure _
  · rw [← List.append_nil (bitsMsb _ _)]
    exact s.bind r (Short.nil _) (fun a => ⟨0#64, by rw [if_neg (by simp)]⟩)

theorem acnDecUIntConstSize_safe {n : Nat} (hn : n ≤ 64) : Safe (acnDecUIntConstSize n) := by
  unfold acnDecUIntConstSize
  refine (decodeNonNegativeInteger_safe hn).bind (fun a => ?_) (fun a => ⟨0#64, by rw [if_neg (by simp)]⟩)
  rw [if_pos rfl]; exact Safe.pure _ _

theorem acnEncUIntConstSize8_appends (v : U64) : Appends (acnEncUIntConstSize8 v) () (bitsMsb 8 v.toNat) := by
  have := (appendByte0_writes (v.setWidth 8)).appends.checkV
  rw [byteBits_setWidth] at this
  exact this

theorem acnDecUIntConstSize8_reads {v : Nat} (h : v < 2 ^ 8) :
    Reads acnDecUIntConstSize8 (true, BitVec.ofNat 64 v) (bitsMsb 8 v) ∧ Short acnDecUIntConstSize8 (bitsMsb 8 v) := by
  obtain ⟨r, s⟩ := readOctet_reads (n := v) (by omega)
  unfold acnDecUIntConstSize8
  constructor
  · rw [← List.append_nil (bitsMsb _ _)]
    refine r.bind ?_
    rw [if_pos rfl]
    have e : (BitVec.ofNat 8 v).setWidth 64 = BitVec.ofNat 64 v := by
      apply BitVec.eq_of_toNat_eq; simp only [BitVec.toNat_setWidth, BitVec.toNat_ofNat]; omega
    simp only [e]
    exact Reads.pure _
  · rw [← List.append_nil (bitsMsb _ _)]
    exact s.bind r (Short.nil _) (fun a => ⟨0#64, by rw [if_neg (by simp)]⟩)

theorem acnDecUIntConstSize8_safe : Safe acnDecUIntConstSize8 := by
  unfold acnDecUIntConstSize8
  refine readByte_safe.bind (fun a => ?_) (fun a => ⟨0#64, by rw [if_neg (by simp)]⟩)
  rw [if_pos rfl]; exact Safe.pure _ _

theorem ff_bit : ∀ j, j < 64 → (0xFF#64).getLsbD j = decide (j < 8) := by decide

theorem mask_byte {v : U64} {k : Nat} (hk : k < 8) :
    ((v &&& (0xFF#64 <<< (k * 8))) >>> (k * 8)).setWidth 8 = (v >>> (k * 8)).setWidth 8 := by
  apply BitVec.eq_of_getLsbD_eq
  intro j hj
  simp only [BitVec.getLsbD_setWidth, BitVec.getLsbD_ushiftRight, BitVec.getLsbD_and, BitVec.getLsbD_shiftLeft]
  rw [show k * 8 + j - k * 8 = j by omega, ff_bit j (by omega)]
  simp only [hj, decide_true, show k * 8 + j < 64 by omega, show ¬ (k * 8 + j < k * 8) by omega, decide_false]
  simp

theorem mask_step : ∀ k, k < 7 → (0xFF#64 <<< ((k + 1) * 8)) >>> 8 = 0xFF#64 <<< (k * 8) := by decide

theorem acnEncBigLoop_appends (v : U64) (k : Nat) : ∀ mask, k ≤ 8 → (1 ≤ k → mask = 0xFF#64 <<< ((k - 1) * 8)) →
    Appends (acnEncBigLoop v k mask) () (bitsMsb (8 * k) v.toNat) := by
  induction k with
  | zero => intro mask _ _; exact Appends.pure _
  | succ k ih =>
    intro mask hk hm
    have hm := hm (by omega)
    rw [Nat.add_sub_cancel] at hm
    subst hm
    simp only [acnEncBigLoop]
    rw [mask_byte (by omega), show 8 * (k + 1) = 8 + 8 * k by omega, bitsMsb_append]
    have e : bitsMsb 8 (v.toNat >>> (8 * k)) = byteBits ((v >>> (k * 8)).setWidth 8) := by
      rw [byteBits_setWidth, BitVec.toNat_ushiftRight, Nat.mul_comm]
    rw [e]
    refine (appendByte0_writes _).appends.bind ?_
    apply ih _ (by omega)
    intro h1
    obtain ⟨j, rfl⟩ : ∃ j, k = j + 1 := ⟨k - 1, by omega⟩
    exact mask_step j (by omega)

theorem acnEncUIntBig_appends (v : U64) {size : Nat} (h : size ≤ 8) :
    Appends (acnEncUIntBig v size) () (bitsMsb (8 * size) v.toNat) :=
  (acnEncBigLoop_appends v size _ h (fun _ => rfl)).check

theorem acnDecUIntBig_reads (k : Nat) : ∀ (a u : Nat), u < 2 ^ (8 * k) →
    Reads (acnDecUIntBig k (BitVec.ofNat 64 a)) (true, BitVec.ofNat 64 (a * 2 ^ (8 * k) + u)) (bitsMsb (8 * k) u) ∧
    Short (acnDecUIntBig k (BitVec.ofNat 64 a)) (bitsMsb (8 * k) u) := by
  induction k with
  | zero =>
    intro a u h
    have : u = 0 := by omega
    subst this
    simp only [acnDecUIntBig, Nat.mul_zero, bitsMsb_zero_width, Nat.pow_zero, Nat.mul_one, Nat.add_zero]
    exact ⟨Reads.pure _, Short.nil _⟩
  | succ k ih =>
    intro a u h
    obtain ⟨b, hb, hbits⟩ := split_byte h
    rw [← hbits]
    simp only [acnDecUIntBig]
    have := ih (a * 2 ^ 8 + u >>> (8 * k)) (u % 2 ^ (8 * k)) (Nat.mod_lt _ (Nat.two_pow_pos _))
    rw [recombine, show 8 + 8 * k = 8 * (k + 1) by omega, ← hb, ← shl_or b.isLt, ← setWidth_ofNat] at this
    constructor
    · refine (readByte_reads b).bind ?_
      rw [if_pos rfl]
      exact this.1
    · refine (readByte_needs.short (by simp)).bind (readByte_reads b) ?_ (fun a => ⟨0#64, by rw [if_neg (by simp)]⟩)
      rw [if_pos rfl]
      exact this.2

theorem acnDecUIntBig_safe (k : Nat) : ∀ v, Safe (acnDecUIntBig k v) := by
  induction k with
  | zero => intro v; exact Safe.pure true v
  | succ k ih =>
    intro v
    simp only [acnDecUIntBig]
    refine readByte_safe.bind (fun a => ?_) (fun a => ⟨0#64, by rw [if_neg (by simp)]⟩)
    rw [if_pos rfl]
    exact ih _

theorem littleCode_length (n : Nat) : ∀ v, (littleCode n v).length = 8 * n := by
  induction n with
  | zero => intro v; rfl
  | succ n ih => intro v; simp [littleCode, ih]; omega

theorem acnEncLittleLoop_appends (k : Nat) : ∀ v : U64, Appends (acnEncLittleLoop k v) () (littleCode k v.toNat) := by
  induction k with
  | zero => intro v; exact Appends.pure _
  | succ k ih =>
    intro v
    simp only [acnEncLittleLoop, littleCode]
    rw [← byteBits_setWidth]
    refine (appendByte0_writes _).appends.bind ?_
    have := ih (v >>> 8)
    rw [BitVec.toNat_ushiftRight, Nat.shiftRight_eq_div_pow] at this
    exact this

theorem acnEncUIntLittle_appends (v : U64) (size : Nat) :
    Appends (acnEncUIntLittle v size) () (littleCode size v.toNat) :=
  (acnEncLittleLoop_appends size v).check

theorem acnDecUIntLittle_reads (k : Nat) : ∀ (i a u : Nat), u < 2 ^ (8 * k) → a < 2 ^ (8 * i) →
    Reads (acnDecUIntLittle k i (BitVec.ofNat 64 a)) (true, BitVec.ofNat 64 (u * 2 ^ (8 * i) + a)) (littleCode k u) ∧
    Short (acnDecUIntLittle k i (BitVec.ofNat 64 a)) (littleCode k u) := by
  induction k with
  | zero =>
    intro i a u h _
    have : u = 0 := by omega
    subst this
    simp only [acnDecUIntLittle, littleCode, Nat.zero_mul, Nat.zero_add]
    exact ⟨Reads.pure _, Short.nil _⟩
  | succ k ih =>
    intro i a u h ha
    have hp : (2 : Nat) ^ (8 * (k + 1)) = 256 * 2 ^ (8 * k) := by
      rw [show 8 * (k + 1) = 8 + 8 * k by omega, Nat.pow_add]
    have hq : (2 : Nat) ^ (8 * (i + 1)) = 256 * 2 ^ (8 * i) := by
      rw [show 8 * (i + 1) = 8 + 8 * i by omega, Nat.pow_add]
    simp only [acnDecUIntLittle, littleCode]
    obtain ⟨r1, s1⟩ := readOctet_reads (n := u % 256) (Nat.mod_lt _ (by omega))
    have hm : bitsMsb 8 (u % 256) = bitsMsb 8 u := bitsMsb_mod 8 u
    rw [hm] at r1 s1
    have hu : u / 256 * 2 ^ (8 * (i + 1)) + (u % 256 * 2 ^ (8 * i) + a) = u * 2 ^ (8 * i) + a := by
      rw [hq, ← Nat.mul_assoc]
      generalize 2 ^ (8 * i) = P
      have e : u / 256 * 256 + u % 256 = u := by omega
      calc _ = (u / 256 * 256 + u % 256) * P + a := by rw [Nat.add_mul]; omega
        _ = _ := by rw [e]
    have hlt : u % 256 * 2 ^ (8 * i) + a < 2 ^ (8 * (i + 1)) := by
      rw [hq]
      have h1 : u % 256 * 2 ^ (8 * i) ≤ 255 * 2 ^ (8 * i) := Nat.mul_le_mul_right _ (by omega)
      omega
    have := ih (i + 1) (u % 256 * 2 ^ (8 * i) + a) (u / 256) (by omega) hlt
    rw [hu] at this
    have e : BitVec.ofNat 64 a ||| (BitVec.setWidth 64 (BitVec.ofNat 8 (u % 256)) <<< (i * 8))
        = BitVec.ofNat 64 (u % 256 * 2 ^ (8 * i) + a) := by
      rw [BitVec.or_comm, setWidth_ofNat, Nat.mul_comm i 8, shl_or ha]
      congr 3
      rw [BitVec.toNat_ofNat]; omega
    rw [← e] at this
    constructor
    · refine r1.bind ?_
      rw [if_pos rfl]
      exact this.1
    · refine s1.bind r1 ?_ (fun a => ⟨0#64, by rw [if_neg (by simp)]⟩)
      rw [if_pos rfl]
      exact this.2

theorem acnDecUIntLittle_safe (k : Nat) : ∀ i v, Safe (acnDecUIntLittle k i v) := by
  induction k with
  | zero => intro i v; exact Safe.pure true v
  | succ k ih =>
    intro i v
    simp only [acnDecUIntLittle]
    refine readByte_safe.bind (fun a => ?_) (fun a => ⟨0#64, by rw [if_neg (by simp)]⟩)
    rw [if_pos rfl]
    exact ih _ _

/-! ### length-embedded positive integers -/

theorem acnEncUnsignedLoop_appends (k : Nat) : ∀ v : U64, k ≤ 8 →
    Appends (acnEncUnsignedLoop k v) () (bitsMsb (8 * k) (v.toNat >>> (64 - 8 * k))) := by
  induction k with
  | zero => intro v _; exact Appends.pure _
  | succ k ih =>
    intro v hk
    simp only [acnEncUnsignedLoop]
    have e1 : ((v &&& 0xFF00000000000000#64) >>> 56).setWidth 8 = (v >>> 56).setWidth 8 := mask_byte (k := 7) (by omega)
    have := ih (v <<< 8) (by omega)
    rw [e1, show 8 * (k + 1) = 8 + 8 * k by omega, bitsMsb_append, ← Nat.shiftRight_add,
      show 64 - (8 + 8 * k) + 8 * k = 56 by omega]
    have e : bitsMsb 8 (v.toNat >>> 56) = byteBits ((v >>> 56).setWidth 8) := by
      rw [byteBits_setWidth, BitVec.toNat_ushiftRight]
    rw [e]
    refine (appendByte0_writes _).appends.bind ?_
    refine this.congr ?_
    apply List.ext_getElem? 
    intro i
    rw [bitsMsb_getElem?, bitsMsb_getElem?]
    by_cases hi : i < 8 * k
    · rw [if_pos hi, if_pos hi]
      congr 1
      rw [Nat.testBit_shiftRight, Nat.testBit_shiftRight, BitVec.toNat_shiftLeft, Nat.testBit_mod_two_pow,
        Nat.testBit_shiftLeft]
      have h1 : 64 - 8 * k + (8 * k - 1 - i) < 64 := by omega
      have h2 : 64 - 8 * k + (8 * k - 1 - i) ≥ 8 := by omega
      simp only [h1, h2, decide_true, Bool.true_and]
      congr 1; omega
    · rw [if_neg hi, if_neg hi]

theorem acnEncodeUnsignedInteger_appends {v : U64} {k : Nat} (h1 : 1 ≤ k) (h8 : k ≤ 8) :
    Appends (acnEncodeUnsignedInteger v k) () (bitsMsb (8 * k) v.toNat) := by
  unfold acnEncodeUnsignedInteger
  have hd : assertC (decide (k ≤ 8)) = pure () := by rw [decide_eq_true h8]; rfl
  rw [hd, pure_bind, if_pos (by omega)]
  have := acnEncUnsignedLoop_appends k (v <<< (64 - k * 8)) h8
  refine this.congr ?_
  apply List.ext_getElem?
  intro i
  rw [bitsMsb_getElem?, bitsMsb_getElem?]
  by_cases hi : i < 8 * k
  · rw [if_pos hi, if_pos hi]
    congr 1
    rw [Nat.testBit_shiftRight, BitVec.toNat_shiftLeft, Nat.testBit_mod_two_pow, Nat.testBit_shiftLeft]
    have h1 : 64 - 8 * k + (8 * k - 1 - i) < 64 := by omega
    have h2 : 64 - 8 * k + (8 * k - 1 - i) ≥ 64 - k * 8 := by omega
    simp only [h1, h2, decide_true, Bool.true_and]
    congr 1; omega
  · rw [if_neg hi, if_neg hi]

theorem acnEncUIntLengthEmbedded_appends (v : U64) :
    Appends (acnEncUIntLengthEmbedded v) () (bitsMsb 8 (octetsNat v.toNat) ++ bitsMsb (8 * octetsNat v.toNat) v.toNat) := by
  unfold acnEncUIntLengthEmbedded
  have h8 := octetsNat_le8 v
  simp only [getLengthInBytesOfUInt_eq]
  have e : bitsMsb 8 (octetsNat v.toNat) = byteBits (BitVec.ofNat 8 (octetsNat v.toNat)) := by
    rw [byteBits, BitVec.toNat_ofNat, bitsMsb_mod]
  rw [e]
  refine (appendByte0_writes _).appends.bind ?_
  have hn : (BitVec.ofNat 8 (octetsNat v.toNat)).toNat = octetsNat v.toNat := by
    rw [BitVec.toNat_ofNat]; omega
  rw [hn]
  exact (acnEncodeUnsignedInteger_appends (octetsNat_pos _) h8).check

theorem acnDecUIntLengthEmbedded_reads (v : U64) :
    Reads acnDecUIntLengthEmbedded (true, v) (bitsMsb 8 (octetsNat v.toNat) ++ bitsMsb (8 * octetsNat v.toNat) v.toNat) ∧
    Short acnDecUIntLengthEmbedded (bitsMsb 8 (octetsNat v.toNat) ++ bitsMsb (8 * octetsNat v.toNat) v.toNat) := by
  unfold acnDecUIntLengthEmbedded
  have h8 := octetsNat_le8 v
  obtain ⟨r1, s1⟩ := readOctet_reads (n := octetsNat v.toNat) (by omega)
  obtain ⟨r2, s2⟩ := decodeBytesLoop_reads (octetsNat v.toNat) 0 v.toNat (lt_octetsNat _)
  rw [Nat.zero_mul, Nat.zero_add] at r2
  have hn : (BitVec.ofNat 8 (octetsNat v.toNat)).toNat = octetsNat v.toNat := by
    rw [BitVec.toNat_ofNat]; omega
  constructor
  · refine r1.bind ?_
    rw [if_pos rfl]
    simp only [hn]
    rw [if_neg (by omega), ← List.append_nil (bitsMsb _ v.toNat)]
    refine r2.bind ?_
    rw [if_pos rfl, BitVec.ofNat_toNat, BitVec.setWidth_eq]
    exact Reads.pure _
  · refine s1.bind r1 ?_ (fun a => ⟨0#64, by rw [if_neg (by simp)]⟩)
    rw [if_pos rfl]
    simp only [hn]
    rw [if_neg (by omega), ← List.append_nil (bitsMsb _ v.toNat)]
    exact s2.bind r2 (Short.nil _) (fun a => ⟨0#64, by rw [if_neg (by simp)]⟩)

theorem acnDecUIntLengthEmbedded_safe : Safe acnDecUIntLengthEmbedded := by
  unfold acnDecUIntLengthEmbedded
  refine readByte_safe.bind (fun a => ?_) (fun a => ⟨0#64, by rw [if_neg (by simp)]⟩)
  rw [if_pos rfl]
  refine Safe.ite (fun _ => Safe.pure _ _) (fun _ => ?_)
  refine (decodeBytesLoop_safe _ _).bind (fun a => ?_) (fun a => ⟨0#64, by rw [if_neg (by simp)]⟩)
  rw [if_pos rfl]; exact Safe.pure _ _

/-! ### two's complement -/

theorem twos_lt (n : Nat) (v : Int) : (v % 2 ^ n).toNat < 2 ^ n := by
  have hnat : ((2 ^ n : Nat) : Int) = 2 ^ n := by norm_cast
  rw [← hnat]
  have hp : 0 < 2 ^ n := Nat.two_pow_pos _
  have := Int.emod_lt_of_pos v (b := ((2 ^ n : Nat) : Int)) (by omega)
  omega

theorem FitsTwos.nat {n : Nat} {v : Int} (h : FitsTwos n v) :
    ∃ P : Nat, (2 : Nat) ^ (n - 1) = P ∧ (2 : Nat) ^ n = 2 * P ∧ (2 : Int) ^ (n - 1) = P ∧ (2 : Int) ^ n = 2 * P ∧
      -(P : Int) ≤ v ∧ v < P := by
  obtain ⟨h0, h1, h2⟩ := h
  have hnat : ((2 ^ (n - 1) : Nat) : Int) = 2 ^ (n - 1) := by norm_cast
  refine ⟨2 ^ (n - 1), rfl, ?_, hnat.symm, ?_, by omega, by omega⟩
  · rw [← Nat.pow_succ']; congr 1; omega
  · rw [hnat, ← Int.pow_succ']; congr 1; omega

theorem FitsTwos.le64 {n : Nat} {v : Int} (h : FitsTwos n v) (hn : n ≤ 64) : -(2 ^ 63) ≤ v ∧ v < 2 ^ 63 := by
  obtain ⟨P, p1, p2, p3, p4, p5, p6⟩ := h.nat
  have : (2 : Nat) ^ (n - 1) ≤ 2 ^ 63 := Nat.pow_le_pow_right (by omega) (by omega)
  omega

theorem twos_mod {n : Nat} {v : Int} (h : FitsTwos n v) :
    (v % 2 ^ n).toNat = if v < 0 then 2 ^ n - (-v).toNat else v.toNat := by
  obtain ⟨P, p1, p2, p3, p4, p5, p6⟩ := h.nat
  rw [p4, p2]
  split
  · have : v % (2 * (P : Int)) = v + 2 * P := by
      rw [← Int.add_emod_right, Int.emod_eq_of_lt (by omega) (by omega)]
    rw [this]; omega
  · rw [Int.emod_eq_of_lt (by omega) (by omega)]

theorem twos_sum {n : Nat} {v : Int} (h : FitsTwos n v) (hn : n ≤ 64) :
    (BitVec.ofNat 64 ((if decide (v < 0) = true then 2 ^ 64 - 1 else 0) * 2 ^ n + (v % 2 ^ n).toNat)).toInt = v := by
  have h64 := h.le64 hn
  rw [twos_mod h]
  obtain ⟨P, p1, p2, p3, p4, p5, p6⟩ := h.nat
  rw [p2]
  simp only [decide_eq_true_eq]
  have key : ∀ (x : Nat) (q : Int), (x : Int) = v + 2 ^ 64 * q → (BitVec.ofNat 64 x).toInt = v := by
    intro x q hx
    rw [← BitVec.ofInt_natCast, BitVec.toInt_ofInt, hx, Int.bmod_def]
    omega
  split
  · apply key _ (2 * P)
    have : ((2 ^ 64 - 1) * (2 * P) + (2 * P - (-v).toNat) : Nat) = 2 ^ 64 * (2 * P) - (-v).toNat := by omega
    rw [this]; omega
  · apply key _ 0; omega

theorem twos_sign {n : Nat} {v : Int} (h : FitsTwos n v) : ∃ w, twosCode n v = decide (v < 0) :: w := by
  unfold twosCode
  rw [twos_mod h]
  obtain ⟨P, p1, p2, p3, p4, p5, p6⟩ := h.nat
  obtain ⟨m, rfl⟩ : ∃ m, n = m + 1 := ⟨n - 1, by have := h.1; omega⟩
  rw [Nat.add_sub_cancel] at p1
  rw [bitsMsb_succ]
  refine ⟨bitsMsb m (if v < 0 then 2 ^ (m + 1) - (-v).toNat else v.toNat), ?_⟩
  congr 1
  rw [p2]
  split
  · rename_i hv
    have e2 : 2 * P - (-v).toNat = 2 ^ m * 1 + (P - (-v).toNat) := by omega
    rw [e2, Nat.testBit_two_pow_mul_add _ (by omega)]
    simp [hv]
  · rename_i hv
    rw [Nat.testBit_lt_two_pow (by omega)]
    simp [hv]

theorem acnEncSIntConstSize_appends {v : Int} {n : Nat} (h : FitsTwos n v) (h1 : -(2 ^ 63) < v) (h2 : v < 2 ^ 63) :
    Appends (acnEncSIntConstSize v n) () (twosCode n v) := by
  unfold acnEncSIntConstSize
  apply Appends.check
  unfold twosCode
  rw [twos_mod h]
  obtain ⟨P, p1, p2, p3, p4, p5, p6⟩ := h.nat
  by_cases hv : v ≥ 0
  · rw [if_pos hv, if_neg (by omega)]
    have e := ofInt_toNat (x := v) hv (by omega)
    have := padded_appends (n := n) (v := BitVec.ofInt 64 v) (by rw [e]; omega)
    rw [e] at this
    exact this
  · rw [if_neg hv, if_pos (by omega), negMinusOne_ok h1 (by omega), pure_bind]
    have e := ofInt_toNat (x := -v - 1) (by omega) (by omega)
    have hw : (-v - 1).toNat < 2 ^ n := by omega
    have hle := (bitLen_le_iff _ _).2 hw
    rw [show 2 ^ n - (-v).toNat = 2 ^ n - ((-v - 1).toNat + 1) by omega, ← bitsMsb_compl hw]
    have hn : ((n : Int) - getNumberOfBits (BitVec.ofInt 64 (-v - 1))).toNat = n - bitLen (-v - 1).toNat := by
      rw [getNumberOfBits_eq, e]; omega
    rw [hn]
    have := (appendNBitOne_appends (n - bitLen (-v - 1).toNat)).bind
      (g := fun _ => encodeNonNegativeIntegerNeg (BitVec.ofInt 64 (-v - 1)) true)
      (encodeNonNegativeIntegerNeg_appends (BitVec.ofInt 64 (-v - 1)) true)
    refine this.congr ?_
    rw [e]
    have hs := bitsMsb_pad (n - bitLen (-v - 1).toNat) (bitLen (-v - 1).toNat) (-v - 1).toNat (lt_two_pow_bitLen _)
    rw [Nat.sub_add_cancel hle] at hs
    rw [hs]
    simp [negBits]

theorem sintTail_reads {n a u : Nat} (hu : u < 2 ^ n) :
    Reads (decodeBytesLoop (n / 8) (BitVec.ofNat 64 a) >>= fun r =>
      if r.1 = true then
        if n % 8 > 0 then do
          let p ← readPartialByte (n % 8)
          if p.1 then pure (true, ((r.2 <<< (n % 8)) ||| p.2.setWidth 64).toInt) else pure (false, (0 : Int))
        else pure (true, r.2.toInt)
      else pure (false, 0)) (true, (BitVec.ofNat 64 (a * 2 ^ n + u)).toInt) (bitsMsb n u) ∧
    Short (decodeBytesLoop (n / 8) (BitVec.ofNat 64 a) >>= fun r =>
      if r.1 = true then
        if n % 8 > 0 then do
          let p ← readPartialByte (n % 8)
          if p.1 then pure (true, ((r.2 <<< (n % 8)) ||| p.2.setWidth 64).toInt) else pure (false, (0 : Int))
        else pure (true, r.2.toInt)
      else pure (false, 0)) (bitsMsb n u) := by
  have hn : n = 8 * (n / 8) + n % 8 := by omega
  have hsplit : bitsMsb n u = bitsMsb (8 * (n / 8)) (u >>> (n % 8)) ++ bitsMsb (n % 8) u := by
    rw [← bitsMsb_append, ← hn]
  have hu1 : u >>> (n % 8) < 2 ^ (8 * (n / 8)) := by
    rw [Nat.shiftRight_eq_div_pow, Nat.div_lt_iff_lt_mul (Nat.two_pow_pos _), ← Nat.pow_add, ← hn]; exact hu
  obtain ⟨r1, s1⟩ := decodeBytesLoop_reads (n / 8) a (u >>> (n % 8)) hu1
  rw [hsplit]
  by_cases h0 : n % 8 > 0
  · have hlt : u % 2 ^ (n % 8) < 2 ^ (n % 8) := Nat.mod_lt _ (Nat.two_pow_pos _)
    have h256 : (2 : Nat) ^ (n % 8) ≤ 2 ^ 7 := Nat.pow_le_pow_right (by omega) (by omega)
    have hb : (BitVec.ofNat 8 (u % 2 ^ (n % 8))).toNat = u % 2 ^ (n % 8) := by
      rw [BitVec.toNat_ofNat]; omega
    have r2 := readPartialByte_reads (v := BitVec.ofNat 8 (u % 2 ^ (n % 8))) h0 (by omega) (by rw [hb]; exact hlt)
    rw [hb, bitsMsb_mod] at r2
    have hval : (BitVec.ofNat 64 (a * 2 ^ (8 * (n / 8)) + u >>> (n % 8)) <<< (n % 8)) |||
        (BitVec.ofNat 8 (u % 2 ^ (n % 8))).setWidth 64 = BitVec.ofNat 64 (a * 2 ^ n + u) := by
      rw [setWidth_ofNat, hb, shl_or hlt, recombine, ← hn]
    constructor
    · refine r1.bind ?_
      rw [if_pos rfl, if_pos h0, ← List.append_nil (bitsMsb (n % 8) u)]
      refine r2.bind ?_
      rw [if_pos rfl]
      simp only [hval]
      exact Reads.pure _
    · refine s1.bind r1 ?_ (fun a => ⟨0, by rw [if_neg (by simp)]⟩)
      rw [if_pos rfl, if_pos h0, ← List.append_nil (bitsMsb (n % 8) u)]
      exact ((readPartialByte_needs (by omega)).short (by simp)).bind r2 (Short.nil _) (fun a => ⟨0, by rw [if_neg (by simp)]⟩)
  · have h0' : n % 8 = 0 := by omega
    have hn8 : 8 * (n / 8) = n := by omega
    rw [h0', bitsMsb_zero_width]
    rw [h0', hn8, Nat.shiftRight_zero] at r1 s1
    rw [Nat.shiftRight_zero, hn8]
    constructor
    · refine r1.bind ?_
      rw [if_pos rfl, if_neg (by omega)]
      exact Reads.pure _
    · exact s1.bind r1 (Short.nil _) (fun a => ⟨0, by rw [if_neg (by simp)]⟩)

theorem ones_init (c : Bool) : (if c = true then 0xFFFFFFFFFFFFFFFF#64 else 0#64) = BitVec.ofNat 64 (if c = true then 2 ^ 64 - 1 else 0) := by
  cases c <;> rfl

theorem acnDecSIntConstSize_reads {v : Int} {n : Nat} (h : FitsTwos n v) (hn : n ≤ 64) :
    Reads (acnDecSIntConstSize n) (true, v) (twosCode n v) ∧ Short (acnDecSIntConstSize n) (twosCode n v) := by
  unfold acnDecSIntConstSize
  obtain ⟨w, hw⟩ := twos_sign h
  constructor
  · rw [hw]
    apply Reads.peek
    rw [← hw, ones_init]
    have := (sintTail_reads (n := n) (a := if decide (v < 0) = true then 2 ^ 64 - 1 else 0) (twos_lt n v)).1
    rw [twos_sum h hn] at this
    exact this
  · apply Short.peek
    intro c
    rw [ones_init]
    exact (sintTail_reads (n := n) (a := if c = true then 2 ^ 64 - 1 else 0) (twos_lt n v)).2

theorem acnDecSIntConstSize_safe (n : Nat) : Safe (acnDecSIntConstSize n) := by
  unfold acnDecSIntConstSize
  apply Safe.peek
  intro c
  refine (decodeBytesLoop_safe _ _).bind (fun a => ?_) (fun a => ⟨0, by rw [if_neg (by simp)]⟩)
  rw [if_pos rfl]
  refine Safe.ite (fun _ => ?_) (fun _ => Safe.pure _ _)
  refine (readPartialByte_safe (by omega)).bind (fun a => ?_) (fun a => ⟨0, by rw [if_neg (by simp)]⟩)
  rw [if_pos rfl]; exact Safe.pure _ _

end Asn1
