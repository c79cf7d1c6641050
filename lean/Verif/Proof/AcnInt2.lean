import Verif.Proof.AcnInt
/-! Proofs about ACN integers, second part: signed octets, alignment, booleans and IEEE754 images. -/
namespace Asn1

theorem nat_emod_pow {v : Int} {n : Nat} (hn : n ≤ 64) :
    (BitVec.ofInt 64 v).toNat % 2 ^ n = (v % 2 ^ n).toNat := by
  rw [BitVec.toNat_ofInt]
  have hp : 0 < 2 ^ n := Nat.two_pow_pos n
  have hnat : ((2 ^ n : Nat) : Int) = 2 ^ n := by norm_cast
  have h1 := Int.emod_nonneg v (b := ((2 ^ 64 : Nat) : Int)) (by decide)
  have h2 := Int.emod_nonneg v (b := ((2 ^ n : Nat) : Int)) (by omega)
  have hd : ((2 ^ n : Nat) : Int) ∣ ((2 ^ 64 : Nat) : Int) := by
    rw [Int.natCast_dvd_natCast]; exact Nat.pow_dvd_pow 2 hn
  have h3 := Int.emod_emod_of_dvd v hd
  apply Int.ofNat.inj
  simp only [Int.ofNat_eq_natCast]
  rw [Int.natCast_emod, Int.toNat_of_nonneg h1, h3, ← hnat, Int.toNat_of_nonneg h2]

theorem bitsMsb_ofInt {v : Int} {n : Nat} (hn : n ≤ 64) : bitsMsb n (BitVec.ofInt 64 v).toNat = twosCode n v := by
  unfold twosCode
  rw [← nat_emod_pow hn, bitsMsb_mod]

theorem littleCode_mod (n : Nat) : ∀ v, littleCode n (v % 2 ^ (8 * n)) = littleCode n v := by
  induction n with
  | zero => intro v; rfl
  | succ n ih =>
    intro v
    have hp : (2 : Nat) ^ (8 * (n + 1)) = 256 * 2 ^ (8 * n) := by
      rw [show 8 * (n + 1) = 8 + 8 * n by omega, Nat.pow_add]
    simp only [littleCode]
    congr 1
    · rw [← bitsMsb_mod 8 (v % _), ← bitsMsb_mod 8 v, hp]
      congr 1
      rw [Nat.mod_mul_right_mod]
    · rw [hp, Nat.mod_mul_right_div_self, ih]

theorem littleCode_ofInt {v : Int} {n : Nat} (hn : n ≤ 8) :
    littleCode n (BitVec.ofInt 64 v).toNat = littleCode n (v % 2 ^ (8 * n)).toNat := by
  rw [← nat_emod_pow (by omega), littleCode_mod]

theorem int2uint_run {v : Int} (h1 : -(2 ^ 63) < v) (h2 : v < 2 ^ 63) : int2uint v = pure (BitVec.ofInt 64 v) := by
  rcases int2uint_eq h1 with h | h
  · exact h
  · exact absurd h2 h

theorem acnEncSIntConstSize8_appends {v : Int} (h1 : -(2 ^ 63) < v) (h2 : v < 2 ^ 63) :
    Appends (acnEncSIntConstSize8 v) () (twosCode 8 v) := by
  unfold acnEncSIntConstSize8
  rw [int2uint_run h1 h2, pure_bind, ← bitsMsb_ofInt (by omega)]
  exact acnEncUIntConstSize8_appends _

theorem acnEncSIntBig_appends {v : Int} {size : Nat} (hs : size ≤ 8) (h1 : -(2 ^ 63) < v) (h2 : v < 2 ^ 63) :
    Appends (acnEncSIntBig v size) () (twosCode (8 * size) v) := by
  unfold acnEncSIntBig
  rw [int2uint_run h1 h2, pure_bind, ← bitsMsb_ofInt (by omega)]
  exact acnEncUIntBig_appends _ hs

theorem acnEncSIntLittle_appends {v : Int} {size : Nat} (hs : size ≤ 8) (h1 : -(2 ^ 63) < v) (h2 : v < 2 ^ 63) :
    Appends (acnEncSIntLittle v size) () (littleCode size (v % 2 ^ (8 * size)).toNat) := by
  unfold acnEncSIntLittle
  rw [int2uint_run h1 h2, pure_bind, ← littleCode_ofInt hs]
  exact acnEncUIntLittle_appends _ _

/-- `uint2int` undoes the two's complement reduction. -/
theorem uint2int_twos {v : Int} {size : Nat} (h1 : 1 ≤ size) (h8 : size ≤ 8) (h : FitsTwos (8 * size) v) :
    uint2int (BitVec.ofNat 64 (v % 2 ^ (8 * size)).toNat) size = pure v := by
  have hlt := twos_lt (8 * size) v
  have hle : (2 : Nat) ^ (8 * size) ≤ 2 ^ 64 := Nat.pow_le_pow_right (by omega) (by omega)
  obtain ⟨e1, e2⟩ := uint2int_eq (u := BitVec.ofNat 64 (v % 2 ^ (8 * size)).toNat) h1 h8
  have hn : (BitVec.ofNat 64 (v % 2 ^ (8 * size)).toNat).toNat = (v % 2 ^ (8 * size)).toNat := by
    rw [BitVec.toNat_ofNat, Nat.mod_eq_of_lt (by omega)]
  have ht := twos_mod h
  obtain ⟨P, p1, p2, p3, p4, p5, p6⟩ := h.nat
  rw [hn] at e1 e2
  rw [Nat.mod_eq_of_lt hlt] at e2
  generalize (v % 2 ^ (8 * size)).toNat = x at *
  by_cases hv : v < 0
  · rw [if_pos hv] at ht
    rw [e2 (by omega)]
    congr 1
    rw [p4]; omega
  · rw [if_neg hv] at ht
    rw [e1 (by omega)]
    congr 1
    omega

theorem acnDecSIntConstSize8_reads {v : Int} (h : FitsTwos 8 v) :
    Reads acnDecSIntConstSize8 (true, v) (twosCode 8 v) ∧ Short acnDecSIntConstSize8 (twosCode 8 v) := by
  obtain ⟨r, s⟩ := acnDecUIntConstSize8_reads (twos_lt 8 v)
  unfold acnDecSIntConstSize8 twosCode
  constructor
  · rw [← List.append_nil (bitsMsb _ _)]
    refine r.bind ?_
    have := uint2int_twos (v := v) (size := 1) (by omega) (by omega) h
    simp only [Nat.mul_one] at this
    rw [if_pos rfl, this, pure_bind]
    exact Reads.pure _
  · rw [← List.append_nil (bitsMsb _ _)]
    exact s.bind r (Short.nil _) (fun a => ⟨0, by rw [if_neg (by simp)]⟩)

theorem acnDecSIntBig_reads {v : Int} {size : Nat} (h1 : 1 ≤ size) (h8 : size ≤ 8) (h : FitsTwos (8 * size) v) :
    Reads (acnDecSIntBig size) (true, v) (twosCode (8 * size) v) ∧ Short (acnDecSIntBig size) (twosCode (8 * size) v) := by
  obtain ⟨r, s⟩ := acnDecUIntBig_reads size 0 _ (twos_lt (8 * size) v)
  rw [Nat.zero_mul, Nat.zero_add] at r
  unfold acnDecSIntBig twosCode
  constructor
  · rw [← List.append_nil (bitsMsb _ _)]
    refine r.bind ?_
    rw [if_pos rfl, uint2int_twos h1 h8 h, pure_bind]
    exact Reads.pure _
  · rw [← List.append_nil (bitsMsb _ _)]
    exact s.bind r (Short.nil _) (fun a => ⟨0, by rw [if_neg (by simp)]⟩)

theorem acnDecSIntLittle_reads {v : Int} {size : Nat} (h1 : 1 ≤ size) (h8 : size ≤ 8) (h : FitsTwos (8 * size) v) :
    Reads (acnDecSIntLittle size) (true, v) (littleCode size (v % 2 ^ (8 * size)).toNat) ∧
    Short (acnDecSIntLittle size) (littleCode size (v % 2 ^ (8 * size)).toNat) := by
  obtain ⟨r, s⟩ := acnDecUIntLittle_reads size 0 0 _ (twos_lt (8 * size) v) (by simp)
  rw [Nat.mul_zero, Nat.pow_zero, Nat.mul_one, Nat.add_zero] at r
  unfold acnDecSIntLittle
  constructor
  · rw [← List.append_nil (littleCode _ _)]
    refine r.bind ?_
    rw [if_pos rfl, uint2int_twos h1 h8 h, pure_bind]
    exact Reads.pure _
  · rw [← List.append_nil (littleCode _ _)]
    exact s.bind r (Short.nil _) (fun a => ⟨0, by rw [if_neg (by simp)]⟩)

theorem uint2int_total {u : U64} {n : Nat} (hn : 1 ≤ n) (hn8 : n ≤ 8) (hu : u.toNat < 2 ^ (8 * n)) :
    ∃ x, uint2int u n = pure x := by
  obtain ⟨e1, e2⟩ := uint2int_eq (u := u) hn hn8
  rw [Nat.mod_eq_of_lt hu] at e2
  by_cases h : u.toNat < 2 ^ (8 * n - 1)
  · exact ⟨_, e1 h⟩
  · exact ⟨_, e2 (by omega)⟩

/-! ### length-embedded two's complement -/

theorem octetsInt_fits (v : Int) : FitsTwos (8 * octetsInt v) v := by
  unfold FitsTwos octetsInt
  have key := lt_two_pow_bitLen (if 0 ≤ v then v.toNat else (-v - 1).toNat)
  generalize bitLen (if 0 ≤ v then v.toNat else (-v - 1).toNat) = L at *
  have hle : (2 : Nat) ^ L ≤ 2 ^ (8 * (L / 8 + 1) - 1) := Nat.pow_le_pow_right (by omega) (by omega)
  have hnat : ((2 ^ (8 * (L / 8 + 1) - 1) : Nat) : Int) = 2 ^ (8 * (L / 8 + 1) - 1) := by norm_cast
  rw [← hnat]
  generalize 2 ^ (8 * (L / 8 + 1) - 1) = Q at *
  generalize 2 ^ L = R at *
  split at key <;> omega

theorem acnDecSIntLoop_reads (k : Nat) : ∀ (i a u : Nat) (neg : Bool), u < 2 ^ (8 * k) →
    Reads (acnDecSIntLoop k (i + 1) (BitVec.ofNat 64 a) neg) (true, (BitVec.ofNat 64 (a * 2 ^ (8 * k) + u), neg)) (bitsMsb (8 * k) u) ∧
    Short (acnDecSIntLoop k (i + 1) (BitVec.ofNat 64 a) neg) (bitsMsb (8 * k) u) := by
  induction k with
  | zero =>
    intro i a u neg h
    have : u = 0 := by omega
    subst this
    simp only [acnDecSIntLoop, Nat.mul_zero, bitsMsb_zero_width, Nat.pow_zero, Nat.mul_one, Nat.add_zero]
    exact ⟨Reads.pure _, Short.nil _⟩
  | succ k ih =>
    intro i a u neg h
    obtain ⟨b, hb, hbits⟩ := split_byte h
    rw [← hbits]
    simp only [acnDecSIntLoop]
    have := ih (i + 1) (a * 2 ^ 8 + u >>> (8 * k)) (u % 2 ^ (8 * k)) neg (Nat.mod_lt _ (Nat.two_pow_pos _))
    rw [recombine, show 8 + 8 * k = 8 * (k + 1) by omega, ← hb, ← shl_or b.isLt, ← setWidth_ofNat] at this
    constructor
    · refine (readByte_reads b).bind ?_
      rw [if_pos rfl, if_neg (by omega)]
      exact this.1
    · refine (readByte_needs.short (by simp)).bind (readByte_reads b) ?_ (fun a => ⟨_, by rw [if_neg (by simp)]⟩)
      rw [if_pos rfl, if_neg (by omega)]
      exact this.2

theorem top_bit : ∀ b : Byte, (b &&& 0x80#8 > 0#8) ↔ b.toNat ≥ 128 := by decide

theorem acnDecSIntLoop_first {k : Nat} {v : Int} (h : FitsTwos (8 * (k + 1)) v) (hk : k + 1 ≤ 8) :
    ∃ x : U64, x.toInt = v ∧
    Reads (acnDecSIntLoop (k + 1) 0 0#64 false) (true, (x, decide (v < 0))) (twosCode (8 * (k + 1)) v) ∧
    Short (acnDecSIntLoop (k + 1) 0 0#64 false) (twosCode (8 * (k + 1)) v) := by
  refine ⟨BitVec.ofNat 64 ((if decide (v < 0) = true then 2 ^ 64 - 1 else 0) * 2 ^ (8 * (k + 1)) + (v % 2 ^ (8 * (k + 1))).toNat),
    twos_sum h (by omega), ?_⟩
  unfold twosCode
  have hlt := twos_lt (8 * (k + 1)) v
  have hmod := twos_mod h
  obtain ⟨P, p1, p2, p3, p4, p5, p6⟩ := h.nat
  generalize (v % 2 ^ (8 * (k + 1))).toNat = u at *
  obtain ⟨b, hb, hbits⟩ := split_byte hlt
  have hP : P = 128 * 2 ^ (8 * k) := by
    rw [← p1, show 8 * (k + 1) - 1 = 7 + 8 * k by omega, Nat.pow_add]
  have hsign : (True ∧ b &&& 0x80#8 > 0#8) ↔ v < 0 := by
    rw [true_and, top_bit, hb, Nat.shiftRight_eq_div_pow, ge_iff_le, Nat.le_div_iff_mul_le (Nat.two_pow_pos _), ← hP]
    clear hb hbits
    split at hmod <;> omega
  have := acnDecSIntLoop_reads k 0 ((if decide (v < 0) = true then 2 ^ 64 - 1 else 0) * 2 ^ 8 + u >>> (8 * k)) (u % 2 ^ (8 * k))
    (decide (v < 0)) (Nat.mod_lt _ (Nat.two_pow_pos _))
  rw [recombine, show 8 + 8 * k = 8 * (k + 1) by omega, ← hb, ← shl_or b.isLt, ← setWidth_ofNat] at this
  rw [← hbits]
  simp only [acnDecSIntLoop]
  have step : ∀ (X : U64 → Bool → M (Bool × (U64 × Bool))),
      (if True ∧ b &&& 0x80#8 > 0#8 then X (0xFFFFFFFFFFFFFFFF#64 <<< 8 ||| BitVec.setWidth 64 b) true
        else X (0#64 <<< 8 ||| BitVec.setWidth 64 b) false) =
      X (BitVec.ofNat 64 (if decide (v < 0) = true then 2 ^ 64 - 1 else 0) <<< 8 ||| BitVec.setWidth 64 b) (decide (v < 0)) := by
    intro X
    by_cases hv : v < 0
    · rw [if_pos (hsign.2 hv), decide_eq_true hv, if_pos rfl]
    · rw [if_neg (fun h => hv (hsign.1 h)), decide_eq_false hv, if_neg (by decide)]
  constructor
  · refine (readByte_reads b).bind ?_
    rw [if_pos rfl]
    dsimp only
    rw [step (fun x n => acnDecSIntLoop k (0 + 1) x n)]
    exact this.1
  · refine (readByte_needs.short (by simp)).bind (readByte_reads b) ?_ (fun a => ⟨_, by rw [if_neg (by simp)]⟩)
    rw [if_pos rfl]
    dsimp only
    rw [step (fun x n => acnDecSIntLoop k (0 + 1) x n)]
    exact this.2

theorem not_toInt (x : U64) : (~~~x).toInt = -x.toInt - 1 := by
  have h1 := BitVec.toInt_eq_toNat_cond x
  have h2 := BitVec.toInt_eq_toNat_cond (~~~x)
  have h3 : (~~~x).toNat = 2 ^ 64 - 1 - x.toNat := BitVec.toNat_not
  have := x.isLt
  rw [h1, h2, h3]
  split <;> split <;> omega

theorem acnToUInt_eq : acnToUInt = int2uint := rfl

theorem acnEncSIntLengthEmbedded_appends {v : Int} (h1 : -(2 ^ 63) < v) (h2 : v < 2 ^ 63) :
    Appends (acnEncSIntLengthEmbedded v) () (bitsMsb 8 (octetsInt v) ++ twosCode (8 * octetsInt v) v) := by
  unfold acnEncSIntLengthEmbedded
  have h8 : octetsInt v ≤ 8 := (octetsInt_le_iff v 8 (by omega)).2 (by omega)
  rw [getLengthInBytesOfSInt_eq h1 h2, pure_bind]
  have e : bitsMsb 8 (octetsInt v) = byteBits (BitVec.ofNat 8 (octetsInt v)) := by
    rw [byteBits, BitVec.toNat_ofNat, bitsMsb_mod]
  rw [e]
  refine (appendByte0_writes _).appends.bind ?_
  have hn : (BitVec.ofNat 8 (octetsInt v)).toNat = octetsInt v := by
    rw [BitVec.toNat_ofNat]; omega
  rw [hn, acnToUInt_eq, int2uint_run h1 h2, pure_bind, ← bitsMsb_ofInt (by omega)]
  exact (acnEncodeUnsignedInteger_appends (octetsInt_pos _) h8).check

theorem acnDecSIntLengthEmbedded_reads {v : Int} (h1 : -(2 ^ 63) < v) (h2 : v < 2 ^ 63) :
    Reads acnDecSIntLengthEmbedded (true, v) (bitsMsb 8 (octetsInt v) ++ twosCode (8 * octetsInt v) v) ∧
    Short acnDecSIntLengthEmbedded (bitsMsb 8 (octetsInt v) ++ twosCode (8 * octetsInt v) v) := by
  have h8 : octetsInt v ≤ 8 := (octetsInt_le_iff v 8 (by omega)).2 (by omega)
  have hp : 1 ≤ octetsInt v := octetsInt_pos v
  obtain ⟨r1, s1⟩ := readOctet_reads (n := octetsInt v) (by omega)
  obtain ⟨k, hk⟩ : ∃ k, octetsInt v = k + 1 := ⟨octetsInt v - 1, by omega⟩
  obtain ⟨x, hx, r2, s2⟩ := acnDecSIntLoop_first (k := k) (hk ▸ octetsInt_fits v) (by omega)
  rw [← hk] at r2 s2
  have hn : (BitVec.ofNat 8 (octetsInt v)).toNat = octetsInt v := by
    rw [BitVec.toNat_ofNat]; omega
  unfold acnDecSIntLengthEmbedded
  constructor
  · refine r1.bind ?_
    rw [if_pos rfl]
    simp only [hn]
    rw [if_neg (by omega), ← List.append_nil (twosCode _ v)]
    refine r2.bind ?_
    rw [if_pos rfl]
    simp only []
    by_cases hv : v < 0
    · rw [decide_eq_true hv, if_pos rfl, not_toInt, hx]
      rw [chk_ok (by omega), pure_bind, chk_ok (by omega), pure_bind]
      rw [show -(-v - 1) - 1 = v by omega]
      exact Reads.pure _
    · rw [decide_eq_false hv, if_neg (by decide), hx]
      exact Reads.pure _
  · refine s1.bind r1 ?_ (fun a => ⟨0, by rw [if_neg (by simp)]⟩)
    rw [if_pos rfl]
    simp only [hn]
    rw [if_neg (by omega), ← List.append_nil (twosCode _ v)]
    exact s2.bind r2 (Short.nil _) (fun a => ⟨0, by rw [if_neg (by simp)]⟩)

/-! ### bytes in sequence: IEEE754 images -/

theorem acnEncRealLoop_appends (l : List Byte) : Appends (acnEncRealLoop l) () (bytesBits l) := by
  induction l with
  | nil => exact Appends.pure _
  | cons b t ih =>
    rw [bytesBits_cons]
    exact (appendByte0_writes b).appends.bind (g := fun _ => acnEncRealLoop t) ih

theorem acnDecRealLoop_reads (l : List Byte) :
    Reads (acnDecRealLoop l.length) (true, l) (bytesBits l) ∧ Short (acnDecRealLoop l.length) (bytesBits l) := by
  induction l with
  | nil => exact ⟨Reads.pure _, Short.nil _⟩
  | cons b t ih =>
    rw [bytesBits_cons]
    simp only [List.length_cons, acnDecRealLoop]
    constructor
    · refine (readByte_reads b).bind ?_
      rw [if_pos rfl]
      exact ih.1.map (h := fun t => (t.1, b :: t.2))
    · refine (readByte_needs.short (by simp)).bind (readByte_reads b) ?_ (fun a => ⟨[], by rw [if_neg (by simp)]⟩)
      rw [if_pos rfl]
      exact ih.2.map (h := fun t => (t.1, b :: t.2)) (fun _ h => h)

theorem acnDecRealLoop_safe (k : Nat) : Safe (acnDecRealLoop k) := by
  induction k with
  | zero => exact Safe.pure _ _
  | succ k ih =>
    simp only [acnDecRealLoop]
    refine readByte_safe.bind (fun a => ?_) (fun a => ⟨[], by rw [if_neg (by simp)]⟩)
    rw [if_pos rfl]
    exact ih.map (h := fun t => (t.1, _ :: t.2)) (fun _ h => h)

theorem memImage_length (size : Nat) (v : BitVec (8 * size)) : (memImage size v).length = size := by simp [memImage]

theorem ofMemImage_bit (size : Nat) : ∀ l : List Byte, ∀ j, j < 8 * size →
    (ofMemImage size l).getLsbD j = (l.getD (j / 8) 0#8).getLsbD (j % 8) := by
  intro l
  induction l with
  | nil => intro j _; simp [ofMemImage]
  | cons b t ih =>
    intro j hj
    have e : ofMemImage size (b :: t) = (ofMemImage size t <<< 8) ||| b.setWidth (8 * size) := rfl
    rw [e, BitVec.getLsbD_or, BitVec.getLsbD_shiftLeft, BitVec.getLsbD_setWidth]
    by_cases h8 : j < 8
    · rw [show j / 8 = 0 by omega, show j % 8 = j by omega]
      simp [hj, h8]
    · rw [ih (j - 8) (by omega), show j / 8 = (j - 8) / 8 + 1 by omega, show j % 8 = (j - 8) % 8 by omega, List.getD_cons_succ]
      have hz : b.getLsbD j = false := BitVec.getLsbD_of_ge b j (by omega)
      simp [hj, h8, hz]

theorem ofMemImage_memImage {size : Nat} (v : BitVec (8 * size)) : ofMemImage size (memImage size v) = v := by
  apply BitVec.eq_of_getLsbD_eq
  intro j hj
  rw [ofMemImage_bit _ _ _ hj]
  have h : j / 8 < size := by omega
  have e : (memImage size v).getD (j / 8) 0#8 = (v >>> (8 * (j / 8))).setWidth 8 := by
    simp [memImage, List.getD, List.getElem?_map, List.getElem?_range h]
  rw [e, BitVec.getLsbD_setWidth, BitVec.getLsbD_ushiftRight, show 8 * (j / 8) + j % 8 = j by omega,
    decide_eq_true (by omega), Bool.true_and]

theorem acnDecRealBig_reads {size : Nat} (v : BitVec (8 * size)) :
    Reads (acnDecRealBig size) (true, v) (bytesBits (memImage size v).reverse) ∧
    Short (acnDecRealBig size) (bytesBits (memImage size v).reverse) := by
  obtain ⟨r, s⟩ := acnDecRealLoop_reads (memImage size v).reverse
  rw [List.length_reverse, memImage_length] at r s
  unfold acnDecRealBig
  constructor
  · rw [← List.append_nil (bytesBits _)]
    refine r.bind ?_
    rw [if_pos rfl]
    simp only [List.reverse_reverse, ofMemImage_memImage]
    exact Reads.pure _
  · rw [← List.append_nil (bytesBits _)]
    exact s.bind r (Short.nil _) (fun a => ⟨0, by rw [if_neg (by simp)]⟩)

theorem acnDecRealLittle_reads {size : Nat} (v : BitVec (8 * size)) :
    Reads (acnDecRealLittle size) (true, v) (bytesBits (memImage size v)) ∧
    Short (acnDecRealLittle size) (bytesBits (memImage size v)) := by
  obtain ⟨r, s⟩ := acnDecRealLoop_reads (memImage size v)
  rw [memImage_length] at r s
  unfold acnDecRealLittle
  constructor
  · rw [← List.append_nil (bytesBits _)]
    refine r.bind ?_
    rw [if_pos rfl]
    simp only [ofMemImage_memImage]
    exact Reads.pure _
  · rw [← List.append_nil (bytesBits _)]
    exact s.bind r (Short.nil _) (fun a => ⟨0, by rw [if_neg (by simp)]⟩)

theorem acnDecRealBig_safe (size : Nat) : Safe (acnDecRealBig size) := by
  unfold acnDecRealBig
  refine (acnDecRealLoop_safe _).bind (fun a => ?_) (fun a => ⟨0, by rw [if_neg (by simp)]⟩)
  rw [if_pos rfl]; exact Safe.pure _ _

theorem acnDecRealLittle_safe (size : Nat) : Safe (acnDecRealLittle size) := by
  unfold acnDecRealLittle
  refine (acnDecRealLoop_safe _).bind (fun a => ?_) (fun a => ⟨0, by rw [if_neg (by simp)]⟩)
  rw [if_pos rfl]; exact Safe.pure _ _

end Asn1
