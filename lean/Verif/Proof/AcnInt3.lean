import Verif.Proof.AcnInt2
/-! Proofs about ACN integers, third part: safety of the signed decoders, alignment, booleans. -/
namespace Asn1

theorem msb_toInt {x : U64} (h : x.getLsbD 63 = true) : x.toInt < 0 := by
  have h1 := BitVec.toInt_eq_toNat_cond x
  have h2 : x.toNat ≥ 2 ^ 63 := by
    have : x.toNat.testBit 63 = true := h
    exact Nat.ge_two_pow_of_testBit this
  have := x.isLt
  rw [h1, if_neg (by omega)]; omega

theorem negInt_ok {x : U64} (h : x.toInt < 0) :
    (do let a ← chk (-((~~~x).toInt)); chk (a - 1)) = pure x.toInt := by
  have h1 := BitVec.le_toInt x
  simp only [Nat.reduceSub] at h1
  rw [not_toInt, chk_ok (by omega), pure_bind, chk_ok (by omega)]
  congr 1; omega

/-- `uint2int` never overflows. -/
theorem uint2int_total' {u : U64} {n : Nat} (hn : 1 ≤ n) (hn8 : n ≤ 8) : ∃ x, uint2int u n = pure x := by
  unfold uint2int
  rw [if_neg (by omega)]
  simp only []
  split
  · exact ⟨_, rfl⟩
  · rename_i hneg
    obtain ⟨r, hr, hb⟩ := uint2intLoop_eq (8 - n) 7 u (by omega) (by omega)
    rw [hr, pure_bind]
    refine ⟨r.toInt, negInt_ok (msb_toInt ?_)⟩
    rw [hb 63 (by omega)]
    by_cases h8 : n = 8
    · subst h8
      have hu : u &&& (0x80#64 <<< ((8 - 1) * 8)) > 0#64 := by
        simp only [Bool.not_eq_true', decide_eq_false_iff_not, Decidable.not_not] at hneg
        exact hneg
      cases hb63 : u.getLsbD 63
      · exfalso
        have : u &&& (0x80#64 <<< ((8 - 1) * 8)) = 0#64 := by
          apply BitVec.eq_of_getLsbD_eq
          intro j hj
          have hm : ∀ j, j < 64 → (0x80#64 <<< ((8 - 1) * 8)).getLsbD j = decide (j = 63) := by decide
          rw [BitVec.getLsbD_and, hm j hj]
          by_cases e : j = 63
          · subst e; rw [hb63]; rfl
          · simp [e]
        rw [this] at hu
        exact absurd hu (by decide)
      · rfl
    · simp only [Bool.or_eq_true]; right
      simp; omega

theorem acnDecSIntConstSize8_safe : Safe acnDecSIntConstSize8 := by
  unfold acnDecSIntConstSize8
  refine acnDecUIntConstSize8_safe.bind (fun a => ?_) (fun a => ⟨0, by rw [if_neg (by simp)]⟩)
  obtain ⟨x, hx⟩ := uint2int_total' (u := a) (n := 1) (by omega) (by omega)
  rw [if_pos rfl, hx, pure_bind]; exact Safe.pure _ _

theorem acnDecSIntBig_safe {size : Nat} (h1 : 1 ≤ size) (h8 : size ≤ 8) : Safe (acnDecSIntBig size) := by
  unfold acnDecSIntBig
  refine (acnDecUIntBig_safe _ _).bind (fun a => ?_) (fun a => ⟨0, by rw [if_neg (by simp)]⟩)
  obtain ⟨x, hx⟩ := uint2int_total' (u := a) (n := size) h1 h8
  rw [if_pos rfl, hx, pure_bind]; exact Safe.pure _ _

theorem acnDecSIntLittle_safe {size : Nat} (h1 : 1 ≤ size) (h8 : size ≤ 8) : Safe (acnDecSIntLittle size) := by
  unfold acnDecSIntLittle
  refine (acnDecUIntLittle_safe _ _ _).bind (fun a => ?_) (fun a => ⟨0, by rw [if_neg (by simp)]⟩)
  obtain ⟨x, hx⟩ := uint2int_total' (u := a) (n := size) h1 h8
  rw [if_pos rfl, hx, pure_bind]; exact Safe.pure _ _

theorem acnDecSIntLoop_safe (k : Nat) : ∀ i v neg, Safe (acnDecSIntLoop k i v neg) := by
  induction k with
  | zero => intro i v neg; exact Safe.pure _ _
  | succ k ih =>
    intro i v neg
    simp only [acnDecSIntLoop]
    refine readByte_safe.bind (fun a => ?_) (fun a => ⟨(v, neg), by rw [if_neg (by simp)]⟩)
    rw [if_pos rfl]
    exact Safe.ite (fun _ => ih _ _ _) (fun _ => ih _ _ _)

theorem acnDecSIntLoop_post (k : Nat) : ∀ i (v : U64) neg,
    (neg = true → ∀ j, 8 * i ≤ j + 1 → j < 64 → v.getLsbD j = true) → (i = 0 → neg = false) →
    Post (acnDecSIntLoop k i v neg) (fun r => r.2 = true → ∀ j, 8 * (i + k) ≤ j + 1 → j < 64 → r.1.getLsbD j = true) := by
  induction k with
  | zero =>
    intro i v neg h _
    exact Post.pure (fun _ => h)
  | succ k ih =>
    intro i v neg h h0
    simp only [acnDecSIntLoop]
    refine Post.bind (fun r => Post.ite (fun _ => Post.ite (fun hc => ?_) (fun _ => ?_)) (fun _ => Post.false))
    · rw [show i + (k + 1) = i + 1 + k by omega]
      refine ih (i + 1) _ true (fun _ j hj h64 => ?_) (by omega)
      rw [BitVec.getLsbD_or, BitVec.getLsbD_shiftLeft, BitVec.getLsbD_setWidth]
      have hones : ∀ j, j < 64 → (0xFFFFFFFFFFFFFFFF#64).getLsbD j = true := by decide
      by_cases h7 : j = 7
      · subst h7
        have := (top_bit r.2).1 hc.2
        have hb : r.2.getLsbD 7 = true := by
          have : ∀ b : Byte, b.toNat ≥ 128 → b.getLsbD 7 = true := by decide
          exact this _ ‹_›
        simp [hb]
      · rw [hones (j - 8) (by omega)]
        simp [h64]; omega
    · rw [show i + (k + 1) = i + 1 + k by omega]
      refine ih (i + 1) _ neg (fun hn j hj h64 => ?_) (by omega)
      rw [BitVec.getLsbD_or, BitVec.getLsbD_shiftLeft]
      have hi : i ≠ 0 := fun e => by rw [h0 e] at hn; cases hn
      rw [h hn (j - 8) (by omega) (by omega)]
      simp [h64]; omega

theorem acnDecSIntLengthEmbedded_safe : Safe acnDecSIntLengthEmbedded := by
  unfold acnDecSIntLengthEmbedded
  refine readByte_safe.bind (fun a => ?_) (fun a => ⟨0, by rw [if_neg (by simp)]⟩)
  rw [if_pos rfl]
  refine Safe.ite (fun _ => Safe.pure _ _) (fun hn => ?_)
  refine (acnDecSIntLoop_safe _ _ _ _).bindP (acnDecSIntLoop_post _ 0 0#64 false (by simp) (by simp)) (fun r hr => ?_)
    (fun r => ⟨0, by rw [if_neg (by simp)]⟩)
  rw [if_pos rfl]
  by_cases h : r.2 = true
  · rw [if_pos h]
    have hlt := msb_toInt (hr h 63 (by omega) (by omega))
    have := negInt_ok hlt
    have e : (do let x ← chk (-((~~~r.1).toInt)); let y ← chk (x - 1); pure (true, y)) =
        ((do let a ← chk (-((~~~r.1).toInt)); chk (a - 1)) >>= fun y => (pure (true, y) : M (Bool × Int))) := by
      simp only [bind_assoc]
    rw [e, this, pure_bind]
    exact Safe.pure _ _
  · rw [if_neg h]; exact Safe.pure _ _

/-! ### narrow decoders -/

theorem acnNarrowU_run {w : Nat} {f : M (Bool × U64)} {s s' : BitStream} {b : Bool} {v : U64} (h : f s = .ok ((b, v), s')) :
    acnNarrowU w f s = .ok ((b, v.setWidth w), s') := by
  unfold acnNarrowU; rw [bind_ok h]; rfl

theorem acnNarrowS_run {w : Nat} {f : M (Bool × Int)} {s s' : BitStream} {b : Bool} {v : Int} (h : f s = .ok ((b, v), s')) :
    acnNarrowS w f s = .ok ((b, (BitVec.ofInt w v).toInt), s') := by
  unfold acnNarrowS; rw [bind_ok h]; rfl

theorem ofInt_fits {w : Nat} {v : Int} (h : FitsTwos w v) : (BitVec.ofInt w v).toInt = v := by
  obtain ⟨P, p1, p2, p3, p4, p5, p6⟩ := h.nat
  rw [BitVec.toInt_ofInt, p2, Int.bmod_def]
  push_cast
  have hv : v % (2 * (P : Int)) = if v < 0 then v + 2 * P else v := by
    split
    · rw [← Int.add_emod_right, Int.emod_eq_of_lt (by omega) (by omega)]
    · rw [Int.emod_eq_of_lt (by omega) (by omega)]
  rw [hv]
  split <;> split <;> omega

/-! ### alignment -/

/-- The least multiple of `m` that is not less than `p`. -/
def alignUp (m p : Nat) : Nat := (p + (m - 1)) / m * m

theorem assertRoom_run {s : BitStream} {n : Nat} (h : s.pos + n ≤ 8 * s.count) : assertRoom n s = .ok ((), s) := by
  simp only [assertRoom, getS_bind, assertC]
  rw [if_pos]
  simp only [BitStream.pos] at h
  simp; omega

theorem assertRoom_abort {s : BitStream} {n : Nat} (h : 8 * s.count < s.pos + n) : assertRoom n s = .abort := by
  simp only [assertRoom, getS_bind, assertC]
  rw [if_neg (by simp only [BitStream.pos] at h; simp; omega)]

theorem and7 (x : Nat) : x &&& 7 = x % 8 := Nat.and_two_pow_sub_one_eq_mod x 3
theorem and15 (x : Nat) : x &&& 15 = x % 16 := Nat.and_two_pow_sub_one_eq_mod x 4
theorem and31 (x : Nat) : x &&& 31 = x % 32 := Nat.and_two_pow_sub_one_eq_mod x 5
theorem and1 (x : Nat) : x &&& 1 = x % 2 := Nat.and_two_pow_sub_one_eq_mod x 1
theorem and3 (x : Nat) : x &&& 3 = x % 4 := Nat.and_two_pow_sub_one_eq_mod x 2

/-- `s` with the cursor at bit `p`. -/
def atPos (s : BitStream) (p : Nat) : BitStream := { s with currentByte := p / 8, currentBit := p % 8 }

theorem acnAlignToNextByte_run {s : BitStream} (hb : s.currentBit < 8) (h : alignUp 8 s.pos ≤ 8 * s.count) :
    acnAlignToNextByte s = .ok ((), atPos s (alignUp 8 s.pos)) := by
  unfold acnAlignToNextByte
  rw [getS_bind, and7]
  unfold alignUp BitStream.pos at *
  rw [bind_ok (assertRoom_run (by simp only [BitStream.pos]; omega))]
  by_cases h0 : s.currentBit = 0
  · rw [if_neg (by omega)]
    simp only [pure_run, atPos]
    congr 2
    rw [h0, show (8 * s.currentByte + 0 + (8 - 1)) / 8 * 8 = 8 * s.currentByte by omega,
      show 8 * s.currentByte / 8 = s.currentByte by omega, show 8 * s.currentByte % 8 = 0 by omega, ← h0]
  · rw [if_pos h0, modS_bind, assertInBounds_run (by simp only [BitStream.pos]; omega)]
    simp only [atPos]
    rw [show (8 * s.currentByte + s.currentBit + (8 - 1)) / 8 * 8 = 8 * (s.currentByte + 1) by omega,
      show 8 * (s.currentByte + 1) / 8 = s.currentByte + 1 by omega, show 8 * (s.currentByte + 1) % 8 = 0 by omega]

theorem acnAlignToNextWord_run {s : BitStream} (hb : s.currentBit < 8) (h : alignUp 16 s.pos ≤ 8 * s.count) :
    acnAlignToNextWord s = .ok ((), atPos s (alignUp 16 s.pos)) := by
  unfold acnAlignToNextWord
  rw [getS_bind, and15, and1]
  have h8 := acnAlignToNextByte_run hb (by unfold alignUp at *; omega)
  unfold alignUp BitStream.pos at *
  rw [bind_ok (assertRoom_run (by simp only [BitStream.pos]; omega)), bind_ok h8, modS_bind, assertInBounds_run (by simp only [BitStream.pos, atPos]; omega)]
  simp only [atPos]
  congr 3
  · omega
  · omega

theorem acnAlignToNextDWord_run {s : BitStream} (hb : s.currentBit < 8) (h : alignUp 32 s.pos ≤ 8 * s.count) :
    acnAlignToNextDWord s = .ok ((), atPos s (alignUp 32 s.pos)) := by
  unfold acnAlignToNextDWord
  rw [getS_bind, and31, and3]
  have h8 := acnAlignToNextByte_run hb (by unfold alignUp at *; omega)
  unfold alignUp BitStream.pos at *
  rw [bind_ok (assertRoom_run (by simp only [BitStream.pos]; omega)), bind_ok h8, modS_bind, assertInBounds_run (by simp only [BitStream.pos, atPos]; omega)]
  simp only [atPos]
  congr 3
  · omega
  · omega

theorem atPos_pos (s : BitStream) (p : Nat) : (atPos s p).pos = p := by simp only [atPos, BitStream.pos]; omega

theorem atPos_encSt {s : BitStream} {bs : List Bool} {p : Nat} (hs : EncSt s bs) (h1 : s.pos ≤ p) (h2 : p ≤ 8 * s.count) :
    EncSt (atPos s p) (bs ++ List.replicate (p - s.pos) false) := by
  have hp := hs.pos
  refine ⟨⟨?_, hs.wf.cap⟩, ?_, ?_, ?_⟩
  · simp only [atPos]; omega
  · rw [atPos_pos, List.length_append, List.length_replicate]; omega
  · rw [List.length_append, List.length_replicate]; show _ ≤ 8 * s.count; omega
  · intro i hi
    have := hs.bits i hi
    rw [show (atPos s p).buf = s.buf from rfl, this, List.getElem?_append]
    split
    · rfl
    · rename_i hge
      rw [List.getElem?_eq_none (by omega), List.getElem?_replicate]
      split <;> rfl

theorem align_ge {m p : Nat} (hm : 0 < m) : p ≤ alignUp m p ∧ m ∣ alignUp m p ∧ alignUp m p < p + m := by
  unfold alignUp
  have h1 := Nat.div_add_mod (p + (m - 1)) m
  have h2 := Nat.mod_lt (p + (m - 1)) hm
  rw [Nat.mul_comm] at h1
  refine ⟨by omega, Nat.dvd_mul_left _ _, by omega⟩

theorem alignUp_least {m p q : Nat} (hm : 0 < m) (hq : p ≤ q) (hd : m ∣ q) : alignUp m p ≤ q := by
  obtain ⟨k, rfl⟩ := hd
  unfold alignUp
  have h1 := Nat.div_add_mod (p + (m - 1)) m
  have : (p + (m - 1)) / m ≤ k := by
    rw [← Nat.lt_succ_iff, Nat.div_lt_iff_lt_mul hm, Nat.succ_mul, Nat.mul_comm k m]; omega
  rw [Nat.mul_comm m k]
  exact Nat.mul_le_mul_right _ this

/-! ### boolean patterns -/

theorem exists_bytes_tail (n : Nat) (w : List Bool) (hw : w.length = n) :
    ∃ (l : List Byte) (c : Byte), l.length = n / 8 ∧ c.toNat < 2 ^ (n % 8) ∧ w = bytesBits l ++ bitsMsb (n % 8) c.toNat := by
  obtain ⟨r, hr1, hr2⟩ := packed_exists w
  rw [hw] at hr1 hr2
  have hw' : w = (bytesBits r).take n := by
    rw [hr2, List.take_append_of_le_length (by omega), List.take_of_length_le (by omega)]
  by_cases h0 : 0 < n % 8
  · refine ⟨r.take (n / 8), (r.getD (n / 8) 0#8) >>> (8 - n % 8), ?_, shift_partial_lt _ (by omega), ?_⟩
    · rw [List.length_take]; omega
    · rw [hw', bytesBits_take (by omega) h0]
  · have h8 : n % 8 = 0 := by omega
    refine ⟨r, 0#8, by omega, Nat.two_pow_pos _, ?_⟩
    rw [h8, bitsMsb_zero_width, List.append_nil, hr2]
    rw [show 8 * r.length - n = 0 by omega]; simp

theorem take_succ_drop {pat : List Byte} {i k : Nat} (h : i < pat.length) :
    (pat.drop i).take (k + 1) = pat[i] :: (pat.drop (i + 1)).take k := by
  rw [List.drop_eq_getElem_cons h, List.take_succ_cons]

theorem readPatternLoop_reads (pat l : List Byte) : ∀ (i : Nat) (acc : Bool), i + l.length ≤ pat.length →
    Reads (readPatternLoop pat l.length i acc) (true, acc && decide (l = (pat.drop i).take l.length)) (bytesBits l) ∧
    Short (readPatternLoop pat l.length i acc) (bytesBits l) := by
  induction l with
  | nil => intro i acc _; simp only [List.length_nil, readPatternLoop, List.take_zero, decide_true, Bool.and_true]; exact ⟨Reads.pure _, Short.nil _⟩
  | cons b t ih =>
    intro i acc hl
    simp only [List.length_cons] at hl
    simp only [List.length_cons, readPatternLoop]
    have := ih (i + 1) (acc && decide (b = pat[i]'(by omega))) (by omega)
    rw [bytesBits_cons]
    constructor
    · refine (readByte_reads b).bind ?_
      rw [if_pos rfl, tblGet_pure (by omega), pure_bind]
      have e : (acc && decide (b :: t = (pat.drop i).take (t.length + 1))) =
          (acc && decide (b = pat[i]'(by omega)) && decide (t = (pat.drop (i + 1)).take t.length)) := by
        rw [take_succ_drop (by omega), Bool.and_assoc, ← Bool.decide_and]; simp only [List.cons.injEq]
      rw [e]
      exact this.1
    · refine (readByte_needs.short (by simp)).bind (readByte_reads b) ?_ (fun a => ⟨acc, by rw [if_neg (by simp)]⟩)
      rw [if_pos rfl, tblGet_pure (by omega), pure_bind]
      exact this.2

theorem take_eq_iff {pat l : List Byte} {c : Byte} {n : Nat} (hn : n ≤ 8 * pat.length) (hl : l.length = n / 8)
    (hc : c.toNat < 2 ^ (n % 8)) (h0 : 0 < n % 8) :
    (bytesBits l ++ bitsMsb (n % 8) c.toNat = (bytesBits pat).take n) ↔
    (l = pat.take (n / 8) ∧ c = (pat.getD (n / 8) 0#8) >>> (8 - n % 8)) := by
  rw [bytesBits_take hn h0]
  constructor
  · intro h
    have hlen : (bytesBits l).length = (bytesBits (pat.take (n / 8))).length := by
      rw [bytesBits_length, bytesBits_length, List.length_take]; omega
    obtain ⟨h1, h2⟩ := List.append_inj h hlen
    exact ⟨bytesBits_inj h1, BitVec.eq_of_toNat_eq (bitsMsb_inj hc (shift_partial_lt _ (by omega)) h2)⟩
  · rintro ⟨rfl, rfl⟩; rfl

theorem bytesBits_take_bytes (l : List Byte) (k : Nat) : bytesBits (l.take k) = (bytesBits l).take (8 * k) := by
  induction l generalizing k with
  | nil => simp
  | cons b t ih =>
    cases k with
    | zero => simp
    | succ k =>
      rw [List.take_succ_cons, bytesBits_cons, bytesBits_cons, ih, List.take_append, byteBits_length,
        show 8 * (k + 1) - 8 = 8 * k by omega]
      congr 1
      rw [List.take_of_length_le (by rw [byteBits_length]; omega)]

theorem take_eq_iff0 {pat l : List Byte} {n : Nat} (_hl : l.length = n / 8) (h0 : n % 8 = 0) :
    (bytesBits l = (bytesBits pat).take n) ↔ l = pat.take (n / 8) := by
  have e : (bytesBits pat).take n = bytesBits (pat.take (n / 8)) := by
    rw [bytesBits_take_bytes, show 8 * (n / 8) = n by omega]
  rw [e]
  exact ⟨bytesBits_inj, fun h => h ▸ rfl⟩

theorem readBitPattern_reads {pat : List Byte} {n : Nat} (hn : n ≤ 8 * pat.length) {w : List Bool} (hw : w.length = n) :
    Reads (readBitPattern pat n) (true, decide (w = (bytesBits pat).take n)) w ∧ Short (readBitPattern pat n) w := by
  obtain ⟨l, c, hl, hc, rfl⟩ := exists_bytes_tail n w hw
  obtain ⟨r, s⟩ := readPatternLoop_reads pat l 0 true (by omega)
  rw [List.drop_zero, Bool.true_and] at r
  rw [hl] at r s
  unfold readBitPattern
  by_cases h0 : 0 < n % 8
  · have r2 := readPartialByte_reads (v := c) h0 (by omega) hc
    have hlt : n / 8 < pat.length := by omega
    have hg : pat.getD (n / 8) 0#8 = pat[n / 8] := by simp [List.getD, List.getElem?_eq_getElem hlt]
    constructor
    · refine r.bind ?_
      rw [if_pos rfl, if_pos h0, ← List.append_nil (bitsMsb (n % 8) c.toNat)]
      refine r2.bind ?_
      rw [if_pos rfl, tblGet_pure hlt, pure_bind]
      simp only [List.append_nil, take_eq_iff hn hl hc h0, hg, Bool.decide_and]
      exact Reads.pure _
    · refine s.bind r ?_ (fun a => ⟨a, by rw [if_neg (by simp)]⟩)
      rw [if_pos rfl, if_pos h0, ← List.append_nil (bitsMsb (n % 8) c.toNat)]
      exact ((readPartialByte_needs (by omega)).short (by simp)).bind r2 (Short.nil _) (fun a => ⟨_, by rw [if_neg (by simp)]⟩)
  · have h8 : n % 8 = 0 := by omega
    rw [h8, bitsMsb_zero_width]
    constructor
    · refine r.bind ?_
      rw [if_pos rfl, if_neg (by omega)]
      simp only [List.append_nil, take_eq_iff0 hl h8]
      exact Reads.pure _
    · exact s.bind r (Short.nil _) (fun a => ⟨a, by rw [if_neg (by simp)]⟩)

theorem trueFalseLoop_reads (tp fp l : List Byte) : ∀ (i : Nat) (t f : Bool), i + l.length ≤ tp.length → i + l.length ≤ fp.length →
    Reads (trueFalseLoop tp fp l.length i t f)
      (true, (t && decide (l = (tp.drop i).take l.length), f && decide (l = (fp.drop i).take l.length))) (bytesBits l) ∧
    Short (trueFalseLoop tp fp l.length i t f) (bytesBits l) := by
  induction l with
  | nil =>
    intro i t f _ _
    simp only [List.length_nil, trueFalseLoop, List.take_zero, decide_true, Bool.and_true]
    exact ⟨Reads.pure _, Short.nil _⟩
  | cons b tl ih =>
    intro i t f hl hl'
    simp only [List.length_cons] at hl hl'
    simp only [List.length_cons, trueFalseLoop]
    have := ih (i + 1) (t && decide (b = tp[i]'(by omega))) (f && decide (b = fp[i]'(by omega))) (by omega) (by omega)
    rw [bytesBits_cons]
    constructor
    · refine (readByte_reads b).bind ?_
      rw [if_pos rfl, tblGet_pure (by omega), pure_bind, tblGet_pure (by omega), pure_bind]
      have e : ∀ (acc : Bool) (pat : List Byte) (h : i < pat.length), (acc && decide (b :: tl = (pat.drop i).take (tl.length + 1))) =
          (acc && decide (b = pat[i]) && decide (tl = (pat.drop (i + 1)).take tl.length)) := by
        intro acc pat h
        rw [take_succ_drop h, Bool.and_assoc, ← Bool.decide_and]; simp only [List.cons.injEq]
      rw [e t tp (by omega), e f fp (by omega)]
      exact this.1
    · refine (readByte_needs.short (by simp)).bind (readByte_reads b) ?_ (fun a => ⟨(t, f), by rw [if_neg (by simp)]⟩)
      rw [if_pos rfl, tblGet_pure (by omega), pure_bind, tblGet_pure (by omega), pure_bind]
      exact this.2

theorem decodeTrueFalseBoolean_reads {tp fp : List Byte} {n : Nat} (hn : n ≤ 8 * tp.length) (hn' : n ≤ 8 * fp.length)
    {w : List Bool} (hw : w.length = n) :
    Reads (decodeTrueFalseBoolean tp fp n)
      (trueFalseResult (decide (w = (bytesBits tp).take n)) (decide (w = (bytesBits fp).take n))) w ∧
    Short (decodeTrueFalseBoolean tp fp n) w := by
  obtain ⟨l, c, hl, hc, rfl⟩ := exists_bytes_tail n w hw
  obtain ⟨r, s⟩ := trueFalseLoop_reads tp fp l 0 true true (by omega) (by omega)
  rw [List.drop_zero, List.drop_zero, Bool.true_and, Bool.true_and] at r
  rw [hl] at r s
  unfold decodeTrueFalseBoolean
  by_cases h0 : 0 < n % 8
  · have r2 := readPartialByte_reads (v := c) h0 (by omega) hc
    have hlt : n / 8 < tp.length := by omega
    have hlt' : n / 8 < fp.length := by omega
    have hg : tp.getD (n / 8) 0#8 = tp[n / 8] := by simp [List.getD, List.getElem?_eq_getElem hlt]
    have hg' : fp.getD (n / 8) 0#8 = fp[n / 8] := by simp [List.getD, List.getElem?_eq_getElem hlt']
    constructor
    · refine r.bind ?_
      rw [if_pos rfl, if_pos h0, ← List.append_nil (bitsMsb (n % 8) c.toNat)]
      refine r2.bind ?_
      rw [if_pos rfl, tblGet_pure hlt, pure_bind, tblGet_pure hlt', pure_bind]
      simp only [List.append_nil, take_eq_iff hn hl hc h0, take_eq_iff hn' hl hc h0, hg, hg', Bool.decide_and]
      exact Reads.pure _
    · refine s.bind r ?_ (fun a => ⟨false, by rw [if_neg (by simp)]⟩)
      rw [if_pos rfl, if_pos h0, ← List.append_nil (bitsMsb (n % 8) c.toNat)]
      exact ((readPartialByte_needs (by omega)).short (by simp)).bind r2 (Short.nil _) (fun a => ⟨_, by rw [if_neg (by simp)]⟩)
  · have h8 : n % 8 = 0 := by omega
    rw [h8, bitsMsb_zero_width]
    constructor
    · refine r.bind ?_
      rw [if_pos rfl, if_neg (by omega)]
      simp only [List.append_nil, take_eq_iff0 hl h8]
      exact Reads.pure _
    · exact s.bind r (Short.nil _) (fun a => ⟨false, by rw [if_neg (by simp)]⟩)

/-- A function that reads any `n` bits, and fails on fewer, is safe. -/
theorem safe_of_reads {α : Type} {f : M (Bool × α)} {n : Nat}
    (h : ∀ w : List Bool, w.length = n → (∃ a, Reads f a w) ∧ Short f w) : Safe f := by
  intro s hwf hp hsl
  obtain ⟨rest, hr⟩ := decSt_exists hwf hp
  by_cases hlen : n ≤ rest.length
  · obtain ⟨⟨a, ha⟩, _⟩ := h (rest.take n) (by rw [List.length_take]; omega)
    rw [← List.take_append_drop n rest] at hr
    obtain ⟨s', e, hd, hb, hc⟩ := ha s _ hr
    refine ⟨a, s', e, hb, hc, fun _ => ⟨hd.wf.bit, ?_, ?_⟩⟩
    · have := hd.pos; rw [hc] at this; omega
    · have h1 := hd.pos; have h2 := hr.pos; rw [hc] at h1; rw [List.length_append] at h2; omega
  · obtain ⟨_, hs⟩ := h (rest ++ List.replicate (n - rest.length) false) (by rw [List.length_append, List.length_replicate]; omega)
    obtain ⟨a, s', e, hb, hc⟩ := hs s rest hr hsl (List.prefix_append _ _) (by
      intro e; have := congrArg List.length e; rw [List.length_append, List.length_replicate] at this; omega)
    exact ⟨(false, a), s', e, hb, hc, by simp⟩

theorem alignsTo_of {f : M Unit} {m : Nat} (hm : 0 < m)
    (h : ∀ s : BitStream, s.currentBit < 8 → alignUp m s.pos ≤ 8 * s.count → f s = .ok ((), atPos s (alignUp m s.pos))) :
    AlignsTo f m := by
  intro p
  obtain ⟨g1, g2, _⟩ := align_ge (m := m) (p := p) hm
  refine ⟨alignUp m p, g2, g1, fun q' h1 h2 => alignUp_least hm h2 h1, ?_, ?_⟩
  · rintro s bs hs rfl hq
    exact ⟨_, h s hs.wf.bit hq, atPos_pos _ _, atPos_encSt hs g1 hq, ⟨rfl, rfl, fun _ _ => rfl⟩⟩
  · rintro t ht rfl hq
    exact ⟨_, h t ht.bit hq, atPos_pos _ _, ⟨by simp only [atPos]; omega, ht.cap⟩, rfl, rfl⟩

theorem bigImage_length (k v : Nat) : (bigImage k v).length = k := by
  induction k with
  | zero => rfl
  | succ k ih => simp [bigImage, ih]

theorem bigImage_eq {size : Nat} (v : BitVec (8 * size)) : (memImage size v).reverse = bigImage size v.toNat := by
  have key : ∀ k, ((List.range k).map fun i => (v >>> (8 * i)).setWidth 8).reverse = bigImage k v.toNat := by
    intro k
    induction k with
    | zero => rfl
    | succ k ih =>
      rw [List.range_succ, List.map_append, List.reverse_append, ih]
      simp only [List.map_cons, List.map_nil, List.reverse_singleton, List.singleton_append, bigImage]
      congr 1
      apply BitVec.eq_of_toNat_eq
      rw [BitVec.toNat_setWidth, BitVec.toNat_ofNat, BitVec.toNat_ushiftRight, Nat.shiftRight_eq_div_pow, Nat.pow_mul]
  exact key size

end Asn1
