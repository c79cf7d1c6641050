import Verif.Proof.AcnInt3
import Verif.Proof.RoundTrip
import Verif.Props.Integers
/-!
# C20, C21, C25, C40, C41, C44: ACN integers, alignment, booleans, IEEE754 reals, narrow decoders

`RoundTrip enc e dec v len` (Verif.Spec.RoundTrip): `enc` writes exactly `len` bits from every encoder state with
that much room, and `dec`, standing where the encoder started, reads exactly these bits and delivers `v`.
`FitsTwos n v`: `-2^(n-1) ≤ v < 2^(n-1)`.
-/
namespace Asn1

instance (n : Nat) (v : Int) : Decidable (FitsTwos n v) := inferInstanceAs (Decidable (_ ∧ _ ∧ _))

/-! ## C20 -/

/-- C20, `Acn_Enc_Int_PositiveInteger_ConstSize`: every size up to 64 bits, every value that fits. -/
theorem C20_uint_bits (v : U64) (n : Nat) (hn : n ≤ 64) (h : v.toNat < 2 ^ n) :
    RoundTrip (acnEncUIntConstSize v n) () (acnDecUIntConstSize n) v n ∧
    RejectsTruncated (acnEncUIntConstSize v n) () (acnDecUIntConstSize n) n := by
  obtain ⟨r, s⟩ := acnDecUIntConstSize_reads hn h
  rw [BitVec.ofNat_toNat, BitVec.setWidth_eq] at r
  have a := acnEncUIntConstSize_appends h
  constructor
  · have := roundTrip_of a r; rwa [bitsMsb_length] at this
  · have := rejectsTruncated_of a s; rwa [bitsMsb_length] at this

example : (1000#64).toNat < 2 ^ 10 := by decide

/-- C20, the big endian variants of 8, 16, 32 and 64 bits, most significant octet first. -/
theorem C20_uint_big_endian (v : U64) (size : Nat) (hs : size = 2 ∨ size = 4 ∨ size = 8) (h : v.toNat < 2 ^ (8 * size)) :
    RoundTrip (acnEncUIntBig v size) () (acnDecUIntBig size 0#64) v (8 * size) ∧
    RejectsTruncated (acnEncUIntBig v size) () (acnDecUIntBig size 0#64) (8 * size) ∧
    Appends (acnEncUIntBig v size) () (bitsMsb (8 * size) v.toNat) := by
  obtain ⟨r, s⟩ := acnDecUIntBig_reads size 0 v.toNat h
  rw [Nat.zero_mul, Nat.zero_add, BitVec.ofNat_toNat, BitVec.setWidth_eq] at r
  have a := acnEncUIntBig_appends v (size := size) (by omega)
  refine ⟨?_, ?_, a⟩
  · have := roundTrip_of a r; rwa [bitsMsb_length] at this
  · have := rejectsTruncated_of a s; rwa [bitsMsb_length] at this

example : (0xCAFEBABE#64).toNat < 2 ^ (8 * 4) := by decide

/-- C20, one octet. -/
theorem C20_uint_8 (v : U64) (h : v.toNat < 256) :
    RoundTrip (acnEncUIntConstSize8 v) () acnDecUIntConstSize8 v 8 ∧
    RejectsTruncated (acnEncUIntConstSize8 v) () acnDecUIntConstSize8 8 := by
  obtain ⟨r, s⟩ := acnDecUIntConstSize8_reads h
  rw [BitVec.ofNat_toNat, BitVec.setWidth_eq] at r
  have a := acnEncUIntConstSize8_appends v
  constructor
  · have := roundTrip_of a r; rwa [bitsMsb_length] at this
  · have := rejectsTruncated_of a s; rwa [bitsMsb_length] at this

example : (200#64).toNat < 256 := by decide

/-- C20, the little endian variants: octet `i` of the code is octet `i` of the value, least significant first
(`littleCode`, Verif.Spec.Acn). -/
theorem C20_uint_little_endian (v : U64) (size : Nat) (_hs : size = 2 ∨ size = 4 ∨ size = 8) (h : v.toNat < 2 ^ (8 * size)) :
    RoundTrip (acnEncUIntLittle v size) () (acnDecUIntLittle size 0 0#64) v (8 * size) ∧
    RejectsTruncated (acnEncUIntLittle v size) () (acnDecUIntLittle size 0 0#64) (8 * size) ∧
    Appends (acnEncUIntLittle v size) () (littleCode size v.toNat) := by
  obtain ⟨r, s⟩ := acnDecUIntLittle_reads size 0 0 v.toNat h (by simp)
  rw [Nat.mul_zero, Nat.pow_zero, Nat.mul_one, Nat.add_zero, BitVec.ofNat_toNat, BitVec.setWidth_eq] at r
  have a := acnEncUIntLittle_appends v size
  refine ⟨?_, ?_, a⟩
  · have := roundTrip_of a r; rwa [littleCode_length] at this
  · have := rejectsTruncated_of a s; rwa [littleCode_length] at this

example : littleCode 2 0x1234 = byteBits 0x34#8 ++ byteBits 0x12#8 := by decide

/-- C20, `Acn_Enc_Int_TwosComplement_ConstSize`: every size up to 64 bits, every value that fits in `n` bits of two's
complement except `-2^63` (see `C20_violation_min`). The bits are those of the residue modulo `2^n`. -/
theorem C20_sint_bits_partial (v : Int) (n : Nat) (hn : n ≤ 64) (h : FitsTwos n v) (hmin : v ≠ -(2 ^ 63)) :
    RoundTrip (acnEncSIntConstSize v n) () (acnDecSIntConstSize n) v n ∧
    RejectsTruncated (acnEncSIntConstSize v n) () (acnDecSIntConstSize n) n ∧
    Appends (acnEncSIntConstSize v n) () (bitsMsb n (v % 2 ^ n).toNat) := by
  obtain ⟨r, s⟩ := acnDecSIntConstSize_reads h hn
  have h64 := h.le64 hn
  have a := acnEncSIntConstSize_appends h (by omega) (by omega)
  unfold twosCode at *
  refine ⟨?_, ?_, a⟩
  · have := roundTrip_of a r; rwa [bitsMsb_length] at this
  · have := rejectsTruncated_of a s; rwa [bitsMsb_length] at this

example : FitsTwos 5 (-16) ∧ (-16 : Int) ≠ -(2 ^ 63) := by decide

/-- C20, one octet of two's complement. -/
theorem C20_sint_8 (v : Int) (h : -128 ≤ v ∧ v < 128) :
    RoundTrip (acnEncSIntConstSize8 v) () acnDecSIntConstSize8 v 8 ∧
    RejectsTruncated (acnEncSIntConstSize8 v) () acnDecSIntConstSize8 8 := by
  obtain ⟨r, s⟩ := acnDecSIntConstSize8_reads (v := v) ⟨by omega, by simpa using h.1, by simpa using h.2⟩
  have a := acnEncSIntConstSize8_appends (v := v) (by omega) (by omega)
  unfold twosCode at *
  constructor
  · have := roundTrip_of a r; rwa [bitsMsb_length] at this
  · have := rejectsTruncated_of a s; rwa [bitsMsb_length] at this

example : (-128 : Int) ≤ -128 ∧ (-128 : Int) < 128 := by decide

/-- C20, big endian two's complement in 2, 4 or 8 octets, except `-2^63`. -/
theorem C20_sint_big_endian_partial (v : Int) (size : Nat) (hs : size = 2 ∨ size = 4 ∨ size = 8)
    (h : FitsTwos (8 * size) v) (hmin : v ≠ -(2 ^ 63)) :
    RoundTrip (acnEncSIntBig v size) () (acnDecSIntBig size) v (8 * size) ∧
    RejectsTruncated (acnEncSIntBig v size) () (acnDecSIntBig size) (8 * size) := by
  obtain ⟨r, s⟩ := acnDecSIntBig_reads (size := size) (by omega) (by omega) h
  have h64 := h.le64 (by omega)
  have a := acnEncSIntBig_appends (v := v) (size := size) (by omega) (by omega) (by omega)
  unfold twosCode at *
  constructor
  · have := roundTrip_of a r; rwa [bitsMsb_length] at this
  · have := rejectsTruncated_of a s; rwa [bitsMsb_length] at this

example : FitsTwos (8 * 2) (-32768) ∧ (-32768 : Int) ≠ -(2 ^ 63) := by decide

/-- C20, little endian two's complement in 2, 4 or 8 octets, except `-2^63`. -/
theorem C20_sint_little_endian_partial (v : Int) (size : Nat) (hs : size = 2 ∨ size = 4 ∨ size = 8)
    (h : FitsTwos (8 * size) v) (hmin : v ≠ -(2 ^ 63)) :
    RoundTrip (acnEncSIntLittle v size) () (acnDecSIntLittle size) v (8 * size) ∧
    RejectsTruncated (acnEncSIntLittle v size) () (acnDecSIntLittle size) (8 * size) ∧
    Appends (acnEncSIntLittle v size) () (littleCode size (v % 2 ^ (8 * size)).toNat) := by
  obtain ⟨r, s⟩ := acnDecSIntLittle_reads (size := size) (by omega) (by omega) h
  have h64 := h.le64 (by omega)
  have a := acnEncSIntLittle_appends (v := v) (size := size) (by omega) (by omega) (by omega)
  refine ⟨?_, ?_, a⟩
  · have := roundTrip_of a r; rwa [littleCode_length] at this
  · have := rejectsTruncated_of a s; rwa [littleCode_length] at this

example : FitsTwos (8 * 4) (-2) ∧ (-2 : Int) ≠ -(2 ^ 63) := by decide

/-- The code violates C20 for `-2^63`, which fits in 64 bits: every two's complement encoder negates it. -/
theorem C20_violation_min : FitsTwos 64 (-(2 ^ 63)) ∧
    ∃ s0, bitStreamInit (List.replicate 16 0#8) 16 = .ok s0 ∧
      acnEncSIntConstSize (-(2 ^ 63)) 64 s0 = .ub ∧ acnEncSIntBig (-(2 ^ 63)) 8 s0 = .ub ∧
      acnEncSIntLittle (-(2 ^ 63)) 8 s0 = .ub :=
  ⟨by decide, _, rfl, by decide, by decide, by decide⟩

/-- The decoders do accept `-2^63`. -/
theorem C20_decode_min (s : BitStream) (rest : List Bool)
    (h : DecSt s (bitsMsb 64 (2 ^ 63) ++ rest)) :
    ∃ s', acnDecSIntConstSize 64 s = .ok ((true, -(2 ^ 63)), s') ∧ DecSt s' rest := by
  have r := (acnDecSIntConstSize_reads (v := -(2 ^ 63)) (n := 64) (by decide) (by omega)).1
  obtain ⟨s', h1, h2, _, _⟩ := r s rest h
  exact ⟨s', h1, h2⟩

example : DecSt (bitStreamAttach (0x80#8 :: List.replicate 7 0#8) 8) (bitsMsb 64 (2 ^ 63) ++ []) := by
  refine ⟨⟨by decide, by decide⟩, by decide, by decide⟩

/-- C20/C05: no constant-size decoder reads outside the buffer, aborts or has undefined behaviour on any input. -/
theorem C20_decoders_safe (n size : Nat) (hn : n ≤ 64) (hs : size = 1 ∨ size = 2 ∨ size = 4 ∨ size = 8) :
    Safe (acnDecUIntConstSize n) ∧ Safe acnDecUIntConstSize8 ∧ Safe (acnDecUIntBig size 0#64) ∧
    Safe (acnDecUIntLittle size 0 0#64) ∧ Safe (acnDecSIntConstSize n) ∧ Safe acnDecSIntConstSize8 ∧
    Safe (acnDecSIntBig size) ∧ Safe (acnDecSIntLittle size) :=
  ⟨acnDecUIntConstSize_safe hn, acnDecUIntConstSize8_safe, acnDecUIntBig_safe _ _, acnDecUIntLittle_safe _ _ _,
   acnDecSIntConstSize_safe _, acnDecSIntConstSize8_safe, acnDecSIntBig_safe (by omega) (by omega),
   acnDecSIntLittle_safe (by omega) (by omega)⟩

example : (33 : Nat) ≤ 64 ∧ (4 = 1 ∨ 4 = 2 ∨ 4 = 4 ∨ 4 = 8) := by decide

/-! ## C21 -/

/-- C21, positive: a length octet, then the least number of octets that holds the value. -/
theorem C21_uint (v : U64) :
    ∃ k : Nat, 1 ≤ k ∧ k ≤ 8 ∧ (∀ j : Nat, 1 ≤ j → (v.toNat < 2 ^ (8 * j) ↔ k ≤ j)) ∧
      Appends (acnEncUIntLengthEmbedded v) () (bitsMsb 8 k ++ bitsMsb (8 * k) v.toNat) ∧
      RoundTrip (acnEncUIntLengthEmbedded v) () acnDecUIntLengthEmbedded v (8 + 8 * k) ∧
      RejectsTruncated (acnEncUIntLengthEmbedded v) () acnDecUIntLengthEmbedded (8 + 8 * k) := by
  obtain ⟨r, s⟩ := acnDecUIntLengthEmbedded_reads v
  have a := acnEncUIntLengthEmbedded_appends v
  refine ⟨octetsNat v.toNat, octetsNat_pos _, octetsNat_le8 v, fun j hj => (octetsNat_le_iff _ j hj).symm, a, ?_, ?_⟩
  · have := roundTrip_of a r
    rwa [List.length_append, bitsMsb_length, bitsMsb_length] at this
  · have := rejectsTruncated_of a s
    rwa [List.length_append, bitsMsb_length, bitsMsb_length] at this

/-- C21, two's complement, every value but `-2^63` (see `C21_violation_min`). -/
theorem C21_sint_partial (v : Int) (h1 : -(2 ^ 63) < v) (h2 : v < 2 ^ 63) :
    ∃ k : Nat, 1 ≤ k ∧ k ≤ 8 ∧ (∀ j : Nat, 1 ≤ j → (FitsTwos (8 * j) v ↔ k ≤ j)) ∧
      Appends (acnEncSIntLengthEmbedded v) () (bitsMsb 8 k ++ bitsMsb (8 * k) (v % 2 ^ (8 * k)).toNat) ∧
      RoundTrip (acnEncSIntLengthEmbedded v) () acnDecSIntLengthEmbedded v (8 + 8 * k) ∧
      RejectsTruncated (acnEncSIntLengthEmbedded v) () acnDecSIntLengthEmbedded (8 + 8 * k) := by
  obtain ⟨r, s⟩ := acnDecSIntLengthEmbedded_reads h1 h2
  have a := acnEncSIntLengthEmbedded_appends h1 h2
  unfold twosCode at *
  refine ⟨octetsInt v, octetsInt_pos _, (octetsInt_le_iff v 8 (by omega)).2 (by omega), fun j hj => ?_, a, ?_, ?_⟩
  · rw [octetsInt_le_iff _ j hj]
    exact ⟨fun h => h.2, fun h => ⟨by omega, h⟩⟩
  · have := roundTrip_of a r
    rwa [List.length_append, bitsMsb_length, bitsMsb_length] at this
  · have := rejectsTruncated_of a s
    rwa [List.length_append, bitsMsb_length, bitsMsb_length] at this

example : -(2 ^ 63) < (-129 : Int) ∧ (-129 : Int) < 2 ^ 63 := by decide

/-- The code violates C21 for `-2^63`. -/
theorem C21_violation_min : ∃ s0, bitStreamInit (List.replicate 16 0#8) 16 = .ok s0 ∧
    acnEncSIntLengthEmbedded (-(2 ^ 63)) s0 = .ub := ⟨_, rfl, by decide⟩

/-- The length-embedded decoders are safe on any input. -/
theorem C21_decoders_safe : Safe acnDecUIntLengthEmbedded ∧ Safe acnDecSIntLengthEmbedded :=
  ⟨acnDecUIntLengthEmbedded_safe, acnDecSIntLengthEmbedded_safe⟩

/-! ## C25 -/

/-- C25 for bytes, words and double words. -/
theorem C25_align : AlignsTo acnAlignToNextByte 8 ∧ AlignsTo acnAlignToNextWord 16 ∧ AlignsTo acnAlignToNextDWord 32 :=
  ⟨alignsTo_of (by omega) fun _ h h' => acnAlignToNextByte_run h h',
   alignsTo_of (by omega) fun _ h h' => acnAlignToNextWord_run h h',
   alignsTo_of (by omega) fun _ h h' => acnAlignToNextDWord_run h h'⟩

example : ∃ s bs, EncSt s bs ∧ s.pos = 3 ∧ 32 ≤ 8 * s.count := by
  obtain ⟨s0, _, h0, c0, _⟩ := init_encSt (buf := List.replicate 4 0#8) (count := 4) (by decide)
  obtain ⟨s', _, h, f⟩ := appendPartialByte_appends (v := 5#8) (n := 3) (neg := false) (by omega) (by omega) (by decide)
    s0 [] h0 (by rw [c0]; decide)
  exact ⟨s', _, h, h.pos, by rw [f.count, c0]; decide⟩

/-- C05 is violated by word and double word alignment: the decoder asserts that the aligned position is inside the
buffer, so a message that ends early makes it abort instead of reporting an error. -/
theorem C25_violation_truncated : ∃ s : BitStream, Wf s ∧ s.pos ≤ 8 * s.count ∧ Slack s ∧
    acnAlignToNextWord s = .abort ∧ acnAlignToNextDWord s = .abort :=
  ⟨{ buf := [0#8, 0#8], count := 1, currentByte := 0, currentBit := 1 }, ⟨by decide, by decide⟩, by decide, Nat.le_refl 2,
   by decide, by decide⟩

/-! ## C40 -/

/-- C40, booleans with a TRUE and a FALSE pattern: each value round-trips when the two patterns differ in their first
`n` bits. -/
theorem C40_bool_two_patterns (tp fp : List Byte) (n : Nat) (v : Bool) (ht : n ≤ 8 * tp.length) (hf : n ≤ 8 * fp.length)
    (hne : (bytesBits tp).take n ≠ (bytesBits fp).take n) :
    RoundTrip (acnBoolEncode tp fp n v) () (decodeTrueFalseBoolean tp fp n) v n ∧
    RejectsTruncated (acnBoolEncode tp fp n v) () (decodeTrueFalseBoolean tp fp n) n := by
  have hl : ((bytesBits (if v then tp else fp)).take n).length = n := by
    rw [List.length_take, bytesBits_length]; split <;> omega
  have a : Appends (acnBoolEncode tp fp n v) () _ := appendBits_appends (arr := if v then tp else fp) (n := n) (by split <;> omega)
  obtain ⟨r, s⟩ := decodeTrueFalseBoolean_reads ht hf hl
  have e : trueFalseResult (decide ((bytesBits (if v then tp else fp)).take n = (bytesBits tp).take n))
      (decide ((bytesBits (if v then tp else fp)).take n = (bytesBits fp).take n)) = (true, v) := by
    cases v
    · simp [trueFalseResult, Ne.symm hne]
    · simp [trueFalseResult]
  rw [e] at r
  constructor
  · have := roundTrip_of a r; rwa [hl] at this
  · have := rejectsTruncated_of a s; rwa [hl] at this

example : (12 : Nat) ≤ 8 * [0xAB#8, 0xC0#8].length ∧ (12 : Nat) ≤ 8 * [0xAB#8, 0x30#8].length ∧
    (bytesBits [0xAB#8, 0xC0#8]).take 12 ≠ (bytesBits [0xAB#8, 0x30#8]).take 12 := by decide

/-- C40: bits that match neither pattern are rejected, whatever they are. -/
theorem C40_bool_other_rejected (tp fp : List Byte) (n : Nat) (ht : n ≤ 8 * tp.length) (hf : n ≤ 8 * fp.length)
    (s : BitStream) (w rest : List Bool) (hw : w.length = n) (hs : DecSt s (w ++ rest))
    (h1 : w ≠ (bytesBits tp).take n) (h2 : w ≠ (bytesBits fp).take n) :
    ∃ s', decodeTrueFalseBoolean tp fp n s = .ok ((false, false), s') := by
  have r := (decodeTrueFalseBoolean_reads ht hf hw).1
  rw [decide_eq_false h1, decide_eq_false h2] at r
  obtain ⟨s', e, _⟩ := r s rest hs
  exact ⟨s', e⟩

example : ∃ s', decodeTrueFalseBoolean [0xF0#8] [0x00#8] 8 (bitStreamAttach [0x55#8] 1) = .ok ((false, false), s') := ⟨_, rfl⟩

/-- C40, booleans with one pattern: any other bits mean the other value, so each value round-trips when the two patterns
differ in their first `n` bits. -/
theorem C40_bool_one_pattern (encValIsTrue : Bool) (tp fp : List Byte) (n : Nat) (v : Bool) (ht : n ≤ 8 * tp.length)
    (hf : n ≤ 8 * fp.length) (hne : (bytesBits tp).take n ≠ (bytesBits fp).take n) :
    RoundTrip (acnBoolEncode tp fp n v) () (acnBoolDecode encValIsTrue tp fp n) v n ∧
    RejectsTruncated (acnBoolEncode tp fp n v) () (acnBoolDecode encValIsTrue tp fp n) n := by
  have hl : ((bytesBits (if v then tp else fp)).take n).length = n := by
    rw [List.length_take, bytesBits_length]; split <;> omega
  have a : Appends (acnBoolEncode tp fp n v) () _ := appendBits_appends (arr := if v then tp else fp) (n := n) (by split <;> omega)
  obtain ⟨r, s⟩ := readBitPattern_reads (pat := if encValIsTrue then tp else fp) (n := n) (by split <;> omega) hl
  have e : (if encValIsTrue then decide ((bytesBits (if v then tp else fp)).take n = (bytesBits (if encValIsTrue then tp else fp)).take n)
      else !decide ((bytesBits (if v then tp else fp)).take n = (bytesBits (if encValIsTrue then tp else fp)).take n)) = v := by
    cases v <;> cases encValIsTrue <;> simp [hne, Ne.symm hne]
  have r' : Reads (acnBoolDecode encValIsTrue tp fp n) (true, v) ((bytesBits (if v then tp else fp)).take n) := by
    unfold acnBoolDecode
    rw [← List.append_nil ((bytesBits _).take n)]
    refine r.bind ?_
    rw [if_pos rfl, e]
    exact Reads.pure _
  have s' : Short (acnBoolDecode encValIsTrue tp fp n) ((bytesBits (if v then tp else fp)).take n) := by
    unfold acnBoolDecode
    rw [← List.append_nil ((bytesBits _).take n)]
    exact s.bind r (Short.nil _) (fun a => ⟨a, by rw [if_neg (by simp)]⟩)
  constructor
  · have := roundTrip_of a r'; rwa [hl] at this
  · have := rejectsTruncated_of a s'; rwa [hl] at this

example : (3 : Nat) ≤ 8 * [0xA0#8].length ∧ (bytesBits [0xA0#8]).take 3 ≠ (bytesBits [0x40#8]).take 3 := by decide

/-- The boolean decoders are safe on any input. -/
theorem C40_bool_safe (tp fp : List Byte) (n : Nat) (ht : n ≤ 8 * tp.length) (hf : n ≤ 8 * fp.length) :
    Safe (decodeTrueFalseBoolean tp fp n) ∧ Safe (readBitPattern tp n) :=
  ⟨safe_of_reads (n := n) fun _ hw => ⟨⟨_, (decodeTrueFalseBoolean_reads ht hf hw).1⟩, (decodeTrueFalseBoolean_reads ht hf hw).2⟩,
   safe_of_reads (n := n) fun _ hw => ⟨⟨_, (readBitPattern_reads ht hw).1⟩, (readBitPattern_reads ht hw).2⟩⟩

/-- C40, IEEE754 (`size` 4 and 8): the encoders write the octets of the bit image, most significant first for big endian,
in the opposite order for little endian, and the decoders restore the image bit for bit. -/
theorem C40_ieee754 (size : Nat) (v : BitVec (8 * size)) :
    Appends (acnEncRealBig size v) () (bytesBits (bigImage size v.toNat)) ∧
    Appends (acnEncRealLittle size v) () (bytesBits (bigImage size v.toNat).reverse) ∧
    RoundTrip (acnEncRealBig size v) () (acnDecRealBig size) v (8 * size) ∧
    RoundTrip (acnEncRealLittle size v) () (acnDecRealLittle size) v (8 * size) ∧
    RejectsTruncated (acnEncRealBig size v) () (acnDecRealBig size) (8 * size) ∧
    RejectsTruncated (acnEncRealLittle size v) () (acnDecRealLittle size) (8 * size) ∧
    Safe (acnDecRealBig size) ∧ Safe (acnDecRealLittle size) := by
  obtain ⟨r1, s1⟩ := acnDecRealBig_reads v
  obtain ⟨r2, s2⟩ := acnDecRealLittle_reads v
  have a1 : Appends (acnEncRealBig size v) () _ := acnEncRealLoop_appends (memImage size v).reverse
  have a2 : Appends (acnEncRealLittle size v) () _ := acnEncRealLoop_appends (memImage size v)
  have l1 : (bytesBits (memImage size v).reverse).length = 8 * size := by simp [memImage_length]
  have l2 : (bytesBits (memImage size v)).length = 8 * size := by simp [memImage_length]
  refine ⟨?_, ?_, ?_, ?_, ?_, ?_, acnDecRealBig_safe _, acnDecRealLittle_safe _⟩
  · rw [← bigImage_eq]; exact a1
  · rw [← bigImage_eq, List.reverse_reverse]; exact a2
  · have := roundTrip_of a1 r1; rwa [l1] at this
  · have := roundTrip_of a2 r2; rwa [l2] at this
  · have := rejectsTruncated_of a1 s1; rwa [l1] at this
  · have := rejectsTruncated_of a2 s2; rwa [l2] at this

example : bigImage 8 (0x400921FB54442D18 : Nat) = [0x40#8, 0x09#8, 0x21#8, 0xFB#8, 0x54#8, 0x44#8, 0x2D#8, 0x18#8] := by decide

/-! ## C41 -/

/-- C41: `milbus_encode` maps 1..32 onto 0..31 and `milbus_decode` is its inverse, in both directions; on 1..31 both are
the identity. -/
theorem C41_milbus :
    (∀ v : Int, 1 ≤ v → v ≤ 32 → 0 ≤ milbusEncode v ∧ milbusEncode v ≤ 31 ∧ milbusDecode (milbusEncode v) = v) ∧
    (∀ w : Int, 0 ≤ w → w ≤ 31 → 1 ≤ milbusDecode w ∧ milbusDecode w ≤ 32 ∧ milbusEncode (milbusDecode w) = w) ∧
    (∀ v : Int, 1 ≤ v → v ≤ 31 → milbusEncode v = v ∧ milbusDecode v = v) ∧ milbusEncode 32 = 0 := by
  unfold milbusEncode milbusDecode
  refine ⟨fun v h1 h2 => ?_, fun w h1 h2 => ?_, fun v h1 h2 => ?_, rfl⟩
  · split
    · subst_vars; simp
    · rw [if_neg (by omega)]; omega
  · split
    · subst_vars; simp
    · rw [if_neg (by omega)]; omega
  · rw [if_neg (by omega), if_neg (by omega)]; exact ⟨rfl, rfl⟩

/-! ## C44 -/

/-- C44, unsigned: whatever the wide decoder `f` does, the narrow one returns the same flag and cursor, and the same value
whenever it fits in `w` bits. Missing: a value that does not fit is not rejected, see `C44_violation`. -/
theorem C44_narrow_unsigned_partial (w : Nat) (f : M (Bool × U64)) (s s' : BitStream) (b : Bool) (v : U64)
    (h : f s = .ok ((b, v), s')) :
    ∃ x : BitVec w, acnNarrowU w f s = .ok ((b, x), s') ∧ (v.toNat < 2 ^ w → x.toNat = v.toNat) := by
  refine ⟨_, acnNarrowU_run h, fun hv => ?_⟩
  rw [BitVec.toNat_setWidth, Nat.mod_eq_of_lt hv]

example : ∃ s', acnDecUIntBig 2 0#64 (bitStreamAttach [0x00#8, 0xC8#8] 2) = .ok ((true, 200#64), s') ∧ (200#64).toNat < 2 ^ 8 :=
  ⟨_, rfl, by decide⟩

/-- C44, signed. -/
theorem C44_narrow_signed_partial (w : Nat) (f : M (Bool × Int)) (s s' : BitStream) (b : Bool) (v : Int)
    (h : f s = .ok ((b, v), s')) :
    ∃ x : Int, acnNarrowS w f s = .ok ((b, x), s') ∧ (FitsTwos w v → x = v) :=
  ⟨_, acnNarrowS_run h, ofInt_fits⟩

example : ∃ s', acnDecSIntBig 2 (bitStreamAttach [0xFF#8, 0x80#8] 2) = .ok ((true, -128), s') ∧ FitsTwos 8 (-128) :=
  ⟨_, rfl, by decide⟩

/-- The code violates C44: the 16-bit wire value 300 is accepted by the 8-bit decoder as 44 (unsigned and signed). -/
theorem C44_violation :
    (∃ s', acnNarrowU 8 (acnDecUIntBig 2 0#64) (bitStreamAttach [0x01#8, 0x2C#8] 2) = .ok ((true, 44#8), s')) ∧
    (∃ s', acnNarrowS 8 (acnDecSIntBig 2) (bitStreamAttach [0x01#8, 0x2C#8] 2) = .ok ((true, 44), s')) :=
  ⟨⟨_, rfl⟩, ⟨_, rfl⟩⟩

end Asn1
