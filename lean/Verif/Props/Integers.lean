import Verif.Proof.RoundTrip
import Verif.Proof.Int4
/-!
# C07-C13, C42: integers

`asn1SccSint` is a 64-bit signed integer: values and bounds range over `-2^63 .. 2^63-1`.
-/
namespace Asn1

/-- Representable as `asn1SccSint`. -/
def IsS64 (v : Int) : Prop := -(2 ^ 63) ≤ v ∧ v < 2 ^ 63

instance (v : Int) : Decidable (IsS64 v) := inferInstanceAs (Decidable (_ ∧ _))

/-! ## C07 -/

/-- C07, for ranges whose width `hi - lo` is representable (below 2^63): the encoder writes the least number
of bits that holds `hi - lo`, and the round trip is exact. Ranges of width 2^63 and more are missing: there
`max - min` overflows, see `C07_violation_wide_range`. -/
theorem C07_constrained_roundtrip_partial (v lo hi : Int) (h1 : lo ≤ v) (h2 : v ≤ hi) (hlo : IsS64 lo) (hhi : IsS64 hi)
    (hw : hi - lo < 2 ^ 63) :
    ∃ len : Nat, (∀ k : Nat, hi - lo < 2 ^ k ↔ len ≤ k) ∧
      RoundTrip (encodeConstraintWholeNumber v lo hi) () (decodeConstraintWholeNumber lo hi) v len := by
  refine ⟨bitLen (hi - lo).toNat, ?_, ?_⟩
  · intro k
    rw [bitLen_le_iff]
    have : ((2 ^ k : Nat) : Int) = 2 ^ k := by norm_cast
    rw [← this]; omega
  · have := roundTrip_of (encodeConstraintWholeNumber_appends h1 h2 hw)
      (decodeConstraintWholeNumber_reads h1 h2 hw hlo.1 hhi.2).1
    rwa [constrainedCode, bitsMsb_length] at this

example : (-5 : Int) ≤ 1000 ∧ (1000 : Int) ≤ 2 ^ 62 ∧ IsS64 (-5) ∧ IsS64 (2 ^ 62) ∧ (2 ^ 62 : Int) - (-5) < 2 ^ 63 := by
  decide

/-- A truncated constrained integer is never accepted. -/
theorem C07_constrained_truncated_partial (v lo hi : Int) (h1 : lo ≤ v) (h2 : v ≤ hi) (hlo : IsS64 lo) (hhi : IsS64 hi)
    (hw : hi - lo < 2 ^ 63) :
    RejectsTruncated (encodeConstraintWholeNumber v lo hi) () (decodeConstraintWholeNumber lo hi) (bitLen (hi - lo).toNat) := by
  have := rejectsTruncated_of (encodeConstraintWholeNumber_appends h1 h2 hw)
      (decodeConstraintWholeNumber_reads h1 h2 hw hlo.1 hhi.2).2
  rwa [constrainedCode, bitsMsb_length] at this

/-- The code violates C07 for the full range: `max - min` overflows a signed 64-bit integer, in the encoder and
in the decoder. -/
theorem C07_violation_wide_range :
    ∃ s0, bitStreamInit (List.replicate 16 0#8) 16 = .ok s0 ∧
      encodeConstraintWholeNumber 0 (-(2 ^ 63)) (2 ^ 63 - 1) s0 = .ub ∧
      decodeConstraintWholeNumber (-(2 ^ 63)) (2 ^ 63 - 1) s0 = .ub := ⟨_, rfl, by decide, by decide⟩

/-! ## C08 -/

/-- C08, signed: from any state whatsoever, success means a value inside the bounds (width below 2^63). -/
theorem C08_decoded_in_bounds (lo hi : Int) (h : lo ≤ hi) (hlo : IsS64 lo) (hhi : IsS64 hi) (hw : hi - lo < 2 ^ 63)
    (s : BitStream) (v : Int) (s' : BitStream) (hr : decodeConstraintWholeNumber lo hi s = .ok ((true, v), s')) :
    lo ≤ v ∧ v ≤ hi :=
  decodeConstraintWholeNumber_post h hw hlo.1 hhi.2 s v s' hr

example : ∃ s', decodeConstraintWholeNumber (-3) 9 (bitStreamAttach [0xB0#8] 1) = .ok ((true, 8), s') := ⟨_, rfl⟩

/-- C08, unsigned: the whole 64-bit range. -/
theorem C08_decoded_pos_in_bounds (lo hi : U64) (h : lo ≤ hi) (s : BitStream) (v : U64) (s' : BitStream)
    (hr : decodeConstraintPosWholeNumber lo hi s = .ok ((true, v), s')) : lo ≤ v ∧ v ≤ hi :=
  decodeConstraintPosWholeNumber_post h s v s' hr

example : ∃ s', decodeConstraintPosWholeNumber 3#64 9#64 (bitStreamAttach [0xA0#8] 1) = .ok ((true, 8#64), s') := ⟨_, rfl⟩

/-- C08: a bit pattern above `hi - lo` is rejected. -/
theorem C08_pattern_above_range_rejected (lo hi : Int) (u : Nat) (h : lo < hi) (hlo : IsS64 lo) (hhi : IsS64 hi)
    (hw : hi - lo < 2 ^ 63) (hu : hi - lo < u) (hub : u < 2 ^ bitLen (hi - lo).toNat) :
    Reads (decodeConstraintWholeNumber lo hi) (false, 0) (bitsMsb (bitLen (hi - lo).toNat) u) := by
  have _ := hlo
  have _ := hhi
  rw [decodeConstraintWholeNumber_eq (by omega) hw, if_neg (by omega)]
  have hw' : bitLen (hi - lo).toNat ≤ 64 := (bitLen_le_iff _ _).2 (by omega)
  have hle : u < 2 ^ 64 := Nat.lt_of_lt_of_le hub (Nat.pow_le_pow_right (by omega) hw')
  rw [← List.append_nil (bitsMsb _ _)]
  refine (decodeNonNegativeInteger_reads hw' hub).1.bind ?_
  rw [if_pos rfl, if_pos]
  · exact Reads.pure _
  · simp only [gt_iff_lt, BitVec.lt_def, BitVec.toNat_ofNat]; omega

example : (5 : Int) < 10 ∧ (10 : Int) - 5 < (7 : Nat) ∧ 7 < 2 ^ bitLen ((10 : Int) - 5).toNat := by decide

/-! ## C09 -/

/-- C09: unsigned bounds over the whole 64-bit range. -/
theorem C09_pos_constrained_roundtrip (v lo hi : U64) (h1 : lo ≤ v) (h2 : v ≤ hi) :
    ∃ len : Nat, (∀ k : Nat, hi.toNat - lo.toNat < 2 ^ k ↔ len ≤ k) ∧
      RoundTrip (encodeConstraintPosWholeNumber v lo hi) () (decodeConstraintPosWholeNumber lo hi) v len := by
  refine ⟨bitLen (hi.toNat - lo.toNat), fun k => (bitLen_le_iff _ _).symm, ?_⟩
  have := roundTrip_of (encodeConstraintPosWholeNumber_appends h1 h2) (decodeConstraintPosWholeNumber_reads h1 h2).1
  rw [constrainedCode, bitsMsb_length] at this
  rwa [show ((hi.toNat : Int) - lo.toNat).toNat = hi.toNat - lo.toNat by omega] at this

example : (0#64 : U64) ≤ 0xFFFFFFFFFFFFFFFE#64 ∧ 0xFFFFFFFFFFFFFFFE#64 ≤ (0xFFFFFFFFFFFFFFFF#64 : U64) := by decide

/-- A truncated unsigned constrained integer is never accepted. -/
theorem C09_pos_constrained_truncated (v lo hi : U64) (h1 : lo ≤ v) (h2 : v ≤ hi) :
    RejectsTruncated (encodeConstraintPosWholeNumber v lo hi) () (decodeConstraintPosWholeNumber lo hi)
      (bitLen (hi.toNat - lo.toNat)) := by
  have := rejectsTruncated_of (encodeConstraintPosWholeNumber_appends h1 h2) (decodeConstraintPosWholeNumber_reads h1 h2).2
  rw [constrainedCode, bitsMsb_length] at this
  rwa [show ((hi.toNat : Int) - lo.toNat).toNat = hi.toNat - lo.toNat by omega] at this

/-! ## C12 (used by C10 and C11) -/

/-- C12: `GetNumberOfBitsForNonNegativeInteger` is the least number of bits. -/
theorem C12_number_of_bits (v : U64) (k : Nat) : getNumberOfBits v ≤ k ↔ v.toNat < 2 ^ k := by
  rw [getNumberOfBits_eq, bitLen_le_iff]

/-- C12: `GetLengthInBytesOfUInt` is the least number of octets, at least one. -/
theorem C12_length_uint (v : U64) (k : Nat) : getLengthInBytesOfUInt v ≤ k ↔ 1 ≤ k ∧ v.toNat < 256 ^ k := by
  rw [getLengthInBytesOfUInt_eq, show (256 : Nat) = 2 ^ 8 from rfl, ← Nat.pow_mul]
  by_cases hk : 1 ≤ k
  · rw [octetsNat_le_iff _ _ hk]; simp [hk]
  · have := octetsNat_pos v.toNat; omega

/-- C12: `GetLengthInBytesOfSInt` is the least number of octets of two's complement, for every value but the
smallest; that one is missing, see `C12_violation_min`. -/
theorem C12_length_sint_partial (v : Int) (h1 : -(2 ^ 63) < v) (h2 : v < 2 ^ 63) :
    ∃ n, getLengthInBytesOfSInt v = pure n ∧
      ∀ k, n ≤ k ↔ 1 ≤ k ∧ -(2 ^ (8 * k - 1) : Int) ≤ v ∧ v < 2 ^ (8 * k - 1) := by
  refine ⟨octetsInt v, getLengthInBytesOfSInt_eq h1 h2, ?_⟩
  intro k
  by_cases hk : 1 ≤ k
  · rw [octetsInt_le_iff v k hk]; simp [hk]
  · have := octetsInt_pos v; omega

example : -(2 ^ 63 : Int) < -129 ∧ (-129 : Int) < 2 ^ 63 := by decide

/-- The code violates C12 at the smallest value: `-v` overflows. -/
theorem C12_violation_min (s : BitStream) : getLengthInBytesOfSInt (-(2 ^ 63)) s = .ub := by
  simp [getLengthInBytesOfSInt, negMinusOne, chk, inS64, bind_def, mUb]

/-! ## C10 -/

/-- C10, signed, when `v - lo` is representable: one octet with the least number `n` of octets, then the
value `v - lo` in `n` octets; the round trip is exact. Missing: `v - lo ≥ 2^63`, see `C10_violation_overflow`. -/
theorem C10_semi_roundtrip_partial (v lo : Int) (h : lo ≤ v) (hlo : IsS64 lo) (hv : IsS64 v) (hw : v - lo < 2 ^ 63) :
    ∃ n : Nat, (∀ k : Nat, n ≤ k ↔ 1 ≤ k ∧ v - lo < 256 ^ k) ∧
      Appends (encodeSemiConstraintWholeNumber v lo) () (bitsMsb 8 n ++ bitsMsb (8 * n) (v - lo).toNat) ∧
      RoundTrip (encodeSemiConstraintWholeNumber v lo) () (decodeSemiConstraintWholeNumber lo) v (8 + 8 * n) ∧
      RejectsTruncated (encodeSemiConstraintWholeNumber v lo) () (decodeSemiConstraintWholeNumber lo) (8 + 8 * n) := by
  have ha := encodeSemiConstraintWholeNumber_appends h hw
  have hr := decodeSemiConstraintWholeNumber_reads h hw hlo.1 hv.2
  have hl : (lengthPrefixedNat (v - lo).toNat).length = 8 + 8 * octetsNat (v - lo).toNat := by simp [lengthPrefixedNat]
  refine ⟨octetsNat (v - lo).toNat, ?_, ha, ?_, ?_⟩
  · intro k
    by_cases hk : 1 ≤ k
    · rw [octetsNat_le_iff _ _ hk, show (256 : Int) = 2 ^ 8 from rfl, ← Int.pow_mul]
      have : ((2 ^ (8 * k) : Nat) : Int) = 2 ^ (8 * k) := by norm_cast
      rw [← this]; omega
    · have := octetsNat_pos (v - lo).toNat; omega
  · rw [← hl]; exact roundTrip_of ha hr.1
  · rw [← hl]; exact rejectsTruncated_of ha hr.2

example : (-10 : Int) ≤ 70000 ∧ IsS64 (-10) ∧ IsS64 70000 ∧ (70000 : Int) - (-10) < 2 ^ 63 := by decide

/-- C10, unsigned: the whole range. -/
theorem C10_semi_pos_roundtrip (v lo : U64) (h : lo ≤ v) :
    ∃ n : Nat, (∀ k : Nat, n ≤ k ↔ 1 ≤ k ∧ v.toNat - lo.toNat < 256 ^ k) ∧
      Appends (encodeSemiConstraintPosWholeNumber v lo) () (bitsMsb 8 n ++ bitsMsb (8 * n) (v.toNat - lo.toNat)) ∧
      RoundTrip (encodeSemiConstraintPosWholeNumber v lo) () (decodeSemiConstraintPosWholeNumber lo) v (8 + 8 * n) ∧
      RejectsTruncated (encodeSemiConstraintPosWholeNumber v lo) () (decodeSemiConstraintPosWholeNumber lo) (8 + 8 * n) := by
  have ha := encodeSemiConstraintPosWholeNumber_appends h
  have hr := decodeSemiConstraintPosWholeNumber_reads h
  have hl : (lengthPrefixedNat (v.toNat - lo.toNat)).length = 8 + 8 * octetsNat (v.toNat - lo.toNat) := by simp [lengthPrefixedNat]
  refine ⟨octetsNat (v.toNat - lo.toNat), ?_, ha, ?_, ?_⟩
  · intro k
    by_cases hk : 1 ≤ k
    · rw [octetsNat_le_iff _ _ hk, show (256 : Nat) = 2 ^ 8 from rfl, ← Nat.pow_mul]; simp [hk]
    · have := octetsNat_pos (v.toNat - lo.toNat); omega
  · rw [← hl]; exact roundTrip_of ha hr.1
  · rw [← hl]; exact rejectsTruncated_of ha hr.2

example : (5#64 : U64) ≤ 0x1234567890#64 := by decide

/-- The code violates C10 where `v - min` overflows. -/
theorem C10_violation_overflow :
    ∃ s0, bitStreamInit (List.replicate 16 0#8) 16 = .ok s0 ∧
      encodeSemiConstraintWholeNumber 1 (-(2 ^ 63)) s0 = .ub := ⟨_, rfl, by decide⟩

/-- A hostile message makes the signed semi-constrained decoder overflow (`*v += min`): violates C05. -/
theorem C05_violation_semi_overflow :
    decodeSemiConstraintWholeNumber 1
      (bitStreamAttach [8#8, 0x7F#8, 0xFF#8, 0xFF#8, 0xFF#8, 0xFF#8, 0xFF#8, 0xFF#8, 0xFF#8, 0#8] 9) = .ub := by decide

/-! ## C11 -/

/-- C11 for every value but the smallest: one octet with the least number `n` of octets, then `v` in `n`
octets of two's complement (`v mod 256^n`); the round trip is exact, truncated input is rejected. -/
theorem C11_unconstrained_roundtrip_partial (v : Int) (h1 : -(2 ^ 63) < v) (h2 : v < 2 ^ 63) :
    ∃ n : Nat, (∀ k, n ≤ k ↔ 1 ≤ k ∧ -(2 ^ (8 * k - 1) : Int) ≤ v ∧ v < 2 ^ (8 * k - 1)) ∧
      Appends (encodeUnConstraintWholeNumber v) () (bitsMsb 8 n ++ bitsMsb (8 * n) (v % 2 ^ (8 * n)).toNat) ∧
      RoundTrip (encodeUnConstraintWholeNumber v) () decodeUnConstraintWholeNumber v (8 + 8 * n) ∧
      RejectsTruncated (encodeUnConstraintWholeNumber v) () decodeUnConstraintWholeNumber (8 + 8 * n) := by
  have ha := encodeUnConstraintWholeNumber_appends h1 h2
  have hr := decodeUnConstraintWholeNumber_reads (v := v) (by omega) h2
  have hl : (lengthPrefixedInt v).length = 8 + 8 * octetsInt v := by simp [lengthPrefixedInt]
  refine ⟨octetsInt v, ?_, ha, ?_, ?_⟩
  · intro k
    by_cases hk : 1 ≤ k
    · rw [octetsInt_le_iff v k hk]; simp [hk]
    · have := octetsInt_pos v; omega
  · rw [← hl]; exact roundTrip_of ha hr.1
  · rw [← hl]; exact rejectsTruncated_of ha hr.2

example : -(2 ^ 63 : Int) < -40000 ∧ (-40000 : Int) < 2 ^ 63 := by decide

/-- The decoder accepts the code of the smallest value too. -/
theorem C11_decode_min :
    Reads decodeUnConstraintWholeNumber (true, -(2 ^ 63)) (bitsMsb 8 8 ++ bitsMsb 64 (2 ^ 63)) := by
  have := (decodeUnConstraintWholeNumber_reads (v := -(2 ^ 63)) (by omega) (by omega)).1
  have e : octetsInt (-(2 ^ 63)) = 8 := by decide
  rw [lengthPrefixedInt, e] at this
  exact this

/-- The code violates C11 at the smallest value: the encoder computes `-v`, which overflows. -/
theorem C11_violation_min :
    ∃ s0, bitStreamInit (List.replicate 16 0#8) 16 = .ok s0 ∧ encodeUnConstraintWholeNumber (-(2 ^ 63)) s0 = .ub :=
  ⟨_, rfl, by decide⟩

/-! ## C13 -/

/-- C13: `int2uint` is the two's complement reading, for every value but the smallest. -/
theorem C13_int2uint_partial (v : Int) (h1 : -(2 ^ 63) < v) (h2 : v < 2 ^ 63) :
    ∃ u : U64, int2uint v = pure u ∧ (u.toNat : Int) = v % 2 ^ 64 := by
  refine ⟨BitVec.ofInt 64 v, (int2uint_eq h1).resolve_right (by omega), ?_⟩
  rw [BitVec.toNat_ofInt]
  have := Int.emod_nonneg v (b := 2 ^ 64) (by omega)
  exact Int.toNat_of_nonneg this

/-- C13: `uint2int(int2uint(v), n) = v` for every `v` that fits in `n` octets, `n` from 1 to 8 (and `v` not the
smallest 64-bit value). -/
theorem C13_roundtrip_partial (v : Int) (n : Nat) (hn : 1 ≤ n) (hn8 : n ≤ 8) (hmin : -(2 ^ 63) < v)
    (h1 : -(2 ^ (8 * n - 1) : Int) ≤ v) (h2 : v < 2 ^ (8 * n - 1)) :
    (do let u ← int2uint v; uint2int u n) = pure v := by
  have hp : (2 : Int) ^ (8 * n - 1) = ((2 ^ (8 * n - 1) : Nat) : Int) := by norm_cast
  have hp63 : (2 : Nat) ^ (8 * n - 1) ≤ 2 ^ 63 := Nat.pow_le_pow_right (by omega) (by omega)
  have hpow : (2 : Nat) ^ (8 * n) = 2 * 2 ^ (8 * n - 1) := by
    rw [← Nat.pow_succ']; congr 1; omega
  rw [hp] at h1 h2
  rw [(int2uint_eq hmin).resolve_right (by omega), pure_bind]
  by_cases h : 0 ≤ v
  · have e := ofInt_toNat (x := v) h (by omega)
    rw [(uint2int_eq hn hn8).1 (by rw [e]; omega), e]
    congr 1; omega
  · have e : (BitVec.ofInt 64 v).toNat = (v + 2 ^ 64).toNat := by
      rw [BitVec.toNat_ofInt]; omega
    obtain ⟨q, hq⟩ : ∃ q, 2 ^ 64 = 2 ^ (8 * n) * q := ⟨2 ^ (64 - 8 * n), by rw [← Nat.pow_add]; congr 1; omega⟩
    have hmod : (v + 2 ^ 64).toNat % 2 ^ (8 * n) = (v + (2 ^ (8 * n) : Nat)).toNat := by
      have hq1 : 1 ≤ q := by
        rcases Nat.eq_zero_or_pos q with h | h
        · subst h; simp at hq
        · exact h
      have : (v + 2 ^ 64).toNat = (v + (2 ^ (8 * n) : Nat)).toNat + 2 ^ (8 * n) * (q - 1) := by
        have hx : 2 ^ (8 * n) * (q - 1) = 2 ^ 64 - 2 ^ (8 * n) := by
          rw [Nat.mul_sub, ← hq, Nat.mul_one]
        have hle : (2 : Nat) ^ (8 * n) ≤ 2 ^ 64 := Nat.pow_le_pow_right (by omega) (by omega)
        rw [hx]; omega
      rw [this, Nat.add_mul_mod_self_left, Nat.mod_eq_of_lt (by omega)]
    rw [(uint2int_eq hn hn8).2 (by rw [e, hmod]; omega), e, hmod]
    have hnat : (2 : Int) ^ (8 * n) = ((2 ^ (8 * n) : Nat) : Int) := by norm_cast
    rw [hnat]
    congr 1; omega

example : (1 : Nat) ≤ 2 ∧ -(2 ^ (8 * 2 - 1) : Int) ≤ -30000 ∧ (-30000 : Int) < 2 ^ (8 * 2 - 1) := by decide

/-- C13: `uint2int` of an `n`-octet number (upper octets zero, as the decoders deliver it) is its two's
complement reading. -/
theorem C13_uint2int_reading (u : U64) (n : Nat) (hn : 1 ≤ n) (hn8 : n ≤ 8) (hu : u.toNat < 2 ^ (8 * n)) :
    uint2int u n = pure (if u.toNat < 2 ^ (8 * n - 1) then (u.toNat : Int) else u.toNat - 2 ^ (8 * n)) := by
  split
  · rename_i h; exact (uint2int_eq hn hn8).1 h
  · rename_i h
    have := (uint2int_eq (u := u) hn hn8).2 (by rw [Nat.mod_eq_of_lt hu]; omega)
    rw [Nat.mod_eq_of_lt hu] at this
    exact this

example : (0xFF7F#64 : U64).toNat < 2 ^ (8 * 2) := by decide

/-- The code violates C13 at the smallest value. -/
theorem C13_violation_min (s : BitStream) : int2uint (-(2 ^ 63)) s = .ub := by
  simp [int2uint, negMinusOne, chk, inS64, bind_def, mUb]

/-! ## C42 -/

/-- C42, signed: when the bounds fit the `w`-bit type the narrow decoder is the wide decoder. -/
theorem C42_narrow_signed (w : Nat) (hw : 1 ≤ w) (hw64 : w ≤ 32) (lo hi : Int) (h : lo ≤ hi)
    (hlo : -(2 ^ (w - 1) : Int) ≤ lo) (hhi : hi < 2 ^ (w - 1)) (s : BitStream) :
    decodeConstraintWholeNumberNarrow w lo hi s = decodeConstraintWholeNumber lo hi s := by
  have hp : (2 : Int) ^ (w - 1) = ((2 ^ (w - 1) : Nat) : Int) := by norm_cast
  have hp31 : (2 : Nat) ^ (w - 1) ≤ 2 ^ 31 := Nat.pow_le_pow_right (by omega) (by omega)
  have hpos := Nat.two_pow_pos (w - 1)
  rw [hp] at hlo hhi
  have hid : ∀ x : Int, -((2 ^ (w - 1) : Nat) : Int) ≤ x → x < (2 ^ (w - 1) : Nat) → (BitVec.ofInt w x).toInt = x := by
    intro x h1 h2
    rw [BitVec.toInt_ofInt]
    have hpw : (2 : Nat) ^ w = 2 * 2 ^ (w - 1) := by
      rw [← Nat.pow_succ']; congr 1; omega
    rw [hpw]
    exact Int.bmod_eq_of_le_mul_two (by push_cast at *; omega) (by push_cast at *; omega)
  have hpost : ∀ s a b s', decodeConstraintWholeNumber lo hi s = .ok ((a, b), s') → (lo ≤ b ∧ b ≤ hi) ∨ b = 0 := by
    intro s a b s' hr
    cases a with
    | true => exact Or.inl (decodeConstraintWholeNumber_post h (by omega) (by omega) (by omega) s b s' hr)
    | false =>
      right
      rw [decodeConstraintWholeNumber_eq h (by omega)] at hr
      split at hr
      · simp at hr
      · rw [bind_def] at hr
        split at hr
        · split at hr
          · split at hr
            · simp at hr; exact hr.1.symm
            · rw [bind_def] at hr
              split at hr
              · simp at hr
              · cases hr
              · cases hr
          · simp at hr; exact hr.1.symm
        · cases hr
        · cases hr
  unfold decodeConstraintWholeNumberNarrow
  rw [bind_def]
  cases hr : decodeConstraintWholeNumber lo hi s with
  | ok p =>
    obtain ⟨⟨a, b⟩, s'⟩ := p
    have := hpost s a b s' hr
    simp only [pure_run]
    rw [hid b (by omega) (by omega)]
  | ub => rfl
  | abort => rfl

example : -(2 ^ (8 - 1) : Int) ≤ -128 ∧ (127 : Int) < 2 ^ (8 - 1) := by decide

/-- C42, unsigned: the narrow decoder (8, 16 or 32 bits) returns the same flag and cursor as the wide one and the
same number. -/
theorem C42_narrow_unsigned (w : Nat) (hw64 : w ≤ 64) (lo hi : BitVec w) (h : lo ≤ hi) (s : BitStream)
    (b : Bool) (v : U64) (s' : BitStream)
    (hr : decodeConstraintPosWholeNumber (lo.setWidth 64) (hi.setWidth 64) s = .ok ((b, v), s')) :
    ∃ n : BitVec w, decodeConstraintPosWholeNumberNarrow w lo hi s = .ok ((b, n), s') ∧
      (b = true → n.toNat = v.toNat) := by
  refine ⟨v.setWidth w, ?_, ?_⟩
  · unfold decodeConstraintPosWholeNumberNarrow
    rw [bind_ok hr]; rfl
  · intro hb
    subst hb
    have hpw : (2 : Nat) ^ w ≤ 2 ^ 64 := Nat.pow_le_pow_right (by omega) hw64
    have e : ∀ x : BitVec w, (x.setWidth 64).toNat = x.toNat := by
      intro x
      rw [BitVec.toNat_setWidth, Nat.mod_eq_of_lt (Nat.lt_of_lt_of_le x.isLt hpw)]
    have hle : lo.setWidth 64 ≤ hi.setWidth 64 := by
      rw [BitVec.le_def, e, e]; exact h
    have : lo.setWidth 64 ≤ v ∧ v ≤ hi.setWidth 64 := decodeConstraintPosWholeNumber_post hle s v s' hr
    rw [BitVec.le_def, BitVec.le_def, e, e] at this
    rw [BitVec.toNat_setWidth, Nat.mod_eq_of_lt (Nat.lt_of_le_of_lt this.2 hi.isLt)]

example : ∃ s', decodeConstraintPosWholeNumber ((3#8).setWidth 64) ((200#8).setWidth 64) (bitStreamAttach [0x50#8] 1)
    = .ok ((true, 83#64), s') := ⟨_, rfl⟩

/-! ## C05 for the integer decoders -/

/-- C05 for the integer decoders (one readable byte behind the input; the signed semi-constrained decoder is
excluded, see `C05_violation_semi_overflow`): on every input they complete, keep the buffer, and on success the
cursor is inside the input. -/
theorem C05_integer_decoders_safe_partial (lo hi : Int) (h : lo ≤ hi) (hlo : IsS64 lo) (hhi : IsS64 hi)
    (hw : hi - lo < 2 ^ 63) (ulo uhi : U64) (hu : ulo ≤ uhi) :
    Safe (decodeConstraintWholeNumber lo hi) ∧ Safe (decodeConstraintPosWholeNumber ulo uhi) ∧
    Safe (decodeSemiConstraintPosWholeNumber ulo) ∧ Safe decodeUnConstraintWholeNumber :=
  ⟨decodeConstraintWholeNumber_safe h hw hlo.1 hhi.2, decodeConstraintPosWholeNumber_safe hu,
   decodeSemiConstraintPosWholeNumber_safe ulo, decodeUnConstraintWholeNumber_safe⟩

end Asn1
