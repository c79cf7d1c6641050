import Verif.Proof.Ber4
/-!
# Properties of the BER primitives: C28, C29, C30, C51
-/
namespace Asn1

/-! ## C28 -/

/-- C28: a length is written in the octets of the definite form, and reading them gives it back, for all lengths an
`int` can hold. -/
theorem C28_roundtrip (n : Nat) (hn : n < 2 ^ 31) : BerRoundTrip (berEncodeLength n) (berLength n) berDecodeLength n :=
  berRoundTrip_of (berEncodeLength_wr hn) (berDecodeLength_rd hn)

/-- C28: these octets are the shortest: any definite form that says `n` has at least as many. -/
theorem C28_shortest (n : Nat) (l : List Byte) (h : LengthOctets l n) : (berLength n).length ≤ l.length := by
  unfold berLength
  rcases h with ⟨b, hb, rfl, rfl⟩ | ⟨b, m, rfl, _, hm, rfl⟩
  · rw [if_pos hb]; simp
  · split
    · simp
    · rw [List.length_cons, List.length_cons, natOctets_length]
      have : octetsNat (octetsVal m) ≤ m.length := by
        refine (octetsNat_le_iff _ _ ?_).2 (by rw [← pow256]; exact octetsVal_lt m)
        cases m with
        | nil => exact absurd rfl hm
        | cons => simp
      omega

/-- C28: and they do say `n` (for all lengths whose octets can be counted in 7 bits). -/
theorem C28_says (n : Nat) (hn : n < 2 ^ 31) : LengthOctets (berLength n) n := by
  unfold berLength
  split
  · rename_i h
    refine .inl ⟨BitVec.ofNat 8 n, ?_, rfl, ?_⟩
    · rw [BitVec.toNat_ofNat, Nat.mod_eq_of_lt (by omega)]; exact h
    · rw [BitVec.toNat_ofNat, Nat.mod_eq_of_lt (by omega)]
  · have hk : octetsNat n ≤ 4 := (octetsNat_le_iff _ _ (by omega)).2 (by omega)
    refine .inr ⟨_, _, rfl, ?_, ?_, (natOctets_val n).symm⟩
    · rw [BitVec.toNat_ofNat, natOctets_length, Nat.mod_eq_of_lt (by omega)]
    · intro e
      have := congrArg List.length e
      rw [natOctets_length] at this
      have := octetsNat_pos n
      simp at *; omega

example : berLength 300 = [0x82#8, 0x01#8, 0x2C#8] := by decide
example : LengthOctets [0x81#8, 5#8] 5 := .inr ⟨_, _, rfl, rfl, by simp, rfl⟩

/-! ## C29 -/

/-- C29, INTEGER. Missing: `-2^63` (`C29_violation_min`) and tags of more than four octets (`C29_violation_tag`). -/
theorem C29_integer_partial (tag : U64) (ht : tag.toNat < 2 ^ 32) (v : Int) (h1 : -(2 ^ 63) < v) (h2 : v < 2 ^ 63) :
    BerRoundTrip (berEncodeInteger tag v) (berTlv tag.toNat (berInt v)) (berDecodeInteger tag) v :=
  berRoundTrip_of (berEncodeInteger_wr h1 h2) (berDecodeInteger_rd ht (by omega) h2)

example : berTlv 2 (berInt (-129)) = [0x02#8, 0x02#8, 0xFF#8, 0x7F#8] := by decide

/-- C29, BOOLEAN. Missing: tags of more than four octets, also below. -/
theorem C29_boolean_partial (tag : U64) (ht : tag.toNat < 2 ^ 32) (v : Bool) :
    BerRoundTrip (berEncodeBoolean tag v) (berTlv tag.toNat (berBool v)) (berDecodeBoolean tag) v :=
  berRoundTrip_of (berEncodeBoolean_wr v) (berDecodeBoolean_rd ht v)

example : berTlv 0x1F8101 (berBool true) = [0x1F#8, 0x81#8, 0x01#8, 0x01#8, 0xFF#8] := by decide

/-- C29, NULL. -/
theorem C29_null_partial (tag : U64) (ht : tag.toNat < 2 ^ 32) :
    BerRoundTrip (berEncodeNull tag) (berTlv tag.toNat []) (berDecodeNull tag) () :=
  berRoundTrip_of berEncodeNull_wr (berDecodeNull_rd ht)

/-- C29, OCTET STRING: the decoder stores the octets, clears the rest of the `maxOctCount` octets, leaves what lies behind, and
returns the number of octets. -/
theorem C29_octets_partial (tag : U64) (ht : tag.toNat < 2 ^ 32) (value : List Byte) (octCount : Nat) (hn : octCount ≤ value.length)
    (h31 : octCount < 2 ^ 31) (out : List Byte) (maxOctCount : Nat) (hm : octCount ≤ maxOctCount) (ho : maxOctCount ≤ out.length) :
    BerRoundTrip (berEncodeOctetString tag value octCount) (berTlv tag.toNat (value.take octCount))
      (berDecodeOctetString tag out maxOctCount)
      (value.take octCount ++ List.replicate (maxOctCount - octCount) 0#8 ++ out.drop maxOctCount, (octCount : Int)) := by
  have hl : (value.take octCount).length = octCount := by rw [List.length_take]; omega
  have hr := berDecodeOctetString_rd ht (value := out) (l := value.take octCount) (m := maxOctCount) (by omega) ho (by omega)
  rw [hl] at hr
  exact berRoundTrip_of (berEncodeArray_wr hn h31) hr

/-- C29, IA5String: the same, without the number. -/
theorem C29_ia5_partial (tag : U64) (ht : tag.toNat < 2 ^ 32) (value : List Byte) (length : Nat) (hn : length ≤ value.length)
    (h31 : length < 2 ^ 31) (out : List Byte) (maxLength : Nat) (hm : length ≤ maxLength) (ho : maxLength ≤ out.length) :
    BerRoundTrip (berEncodeIA5String tag value length) (berTlv tag.toNat (value.take length))
      (berDecodeIA5String tag out maxLength)
      (value.take length ++ List.replicate (maxLength - length) 0#8 ++ out.drop maxLength) := by
  have hl : (value.take length).length = length := by rw [List.length_take]; omega
  have hr := berDecodeIA5String_rd ht (value := out) (l := value.take length) (m := maxLength) (by omega) ho (by omega)
  rw [hl] at hr
  exact berRoundTrip_of (berEncodeArray_wr hn h31) hr

example : berTlv 4 ([1#8, 2#8, 3#8].take 2) = [4#8, 2#8, 1#8, 2#8] := by decide

/-- C29, BIT STRING: the octets come back and the number of bits. -/
theorem C29_bits_partial (tag : U64) (ht : tag.toNat < 2 ^ 32) (value : List Byte) (bitCount : Nat) (hn : (bitCount + 7) / 8 ≤ value.length)
    (h31 : bitCount < 2 ^ 31) (out : List Byte) (maxBitCount : Nat) (hm : bitCount ≤ maxBitCount) (ho : (maxBitCount + 7) / 8 ≤ out.length) :
    BerRoundTrip (berEncodeBitString tag value bitCount) (berTlv tag.toNat (berBits bitCount (value.take ((bitCount + 7) / 8))))
      (berDecodeBitString tag out maxBitCount)
      (value.take ((bitCount + 7) / 8) ++ out.drop ((bitCount + 7) / 8), (bitCount : Int)) := by
  have hl : (value.take ((bitCount + 7) / 8)).length = (bitCount + 7) / 8 := by rw [List.length_take]; omega
  have hr := berDecodeBitString_rd ht (value := out) (l := value.take ((bitCount + 7) / 8)) hl hm ho h31
  rw [hl] at hr
  exact berRoundTrip_of (berEncodeBitString_wr hn h31) hr

example : berTlv 3 (berBits 11 [0xAB#8, 0xC0#8]) = [3#8, 3#8, 5#8, 0xAB#8, 0xC0#8] := by decide

/-- C29, the indefinite form: `0x80` is read as the length -1, and the two zero octets are recognised. -/
theorem C29_indefinite : BerRoundTrip berEncodeLengthStart [0x80#8] berDecodeLength (-1) ∧
    BerRoundTrip berEncodeLengthEnd [0#8, 0#8] berDecodeTwoZeroes () := by
  constructor
  · refine berRoundTrip_of (BWr.putByte _) ?_
    unfold berDecodeLength
    exact (BRd.getByte 0x80#8).bind (g := fun curByte : Byte =>
      if curByte &&& 0x80#8 = 0#8 then (pure ((curByte &&& 0x7F#8).toNat : Int) : BM Int) else
      if curByte &&& 0x7F#8 = 0#8 then pure (-1) else do
        let ret ← berReadLength (curByte &&& 0x7F#8).toNat 0#32
        pure ret.toInt) (m := []) (BRd.pure (-1))
  · refine berRoundTrip_of ((BWr.putByte _).bind (BWr.putByte _)) ?_
    unfold berDecodeTwoZeroes
    exact (BRd.getByte 0#8).bind (g := fun a : Byte => if a != 0#8 then (bFail .mismatch : BM Unit) else do
      let b ← berGetByte
      if b != 0#8 then bFail .mismatch else pure ()) ((BRd.getByte 0#8).bind (g := fun b : Byte =>
      if b != 0#8 then (bFail .mismatch : BM Unit) else pure ()) (m := []) (BRd.pure ()))

/-- `f` returns `FALSE`. -/
def BerFails {α : Type} (f : BM α) (s : ByteStream) : Prop := ∃ e s', f s = .ok (.error e, s')

/-- C29, another tag: when the identifier octets in the stream are those of another tag, every decoder returns `FALSE`. "Other"
leaves the primitive/constructed bit aside, which the decoders ignore. Missing: tags of more than four octets; the object has one
octet more than the stream (`C30_violation_get`). -/
theorem C29_other_tag_partial (tag tag' : U64) (ht' : tag'.toNat < 2 ^ 32) (hw : TagOctets (natOctets tag.toNat))
    (hw' : TagOctets (natOctets tag'.toNat)) (hne : ¬ SameTag tag.toNat tag'.toNat) (s : ByteStream) (h0 : s.count < s.buf.length)
    (h1 : s.currentByte + (natOctets tag.toNat).length ≤ s.count)
    (h2 : (s.buf.drop s.currentByte).take (natOctets tag.toNat).length = natOctets tag.toNat) :
    BerFails (berDecodeInteger tag') s ∧ BerFails (berDecodeBoolean tag') s ∧ BerFails (berDecodeNull tag') s ∧
    (∀ out n, n ≤ out.length → BerFails (berDecodeOctetString tag' out n) s) ∧
    (∀ out n, n ≤ out.length → BerFails (berDecodeIA5String tag' out n) s) ∧
    (∀ out n, BerFails (berDecodeBitString tag' out n) s) ∧
    nextTagMatches tag' s = .ok (.ok false, s) := by
  rw [natOctets_length] at h1 h2
  obtain ⟨s', e⟩ := berDecodeTag_other ht' hw hw' hne h0 h1 h2
  refine ⟨⟨_, s', bm_bind_err e⟩, ⟨_, s', bm_bind_err e⟩, ⟨_, s', bm_bind_err e⟩, ?_, ?_, fun _ _ => ⟨_, s', bm_bind_err e⟩, ?_⟩
  · intro out n hn
    refine ⟨.insufficient, s', ?_⟩
    unfold berDecodeOctetString
    rw [bClear_ok hn, pure_bind, bm_bind_err e]
  · intro out n hn
    refine ⟨.insufficient, s', ?_⟩
    unfold berDecodeIA5String
    rw [bClear_ok hn, pure_bind, bm_bind_err e]
  · obtain ⟨r, p, e'⟩ := berDecodeTag_safe ht' s h0
    unfold nextTagMatches
    rw [e'] at e ⊢
    injection e with e
    injection e with e1 e2
    rw [e1]

/-- C29: `NextTagMatches` recognises its tag and does not move. -/
theorem C29_next_tag_partial (tag : U64) (ht : tag.toNat < 2 ^ 32) (s : ByteStream) (h0 : s.count ≤ s.buf.length)
    (h1 : s.currentByte + (natOctets tag.toNat).length ≤ s.count)
    (h2 : (s.buf.drop s.currentByte).take (natOctets tag.toNat).length = natOctets tag.toNat) :
    nextTagMatches tag s = .ok (.ok true, s) := by
  unfold nextTagMatches
  rw [(berDecodeTag_rd ht).1 s (by omega) (by omega) h2]

example : TagOctets (natOctets 0x04) ∧ TagOctets (natOctets 0x1F8101) ∧ ¬ SameTag 0x04 0x1F8101 := by
  refine ⟨⟨4#8, [], by decide, .inl ⟨rfl, by decide⟩⟩,
    ⟨0x1F#8, [0x81#8, 0x01#8], by decide, .inr ⟨by decide, [0x81#8], 0x01#8, rfl, by decide, by decide⟩⟩, ?_⟩
  intro h
  exact absurd h.1 (by decide)

/-- The code violates C29 for `-2^63`: the encoder computes `-v`, which overflows. -/
theorem C29_violation_min : ∃ s0, byteStreamInit (List.replicate 12 0#8) 12 = .ok s0 ∧ berEncodeInteger 2#64 (-(2 ^ 63)) s0 = .ub :=
  ⟨_, rfl, by decide⟩

/-- The code violates C29 for the tag `[APPLICATION 2097152]`: `0x20 << 32` is undefined. -/
theorem C29_violation_tag :
    TagOctets (natOctets 0x5F81808000) ∧ ∃ s', berEncodeNull 0x5F81808000#64 ⟨List.replicate 12 0#8, 12, 0⟩ = .ok (.ok (), s') ∧
      berDecodeNull 0x5F81808000#64 { s' with currentByte := 0 } = .ub := by
  refine ⟨⟨0x5F#8, [0x81#8, 0x80#8, 0x80#8, 0#8], by decide, .inr ⟨by decide, [0x81#8, 0x80#8, 0x80#8], 0#8, rfl, by decide, by decide⟩⟩,
    ⟨[0x5F#8, 0x81#8, 0x80#8, 0x80#8, 0#8, 0#8, 0#8, 0#8, 0#8, 0#8, 0#8, 0#8], 12, 6⟩, by decide, by decide⟩

/-! ## C30 -/

/-- C30: whatever the object is, `PutByte` and `GetByte` return `FALSE` without access one octet behind the end, and never leave
an object that has one octet more than the stream. Missing: that octet (`C30_violation_put`, `C30_violation_get`). -/
theorem C30_bytes_partial (v : Byte) (s : ByteStream) (h : s.count < s.buf.length) :
    (∃ r s', berPutByte v s = .ok (r, s') ∧ s'.buf.length = s.buf.length ∧ s'.buf.drop (s.count + 1) = s.buf.drop (s.count + 1)) ∧
    (∃ r p, berGetByte s = .ok (r, { s with currentByte := p })) ∧
    (s.count < s.currentByte → berPutByte v s = .ok (.error .insufficient, s) ∧ berGetByte s = .ok (.error .insufficient, s)) := by
  refine ⟨?_, BerSafe.getByte s h, ?_⟩
  · unfold berPutByte
    by_cases hc : s.currentByte + 1 > s.count + 1
    · rw [if_pos hc]; exact ⟨_, s, rfl, rfl, rfl⟩
    · rw [if_neg hc, if_pos (by omega)]
      refine ⟨_, _, rfl, by simp, ?_⟩
      dsimp only
      rw [List.drop_set_of_lt (by omega)]
  · intro hc
    unfold berPutByte berGetByte
    rw [if_pos (by omega), if_pos (by omega)]
    exact ⟨rfl, rfl⟩

/-- C30: the encoders of one value, in a stream with too little room, return `FALSE` and do not write behind the octet after the
end of the stream. -/
theorem C30_encoders_partial (tag : U64) (s : ByteStream) (h : s.count < s.buf.length) (hp : s.currentByte ≤ s.count + 1)
    (enc : BM Unit) (octets : List Byte) (hroom : s.count + 1 < s.currentByte + octets.length)
    (henc : (∃ v, -(2 ^ 63) < v ∧ v < 2 ^ 63 ∧ enc = berEncodeInteger tag v ∧ octets = berTlv tag.toNat (berInt v)) ∨
      (∃ v, enc = berEncodeBoolean tag v ∧ octets = berTlv tag.toNat (berBool v)) ∨
      (enc = berEncodeNull tag ∧ octets = berTlv tag.toNat []) ∨
      (∃ value n, n ≤ value.length ∧ n < 2 ^ 31 ∧ enc = berEncodeOctetString tag value n ∧ octets = berTlv tag.toNat (value.take n)) ∨
      (∃ value n, (n + 7) / 8 ≤ value.length ∧ n < 2 ^ 31 ∧ enc = berEncodeBitString tag value n ∧
        octets = berTlv tag.toNat (berBits n (value.take ((n + 7) / 8))))) :
    ∃ s', enc s = .ok (.error .insufficient, s') ∧ s'.buf.length = s.buf.length ∧
      s'.buf.drop (s.count + 1) = s.buf.drop (s.count + 1) := by
  have key : BWr enc octets := by
    rcases henc with ⟨v, h1, h2, rfl, rfl⟩ | ⟨v, rfl, rfl⟩ | ⟨rfl, rfl⟩ | ⟨value, n, h1, h2, rfl, rfl⟩ | ⟨value, n, h1, h2, rfl, rfl⟩
    · exact berEncodeInteger_wr h1 h2
    · exact berEncodeBoolean_wr v
    · exact berEncodeNull_wr
    · exact berEncodeArray_wr h1 h2
    · exact berEncodeBitString_wr h1 h2
  obtain ⟨s', h1, _, h3, h4⟩ := key.2 s h hp hroom
  exact ⟨s', h1, h3, h4⟩

example : ∃ s', berEncodeInteger 2#64 70000 ⟨[0#8, 0#8, 0#8, 7#8], 2, 0⟩ = .ok (.error .insufficient, s') ∧ s'.buf = [2#8, 3#8, 1#8, 7#8] :=
  ⟨⟨[2#8, 3#8, 1#8, 7#8], 2, 3⟩, by decide, rfl⟩

/-- C30: decoders that never have undefined behaviour, whatever octets they read, and leave the buffer as it is. Missing: the octet
behind the end; INTEGER and BIT STRING (`C30_violation_integer`, `C30_violation_bits`), long tags. -/
theorem C30_decoders_partial (tag : U64) (ht : tag.toNat < 2 ^ 32) :
    BerSafe (berDecodeTag tag) ∧ BerSafe berDecodeLength ∧ BerSafe berDecodeTwoZeroes ∧ BerSafe (berDecodeBoolean tag) ∧
    BerSafe (berDecodeNull tag) ∧
    (∀ out n, n ≤ out.length → BerSafe (berDecodeOctetString tag out n)) ∧
    (∀ out n, n ≤ out.length → BerSafe (berDecodeIA5String tag out n)) :=
  ⟨berDecodeTag_safe ht, berDecodeLength_safe, berDecodeTwoZeroes_safe, berDecodeBoolean_safe ht, berDecodeNull_safe ht,
    fun _ _ h => berDecodeOctetString_safe ht h, fun _ _ h => berDecodeIA5String_safe ht h⟩

example : (0x1F8101#64 : U64).toNat < 2 ^ 32 ∧ berDecodeOctetString 4#64 [9#8] 1 ⟨[4#8, 5#8, 1#8, 7#8], 3, 0⟩ =
    .ok (.error .insufficient, ⟨[4#8, 5#8, 1#8, 7#8], 3, 4⟩) := ⟨by decide, by decide⟩

/-- The code violates C30: `PutByte` on a full stream writes behind the object. -/
theorem C30_violation_put : ∃ s0, byteStreamInit [0#8] 1 = .ok s0 ∧ berPutByte 5#8 { s0 with currentByte := 1 } = .ub :=
  ⟨_, rfl, by decide⟩

/-- The code violates C30: `BerDecodeNull` on a message that ends after the tag reads behind the object. -/
theorem C30_violation_get : berDecodeNull 5#64 (byteStreamAttachBuffer [5#8] 1) = .ub := by decide

/-- The code violates C30: an INTEGER without contents octets leads to an undefined shift. -/
theorem C30_violation_integer : berDecodeInteger 2#64 (byteStreamAttachBuffer [2#8, 0#8, 0#8, 0#8] 4) = .ub := by decide

/-- The code violates C30: a BIT STRING of length `2^31` leads to a signed overflow. -/
theorem C30_violation_bits :
    berDecodeBitString 3#64 [] 0 (byteStreamAttachBuffer [3#8, 0x84#8, 0x80#8, 0#8, 0#8, 0#8, 0#8, 0#8] 8) = .ub := by decide

/-! ## C51 -/

/-- C51, INTEGER: when the decoder returns `TRUE`, the octets it consumed are identifier octets of the tag, length octets
and contents octets of this length, and the value is the one the contents octets denote. Missing: length octets of more than five
octets (`C51_violation_wrap`). -/
theorem C51_integer_partial (tag : U64) (ht : tag.toNat < 2 ^ 32) (s s' : ByteStream) (v : Int)
    (h : berDecodeInteger tag s = .ok (.ok v, s'))
    (h4 : ∀ b, s.buf[s.currentByte + (natOctets tag.toNat).length]? = some b → b.toNat ≤ 0x84) :
    ∃ id len c, consumed s s' = id ++ (len ++ c) ∧ IdentOctets id tag.toNat ∧ LengthOctets len c.length ∧ v = octetsInt' c := by
  obtain ⟨⟨id, len, c, e, h1, h2, h3⟩, _⟩ := (berDecodeInteger_inv ht).consumed h
  have := lengthOctets_of h2 (by omega) (fun b hb => h4 b (lenHead e h1 hb))
  exact ⟨id, len, c, e, h1, by simpa using this, h3⟩

example : berDecodeInteger 2#64 ⟨[2#8, 0x81#8, 2#8, 0#8, 7#8, 9#8], 6, 0⟩ = .ok (.ok 7, ⟨[2#8, 0x81#8, 2#8, 0#8, 7#8, 9#8], 6, 5⟩) := by
  decide

/-- C51, BOOLEAN: one contents octet, which is zero for FALSE. -/
theorem C51_boolean_partial (tag : U64) (ht : tag.toNat < 2 ^ 32) (s s' : ByteStream) (v : Bool)
    (h : berDecodeBoolean tag s = .ok (.ok v, s'))
    (h4 : ∀ b, s.buf[s.currentByte + (natOctets tag.toNat).length]? = some b → b.toNat ≤ 0x84) :
    ∃ id len c, consumed s s' = id ++ (len ++ [c]) ∧ IdentOctets id tag.toNat ∧ LengthOctets len 1 ∧ v = (c != 0#8) := by
  obtain ⟨⟨id, len, c, e, h1, h2, h3⟩, _⟩ := (berDecodeBoolean_inv ht).consumed h
  exact ⟨id, len, c, e, h1, lengthOctets_of h2 (by omega) (fun b hb => h4 b (lenHead e h1 hb)), h3⟩

example : berDecodeBoolean 1#64 ⟨[1#8, 1#8, 9#8], 3, 0⟩ = .ok (.ok true, ⟨[1#8, 1#8, 9#8], 3, 3⟩) := by decide

/-- C51, NULL: no contents octets. -/
theorem C51_null_partial (tag : U64) (ht : tag.toNat < 2 ^ 32) (s s' : ByteStream)
    (h : berDecodeNull tag s = .ok (.ok (), s'))
    (h4 : ∀ b, s.buf[s.currentByte + (natOctets tag.toNat).length]? = some b → b.toNat ≤ 0x84) :
    ∃ id len, consumed s s' = id ++ len ∧ IdentOctets id tag.toNat ∧ LengthOctets len 0 := by
  obtain ⟨⟨id, len, e, h1, h2⟩, _⟩ := (berDecodeNull_inv ht).consumed h
  exact ⟨id, len, e, h1, lengthOctets_of h2 (by omega)
    (fun b hb => h4 b (lenHead (c := []) (by rw [List.append_nil]; exact e) h1 hb))⟩

example : berDecodeNull 5#64 ⟨[5#8, 0#8], 2, 0⟩ = .ok (.ok (), ⟨[5#8, 0#8], 2, 2⟩) := by decide

/-- C51, OCTET STRING: when the count returned is below the maximum, the octets are those of the message. Missing: the
maximum itself (`C51_violation_truncated`), negative counts (`C51_violation_indefinite`). -/
theorem C51_octets_partial (tag : U64) (ht : tag.toNat < 2 ^ 32) (s s' : ByteStream) (out : List Byte) (maxOctCount : Nat)
    (ho : maxOctCount ≤ out.length) (arr : List Byte) (octCount : Nat) (hlt : octCount < maxOctCount)
    (h : berDecodeOctetString tag out maxOctCount s = .ok (.ok (arr, (octCount : Int)), s'))
    (h4 : ∀ b, s.buf[s.currentByte + (natOctets tag.toNat).length]? = some b → b.toNat ≤ 0x84) :
    ∃ id len c, consumed s s' = id ++ (len ++ c) ∧ IdentOctets id tag.toNat ∧ LengthOctets len c.length ∧ c.length = octCount ∧
      arr.take octCount = c := by
  obtain ⟨⟨id, len, c, n, e, h1, h2, h3, h5, h6⟩, _⟩ := (berDecodeOctetString_inv ht ho).consumed h
  dsimp only at h5 h6
  split at h5
  · rename_i hn
    subst h5
    have := lengthOctets_of h2 (by omega) (fun b hb => h4 b (lenHead e h1 hb))
    rw [Int.toNat_natCast] at this h3 h6
    exact ⟨id, len, c, e, h1, by rw [h3]; exact this, h3, h6 (by omega)⟩
  · omega

example : berDecodeOctetString 4#64 [0#8, 0#8] 2 ⟨[4#8, 1#8, 9#8], 3, 0⟩ = .ok (.ok ([9#8, 0#8], 1), ⟨[4#8, 1#8, 9#8], 3, 3⟩) := by
  decide

/-- The code violates C51: a NULL with the length `2^32` is accepted as one with the length 0. -/
theorem C51_violation_wrap :
    ∃ s', berDecodeNull 5#64 (byteStreamAttachBuffer [5#8, 0x85#8, 1#8, 0#8, 0#8, 0#8, 0#8] 7) = .ok (.ok (), s') ∧ s'.currentByte = 7 :=
  ⟨⟨[5#8, 0x85#8, 1#8, 0#8, 0#8, 0#8, 0#8], 7, 7⟩, by decide, rfl⟩

/-- The code violates C51: an OCTET STRING of three octets is accepted as one of two. -/
theorem C51_violation_truncated :
    ∃ s', berDecodeOctetString 4#64 [0#8, 0#8] 2 (byteStreamAttachBuffer [4#8, 3#8, 7#8, 8#8, 9#8] 5) = .ok (.ok ([7#8, 8#8], 2), s') :=
  ⟨⟨[4#8, 3#8, 7#8, 8#8, 9#8], 5, 5⟩, by decide⟩

/-- The code violates C51: the indefinite form is accepted as an OCTET STRING of -1 octets. -/
theorem C51_violation_indefinite :
    ∃ s', berDecodeOctetString 4#64 [] 0 (byteStreamAttachBuffer [4#8, 0x80#8] 2) = .ok (.ok ([], -1), s') :=
  ⟨⟨[4#8, 0x80#8], 2, 2⟩, by decide⟩

/-- The code violates C51: a BIT STRING without octets and five unused bits is accepted with -5 bits. -/
theorem C51_violation_bits :
    ∃ s', berDecodeBitString 3#64 [] 0 (byteStreamAttachBuffer [3#8, 1#8, 5#8] 3) = .ok (.ok ([], -5), s') :=
  ⟨⟨[3#8, 1#8, 5#8], 3, 3⟩, by decide⟩

end Asn1
