import Verif.Proof.BerReal
import Verif.Proof.Outcome
import Verif.Proof.Ber4
/-!
# BER REAL: C29, C30, C51
-/
namespace Asn1

/-- C29, REAL: zero, the infinities, NaN and finite numbers of at least `2 ^ -971` are written as the octets of X.690 and come
back bit for bit. Missing: smaller numbers, the negative zero (`C29_violation_real_negative_zero`), tags of more than four octets. -/
theorem C29_real_partial (tag : U64) (ht : tag.toNat < 2 ^ 32) (d : BitVec 64) (h : RealHeld d) :
    BerRoundTrip (berEncodeReal tag d) (berTlv tag.toNat (berReal d)) (berDecodeReal tag) d := berReal_roundTrip ht h

/-- `-1.5 = -(3 * 2^51) * 2^-52`. -/
example : RealHeld 0xBFF8000000000000#64 ∧
    berTlv 9 (berReal 0xBFF8000000000000#64) =
      [9#8, 9#8, 0xC0#8, 0xCC#8, 0x18#8, 0#8, 0#8, 0#8, 0#8, 0#8, 0#8] :=
  ⟨.inr (.inr (.inr (.inr ⟨by decide, by unfold IsFinite; decide⟩))), by decide⟩

/-- The code violates C29: the negative zero comes back as the positive one. (Numbers below `2 ^ -971` come back as 0, for the
reason given in `C19_violation_small`: the functions on the bit stream are the same.) -/
theorem C29_violation_real_negative_zero :
    berEncodeReal 9#64 0x8000000000000000#64 ⟨List.replicate 4 0#8, 4, 0⟩ = .ok (.ok (), ⟨[9#8, 0#8, 0#8, 0#8], 4, 2⟩) ∧
    berDecodeReal 9#64 (byteStreamAttachBuffer [9#8, 0#8, 0#8, 0#8] 4) = .ok (.ok 0#64, ⟨[9#8, 0#8, 0#8, 0#8], 4, 2⟩) := by
  constructor <;> decide +kernel

/-- C29, another tag, REAL. -/
theorem C29_other_tag_real_partial (tag tag' : U64) (ht' : tag'.toNat < 2 ^ 32) (hw : TagOctets (natOctets tag.toNat))
    (hw' : TagOctets (natOctets tag'.toNat)) (hne : ¬ SameTag tag.toNat tag'.toNat) (s : ByteStream) (h0 : s.count < s.buf.length)
    (h1 : s.currentByte + (natOctets tag.toNat).length ≤ s.count)
    (h2 : (s.buf.drop s.currentByte).take (natOctets tag.toNat).length = natOctets tag.toNat) :
    ∃ e s', berDecodeReal tag' s = .ok (.error e, s') := by
  rw [natOctets_length] at h1 h2
  obtain ⟨s', h⟩ := berDecodeTag_other ht' hw hw' hne h0 h1 h2
  exact ⟨_, s', by unfold berDecodeReal; exact bm_bind_err h⟩

/-- C30, REAL: in a stream with too little room the encoder returns `FALSE` and writes nothing behind the octet after the end. -/
theorem C30_encoder_real_partial (tag : U64) (d : BitVec 64) (hd : RealHeld d) (s : ByteStream) (h : s.count < s.buf.length)
    (hp : s.currentByte ≤ s.count + 1) (hroom : s.count + 1 < s.currentByte + (berTlv tag.toNat (berReal d)).length) :
    ∃ s', berEncodeReal tag d s = .ok (.error .insufficient, s') ∧ s'.buf.length = s.buf.length ∧
      s'.buf.drop (s.count + 1) = s.buf.drop (s.count + 1) := by
  obtain ⟨s', h1, _, h3, h4⟩ := (berEncodeReal_wr hd).2 s h hp hroom
  exact ⟨s', h1, h3, h4⟩

/-- C30, REAL: whatever the octets behind the identifier are, unless the two low bits of the second are both set the decoder has
no undefined behaviour, leaves the buffer alone, and stays inside the stream when it succeeds. -/
theorem C30_decoder_real_partial (tag : U64) (ht : tag.toNat < 2 ^ 32) (s : ByteStream) (h : s.count < s.buf.length)
    (hlow : ∀ b, s.buf[s.currentByte + octetsNat tag.toNat + 1]? = some b → b &&& 3#8 ≠ 3#8) :
    ∃ r p, berDecodeReal tag s = .ok (r, { s with currentByte := p }) ∧ (∀ d, r = .ok d → p ≤ s.count) := by
  exact berDecodeReal_safe ht h hlow

example : ∀ b, [9#8, 0xFF#8, 0xFE#8, 0x81#8, 0x00#8][0 + octetsNat (9#64 : U64).toNat + 1]? = some b → b &&& 3#8 ≠ 3#8 := by
  intro b hb
  have : b = 0xFE#8 := by revert hb; decide +revert
  subst this; decide

/-- The code violates C30: the exponent of this REAL overflows an `int` when it is negated. -/
theorem C30_violation_real :
    berDecodeReal 9#64 (byteStreamAttachBuffer [9#8, 6#8, 0x83#8, 0x80#8, 0#8, 0#8, 0#8, 1#8, 0#8] 8) = .ub :=
  Res.eq_ub (by decide +kernel)

/-- The code violates C51: a length in the long form (here `81 03`, a REAL of three octets, 1.0) is read as a short one, and the
REAL is refused. -/
theorem C51_violation_real_length : LengthOctets [0x81#8, 3#8] 3 ∧
    ∃ s', berDecodeReal 9#64 (byteStreamAttachBuffer [9#8, 0x81#8, 3#8, 0x80#8, 0#8, 1#8, 0#8] 6) = .ok (.error .insufficient, s') :=
  ⟨.inr ⟨0x81#8, [3#8], rfl, rfl, by simp, rfl⟩, ⟨[9#8, 0x81#8, 3#8, 0x80#8, 0#8, 1#8, 0#8], 6, 1⟩, by decide +kernel⟩

/-- The code violates C51: the decimal encoding of 12 is accepted as 0, and only a part of the contents is consumed. -/
theorem C51_violation_real_decimal :
    ∃ s', berDecodeReal 9#64 (byteStreamAttachBuffer [9#8, 3#8, 1#8, 0x31#8, 0x32#8, 0#8] 5) = .ok (.ok 0#64, s') :=
  ⟨⟨[9#8, 3#8, 1#8, 0x31#8, 0x32#8, 0#8], 5, 5⟩, by decide +kernel⟩

/-- The code violates C51: contents behind a special value are not consumed: the octets of the length are not all skipped. -/
theorem C51_violation_real_special :
    ∃ s', berDecodeReal 9#64 (byteStreamAttachBuffer [9#8, 2#8, 0x40#8, 0x77#8, 0#8] 4) = .ok (.ok 0x7FF0000000000000#64, s') ∧
      s'.currentByte = 3 :=
  ⟨⟨[9#8, 2#8, 0x40#8, 0x77#8, 0#8], 4, 3⟩, by decide +kernel, rfl⟩

end Asn1
