import Verif.Proof.BitStrings
import Verif.Proof.RoundTrip
/-!
# C14-C17: octet strings and bit strings

`src` and `dst` are the caller's arrays; `dst` has room for the declared maximum `hi`.
-/
namespace Asn1

/-! ## C14 -/

/-- C14: the encoder writes exactly the code of X.691 (length determinant as the size constraint demands, the
octets, fragments of up to 64K octets), for every length. -/
theorem C14_octet_encoding (src : List Byte) (n lo hi : Nat) (h1 : lo ≤ n) (h2 : n ≤ hi) (hsrc : n ≤ src.length) :
    Appends (encodeOctetString src n lo hi) true (sizedCode lo hi ((src.take n).map byteBits)) :=
  encodeOctetString_appends h1 h2 hsrc

/-- C14: encoding and decoding gives back the number and the octets, and leaves the rest of the destination
alone. Missing: the empty string with a size bound of 65536 or more, see `C14_violation_empty_fragmented`. -/
theorem C14_octet_roundtrip_partial (src dst : List Byte) (n lo hi : Nat) (h1 : lo ≤ n) (h2 : n ≤ hi)
    (hsrc : n ≤ src.length) (hdst : hi ≤ dst.length) (hne : hi < 65536 ∨ 1 ≤ n) :
    RoundTrip (encodeOctetString src n lo hi) true (decodeOctetString dst lo hi)
      (n, src.take n ++ dst.drop n) (sizedCode lo hi ((src.take n).map byteBits)).length := by
  have hl : (src.take n).length = n := by simp; omega
  have hr := decodeOctetString_reads (arr := dst) (l := src.take n) (lo := lo) (hi := hi) (by omega) (by omega) (by omega) (by omega)
  rw [hl] at hr
  exact roundTrip_of (encodeOctetString_appends h1 h2 hsrc) hr

/-- The hypotheses are met by a string of 70000 octets, which is sent in two fragments. -/
example : ∃ (src dst : List Byte) (n lo hi : Nat), lo ≤ n ∧ n ≤ hi ∧ n ≤ src.length ∧ hi ≤ dst.length ∧
    (hi < 65536 ∨ 1 ≤ n) ∧ n = 70000 :=
  ⟨List.replicate 70000 0x5A#8, List.replicate 100000 0#8, 70000, 1, 100000, by omega, by omega,
   List.length_replicate.symm ▸ (by omega), List.length_replicate.symm ▸ (by omega), by omega, rfl⟩

/-- The code violates C14 for the empty string when the size bound is 65536 or more: what the encoder writes for it
makes the decoder return FALSE. -/
theorem C14_violation_empty_fragmented (dst : List Byte) (hi : Nat) (h : 65536 ≤ hi) :
    ∃ w, Appends (encodeOctetString [] 0 0 hi) true w ∧ Reads (decodeOctetString dst 0 hi) (false, (0, dst)) w := by
  refine ⟨fragmentedCode [], ?_, ?_⟩
  · have := encodeOctetString_appends (arr := []) (n := 0) (lo := 0) (hi := hi) (by omega) (by omega) (by simp)
    rwa [sizedCode, if_neg (by omega)] at this
  · unfold decodeOctetString
    rw [if_neg (by omega)]
    exact fragDecode_empty (Reads.pure _)

example : (65536 : Nat) ≤ 100000 := by omega

/-! ## C15 -/

/-- C15: the encoder writes exactly the code of X.691. -/
theorem C15_bit_encoding (src : List Byte) (n lo hi : Nat) (h1 : lo ≤ n) (h2 : n ≤ hi) (hsrc : n ≤ 8 * src.length) :
    Appends (encodeBitString src n lo hi) true (sizedCode lo hi (((bytesBits src).take n).map fun b => [b])) :=
  encodeBitString_appends h1 h2 hsrc

/-- C15: encoding and decoding gives back the number of bits and the bits, left-justified in the destination and
padded with zeros to a whole byte; later bytes of the destination stay. Missing: the empty string with a size
bound of 65536 or more, see `C15_violation_empty_fragmented`. -/
theorem C15_bit_roundtrip_partial (src dst : List Byte) (n lo hi : Nat) (h1 : lo ≤ n) (h2 : n ≤ hi)
    (hsrc : n ≤ 8 * src.length) (hdst : (hi + 7) / 8 ≤ dst.length) (hne : hi < 65536 ∨ 1 ≤ n) :
    ∃ r : List Byte, Packed ((bytesBits src).take n) r ∧
      RoundTrip (encodeBitString src n lo hi) true (decodeBitString dst lo hi)
        (n, r ++ dst.drop r.length) (sizedCode lo hi (((bytesBits src).take n).map fun b => [b])).length ∧
      RejectsTruncated (encodeBitString src n lo hi) true (decodeBitString dst lo hi)
        (sizedCode lo hi (((bytesBits src).take n).map fun b => [b])).length := by
  obtain ⟨r, hr⟩ := packed_exists ((bytesBits src).take n)
  have hl : ((bytesBits src).take n).length = n := by simp; omega
  have hd := decodeBitString_reads (arr := dst) (lo := lo) (hi := hi) (l := (bytesBits src).take n) (by omega) (by omega) (by omega) hr
    (by omega)
  rw [hl] at hd
  exact ⟨r, hr, roundTrip_of (encodeBitString_appends h1 h2 hsrc) hd.1, rejectsTruncated_of (encodeBitString_appends h1 h2 hsrc) hd.2⟩

example : ∃ (src dst : List Byte) (n lo hi : Nat), lo ≤ n ∧ n ≤ hi ∧ n ≤ 8 * src.length ∧ (hi + 7) / 8 ≤ dst.length ∧
    (hi < 65536 ∨ 1 ≤ n) ∧ n = 70001 :=
  ⟨List.replicate 10000 0x5A#8, List.replicate 10000 0#8, 70001, 1, 80000, by omega, by omega,
   List.length_replicate.symm ▸ (by omega), List.length_replicate.symm ▸ (by omega), by omega, rfl⟩

/-- The code violates C15 for the empty string when the size bound is 65536 or more. -/
theorem C15_violation_empty_fragmented (dst : List Byte) (hi : Nat) (h : 65536 ≤ hi) :
    ∃ w, Appends (encodeBitString [] 0 0 hi) true w ∧ Reads (decodeBitString dst 0 hi) (false, (0, dst)) w := by
  refine ⟨fragmentedCode [], ?_, ?_⟩
  · have := encodeBitString_appends (arr := []) (n := 0) (lo := 0) (hi := hi) (by omega) (by omega) (by simp)
    rwa [sizedCode, if_neg (by omega)] at this
  · unfold decodeBitString
    rw [if_neg (by omega)]
    have := (readBitsInto_reads (w := []) (r := []) (arr := dst) (off := 0) Packed.nil (by simp)).1
    exact fragDecode_empty (by simpa using this)

/-! ## C16 -/

/-- C16 for fragmented encodings (size bound of 65536 or more): truncated input is rejected. Missing: smaller
bounds, where the code violates the property, see `C16_violation_truncated`. -/
theorem C16_truncated_rejected_partial (src dst : List Byte) (n lo hi : Nat) (h1 : lo ≤ n) (h2 : n ≤ hi) (hn : 1 ≤ n)
    (hsrc : n ≤ src.length) (hdst : hi ≤ dst.length) (hbig : 65536 ≤ hi) :
    RejectsTruncated (encodeOctetString src n lo hi) true (decodeOctetString dst lo hi)
      (sizedCode lo hi ((src.take n).map byteBits)).length := by
  have hl : (src.take n).length = n := by simp; omega
  refine rejectsTruncated_of (encodeOctetString_appends h1 h2 hsrc) ?_
  unfold decodeOctetString sizedCode
  rw [if_neg (by omega), if_neg (by omega)]
  exact (decodeOctetStringFragmentation_reads (by omega) (by omega) (by omega)).2

example : ∃ (src dst : List Byte) (n lo hi : Nat), lo ≤ n ∧ n ≤ hi ∧ 1 ≤ n ∧ n ≤ src.length ∧ hi ≤ dst.length ∧ 65536 ≤ hi :=
  ⟨List.replicate 20000 0x5A#8, List.replicate 70000 0#8, 20000, 1, 70000, by omega, by omega, by omega,
   List.length_replicate.symm ▸ (by omega), List.length_replicate.symm ▸ (by omega), by omega⟩

/-- The primitive that reads the octets does report the end of the input. -/
theorem C16_octets_without_length (n : Nat) (s : BitStream) (h : 8 * s.count < s.pos + 8 * n) :
    decodeOctetStringNoLength n s = .ok ((false, []), s) := decodeOctetStringNoLength_short h

/-- The code violates C16 for size bounds below 65536: the result of reading the octets is ignored. Here the
message announces 3 octets and contains one; the decoder returns TRUE and length 3. -/
theorem C16_violation_truncated :
    ∃ s', decodeOctetString [9#8, 9#8, 9#8, 9#8] 0 4 (bitStreamAttach [0x61#8, 0x62#8, 0#8] 2) =
      .ok ((true, (3, [9#8, 9#8, 9#8, 9#8])), s') := ⟨_, rfl⟩

/-! ## C17 -/

/-- C17 for octet strings: whatever the input, the decoder stores only inside a destination of the declared
maximum size (a store outside it would be the outcome `ub`), and never reports a larger count. -/
theorem C17_octet_capacity (dst : List Byte) (lo hi : Nat) (hdst : hi ≤ dst.length)
    (s : BitStream) (hwf : Wf s) (hp : s.pos ≤ 8 * s.count) (hsl : Slack s) :
    ∃ ok n d s', decodeOctetString dst lo hi s = .ok ((ok, (n, d)), s') ∧ s'.buf = s.buf ∧
      (ok = true → n ≤ hi ∧ d.length = dst.length) := by
  obtain ⟨⟨ok, n, d⟩, s', h1, h2, _, _⟩ := decodeOctetString_safe (lo := lo) hdst s hwf hp hsl
  refine ⟨ok, n, d, s', h1, h2, ?_⟩
  intro e; subst e
  exact decodeOctetString_post (lo := lo) hdst s _ s' h1

/-- C17 for bit strings. -/
theorem C17_bit_capacity (dst : List Byte) (lo hi : Nat) (hlh : lo ≤ hi) (hdst : (hi + 7) / 8 ≤ dst.length)
    (s : BitStream) (hwf : Wf s) (hp : s.pos ≤ 8 * s.count) (hsl : Slack s) :
    ∃ ok n d s', decodeBitString dst lo hi s = .ok ((ok, (n, d)), s') ∧ s'.buf = s.buf ∧
      (ok = true → n ≤ hi ∧ d.length = dst.length) := by
  obtain ⟨⟨ok, n, d⟩, s', h1, h2, _, _⟩ := (decodeBitString_safe hlh hdst).1 s hwf hp hsl
  refine ⟨ok, n, d, s', h1, h2, ?_⟩
  intro e; subst e
  exact (decodeBitString_safe hlh hdst).2 s _ s' h1

/-- A hostile message (length octet 0xC4, 64K announced, nothing there) meets the hypotheses. -/
example : Wf (bitStreamAttach [0xC4#8, 0#8] 1) ∧ (bitStreamAttach [0xC4#8, 0#8] 1).pos ≤ 8 * 1 ∧
    Slack (bitStreamAttach [0xC4#8, 0#8] 1) := ⟨⟨by decide, by decide⟩, by decide, by unfold Slack; decide⟩

end Asn1
