import Verif.Model.Ber
import Verif.Model.Real
/-!
# BER REAL

Models `BerEncodeReal` and `BerDecodeReal` of `/repo/asn1crt/asn1crt_encoding_ber.c`: both go through a temporary bit stream.
-/
namespace Asn1

/-- `BitStream_Init(&tmp, buf, sizeof(buf)); BitStream_EncodeReal(&tmp, value); length = (byte)BitStream_GetLength(&tmp);`,
asn1crt/asn1crt_encoding_ber.c:312-320: the octets of `buf` and `length`. `buf` is not initialised in C before
`BitStream_Init` clears it. -/
def berRealOctets (value : Dbl) : BM (List Byte × Nat) := fun s =>
  match bitStreamInit (List.replicate 100 0#8) 100 with
  | .ok t0 =>
    match encodeReal value t0 with
    | .ok (_, t) => .ok (.ok (t.buf, bitStreamGetLength t % 256), s)
    | .ub => .ub
    | .abort => .abort
  | .ub => .ub
  | .abort => .abort

/-- `BerEncodeReal`, asn1crt/asn1crt_encoding_ber.c:311-339. The length octet of the BER encoding is the one that
`BitStream_EncodeReal` writes. -/
def berEncodeReal (tag : U64) (value : Dbl) : BM Unit := do
  let p ← berRealOctets value
  berEncodeTag tag
  berPutArray p.1 p.2 0

/-- `BitStream_AttachBuffer(&tmp, &buf[currentByte], count - currentByte); if (!BitStream_DecodeReal(&tmp, value)) …;
currentByte += BitStream_GetLength(&tmp);`, asn1crt/asn1crt_encoding_ber.c:352-361. Simplification: `count - currentByte` is -1
when `currentByte` is one behind `count`; the model has 0, which `BitStream_ReadByte` treats alike (it fails). -/
def berRealContents : BM Dbl := fun s =>
  if s.currentByte ≤ s.buf.length then
    match decodeReal (bitStreamAttach (s.buf.drop s.currentByte) (s.count - s.currentByte)) with
    | .ok (r, t) =>
      if r.1 then .ok (.ok r.2, { s with currentByte := s.currentByte + bitStreamGetLength t })
      else .ok (.error .insufficient, s)
    | .ub => .ub
    | .abort => .abort
  else .ub

/-- `BerDecodeReal`, asn1crt/asn1crt_encoding_ber.c:341-365. -/
def berDecodeReal (tag : U64) : BM Dbl := do
  berDecodeTag tag
  berRealContents

end Asn1
