import Verif.Model.Integer
/-!
# BER primitives

Models `/repo/asn1crt/asn1crt_encoding_ber.c`. REAL is in Model/BerReal.lean.
-/
namespace Asn1

/-- `ByteStream`, asn1crt/asn1crt.h:166-171. `buf` is the whole C object the pointer points into, `count` the size the stream was
told about. Simplifications: positions are natural numbers (C: `long`); `EncodeWhiteSpace` is not used by BER. -/
structure ByteStream where
  buf : List Byte
  count : Nat
  currentByte : Nat
  deriving DecidableEq, Repr

/-- `ERR_INSUFFICIENT_DATA` and `ERR_BER_LENGTH_MISMATCH`, asn1crt/asn1crt.h:193 and 199. -/
inductive BerErr where
  | insufficient
  | mismatch
  deriving DecidableEq, Repr

deriving instance DecidableEq for Except

/-- A C function on a byte stream that returns a flag: `.ok a` is `TRUE` with the outputs `a`, `.error e` is `FALSE` with
`*pErrCode = e` (every `return FALSE` of the file sets it). Simplification: outputs that were already stored when the
function fails are dropped. -/
def BM (α : Type) : Type := ByteStream → Res (Except BerErr α × ByteStream)

/-- `if (!f(...)) return FALSE;` in sequence. -/
instance : Monad BM where
  pure a := fun s => .ok (.ok a, s)
  bind x f := fun s =>
    match x s with
    | .ok (.ok a, s') => f a s'
    | .ok (.error e, s') => .ok (.error e, s')
    | .ub => .ub
    | .abort => .abort

/-- `*pErrCode = e; return FALSE;`. -/
def bFail {α : Type} (e : BerErr) : BM α := fun s => .ok (.error e, s)

/-- Undefined behaviour. -/
def bUb {α : Type} : BM α := fun _ => .ub

/-- A function that has nothing to do with the stream, such as `int2uint`. -/
def bCall {α : Type} (f : M α) : BM α := fun s =>
  match f ⟨[], 0, 0, 0⟩ with
  | .ok (a, _) => .ok (.ok a, s)
  | .ub => .ub
  | .abort => .abort

/-- `arr[i]` of a constant table or a `const` argument. -/
def bTbl {α : Type} (t : List α) (i : Nat) : BM α :=
  match t[i]? with
  | some b => pure b
  | none => bUb

/-- `value[i] = b` of an output array. -/
def bArrSet (value : List Byte) (i : Nat) (b : Byte) : BM (List Byte) :=
  if i < value.length then pure (value.set i b) else bUb

/-- `ByteStream_Init`, asn1crt/asn1crt_encoding.c:28-35. -/
def byteStreamInit (buf : List Byte) (count : Nat) : Res ByteStream :=
  if count ≤ buf.length then .ok ⟨List.replicate count 0#8 ++ buf.drop count, count, 0⟩ else .ub

/-- `ByteStream_AttachBuffer`, asn1crt/asn1crt_encoding.c:37-42. -/
def byteStreamAttachBuffer (buf : List Byte) (count : Nat) : ByteStream := ⟨buf, count, 0⟩

/-- `ByteStream_GetLength`, asn1crt/asn1crt_encoding.c:44-47. -/
def byteStreamGetLength (s : ByteStream) : Nat := s.currentByte

/-- `ByteStream_PutByte`, asn1crt/asn1crt_encoding_ber.c:14-22, with the error code that every caller sets. -/
def berPutByte (v : Byte) : BM Unit := fun s =>
  if s.currentByte + 1 > s.count + 1 then .ok (.error .insufficient, s)
  else if s.currentByte < s.buf.length then .ok (.ok (), { s with buf := s.buf.set s.currentByte v, currentByte := s.currentByte + 1 })
  else .ub

/-- `ByteStream_GetByte`, asn1crt/asn1crt_encoding_ber.c:24-30, with the error code that every caller sets. -/
def berGetByte : BM Byte := fun s =>
  if s.currentByte + 1 > s.count + 1 then .ok (.error .insufficient, s)
  else match s.buf[s.currentByte]? with
    | some b => .ok (.ok b, { s with currentByte := s.currentByte + 1 })
    | none => .ub

/-- `(byte)((value & ber_aux[i]) >> (8 * i))`, asn1crt/asn1crt_encoding_ber.c:48 and 66. -/
def berOctet (value : U64) (i : Nat) : BM Byte := do
  let a ← bTbl berAux i
  pure (((value &&& a) >>> (8 * i)).setWidth 8)

/-- The loop of `BerEncodeUInt`, asn1crt/asn1crt_encoding_ber.c:46-56: `i` runs from the argument minus one to 0. -/
def berEncodeUIntLoop (value : U64) : Nat → Bool → BM Unit
  | 0, _ => pure ()
  | i + 1, wFlag => do
    let curByte ← berOctet value i
    let wFlag := wFlag || curByte != 0#8
    (if wFlag then berPutByte curByte else pure ())
    berEncodeUIntLoop value i wFlag

/-- `BerEncodeUInt`, asn1crt/asn1crt_encoding_ber.c:33-59. -/
def berEncodeUInt (value : U64) : BM Unit :=
  if value = 0#64 then berPutByte 0#8 else berEncodeUIntLoop value 8 false

/-- `BerEncodeUInt2`, asn1crt/asn1crt_encoding_ber.c:61-74, and its loop over `intSize - 1 … 0`. -/
def berEncodeUInt2 (value : U64) : Nat → BM Unit
  | 0 => pure ()
  | i + 1 => do
    let curByte ← berOctet value i
    berPutByte curByte
    berEncodeUInt2 value i

/-- `BerEncodeTag`, asn1crt/asn1crt_encoding_ber.c:77-79. -/
def berEncodeTag (tag : U64) : BM Unit := berEncodeUInt tag

/-- `while (v > 0) { v >>= 8; n++; }`, asn1crt/asn1crt_encoding_ber.c:91-94 and 185-188. The first argument bounds the number of
rounds; the number of octets of the type is enough. -/
def octetCountLoop {w : Nat} : Nat → BitVec w → Nat
  | 0, _ => 0
  | n + 1, v => if v > 0#w then 1 + octetCountLoop n (v >>> 8) else 0

/-- The reading loop of `BerDecodeTag`, asn1crt/asn1crt_encoding_ber.c:97-105; also of `BerDecodeInteger`, 252-261. -/
def berReadBytes : Nat → U64 → BM U64
  | 0, acc => pure acc
  | n + 1, acc => do
    let curByte ← berGetByte
    berReadBytes n (acc <<< 8 ||| curByte.setWidth 64)

/-- `BerDecodeTag`, asn1crt/asn1crt_encoding_ber.c:81-113. `0x20 << ((tagSize - 1) * 8)` is a shift of an `int`: undefined from
a shift of 32 on. -/
def berDecodeTag (tag : U64) : BM Unit := do
  let tagSize := if tag = 0#64 then 1 else octetCountLoop 8 tag
  if (tagSize - 1) * 8 ≥ 32 then bUb else
  let primitiveBit : U64 := (0x20#32 <<< ((tagSize - 1) * 8)).setWidth 64
  let tgCopy ← berReadBytes tagSize 0#64
  if (tag ||| primitiveBit) != (tgCopy ||| primitiveBit) then bFail .insufficient else pure ()

/-- `BerEncodeLengthStart`, asn1crt/asn1crt_encoding_ber.c:115-121. -/
def berEncodeLengthStart : BM Unit := berPutByte 0x80#8

/-- `BerEncodeLengthEnd`, asn1crt/asn1crt_encoding_ber.c:123-133. -/
def berEncodeLengthEnd : BM Unit := do
  berPutByte 0#8
  berPutByte 0#8

/-- The loop of `BerDecodeLength`, asn1crt/asn1crt_encoding_ber.c:159-167. -/
def berReadLength : Nat → U32 → BM U32
  | 0, ret => pure ret
  | n + 1, ret => do
    let curByte ← berGetByte
    berReadLength n (ret <<< 8 ||| curByte.setWidth 32)

/-- `BerDecodeLength`, asn1crt/asn1crt_encoding_ber.c:135-170. The conversion to `int` of an `unsigned int` that does not fit
wraps around (implementation defined, as gcc defines it). -/
def berDecodeLength : BM Int := do
  let curByte ← berGetByte
  if curByte &&& 0x80#8 = 0#8 then pure (curByte &&& 0x7F#8).toNat else
  let lenlen := curByte &&& 0x7F#8
  if lenlen = 0#8 then pure (-1) else do
  let ret ← berReadLength lenlen.toNat 0#32
  pure ret.toInt

/-- `BerEncodeLength`, asn1crt/asn1crt_encoding_ber.c:172-194. -/
def berEncodeLength (value : Int) : BM Unit :=
  if value ≤ 0x7F then berPutByte (BitVec.ofInt 8 value)
  else do
    let lenlen := octetCountLoop 4 (BitVec.ofInt 32 value)
    berPutByte (BitVec.ofNat 8 lenlen ||| 0x80#8)
    berEncodeUInt (BitVec.ofInt 64 value)

/-- `BerDecodeTwoZeroes`, asn1crt/asn1crt_encoding_ber.c:197-219. -/
def berDecodeTwoZeroes : BM Unit := do
  let a ← berGetByte
  if a != 0#8 then bFail .mismatch else do
  let b ← berGetByte
  if b != 0#8 then bFail .mismatch else pure ()

/-- `BerEncodeInteger`, asn1crt/asn1crt_encoding_ber.c:222-240. -/
def berEncodeInteger (tag : U64) (value : Int) : BM Unit := do
  berEncodeTag tag
  let length ← bCall (getLengthInBytesOfSInt value)
  berPutByte (BitVec.ofNat 8 length)
  let v ← bCall (int2uint value)
  berEncodeUInt2 v length

/-- `BerDecodeInteger`, asn1crt/asn1crt_encoding_ber.c:242-266. `uint2int` of a negative size is an undefined shift. -/
def berDecodeInteger (tag : U64) : BM Int := do
  berDecodeTag tag
  let length ← berDecodeLength
  let ret ← berReadBytes length.toNat 0#64
  if length < 0 then bUb else bCall (uint2int ret length.toNat)

/-- `BerEncodeBoolean`, asn1crt/asn1crt_encoding_ber.c:268-283. -/
def berEncodeBoolean (tag : U64) (value : Bool) : BM Unit := do
  berEncodeTag tag
  berPutByte 1#8
  berPutByte (if value then 0xFF#8 else 0#8)

/-- `BerDecodeBoolean`, asn1crt/asn1crt_encoding_ber.c:284-309. `flag` is `bool` (asn1crt/asn1crt.h:139). -/
def berDecodeBoolean (tag : U64) : BM Bool := do
  berDecodeTag tag
  let length ← berDecodeLength
  if length ≠ 1 then bFail .mismatch else do
  let data ← berGetByte
  pure (data != 0#8)

/-- `for (i = 0; i<n; i++) PutByte(value[i])`, asn1crt/asn1crt_encoding_ber.c:374-379, 459-464, 522-527. -/
def berPutArray (value : List Byte) : (n i : Nat) → BM Unit
  | 0, _ => pure ()
  | n + 1, i => do
    let b ← bTbl value i
    berPutByte b
    berPutArray value n (i + 1)

/-- `for (i = 0; i<length; i++) { GetByte; if (i<max) value[i] = curByte; }`, asn1crt/asn1crt_encoding_ber.c:397-404, 547-554. -/
def berGetArray (maxLength : Nat) : (n i : Nat) → List Byte → BM (List Byte)
  | 0, _, value => pure value
  | n + 1, i, value => do
    let curByte ← berGetByte
    let value ← (if i < maxLength then bArrSet value i curByte else pure value)
    berGetArray maxLength n (i + 1) value

/-- `BerEncodeIA5String`, asn1crt/asn1crt_encoding_ber.c:367-382. -/
def berEncodeIA5String (tag : U64) (value : List Byte) (length : Nat) : BM Unit := do
  berEncodeTag tag
  berEncodeLength length
  berPutArray value length 0

/-- `memset(value, 0x0, n)`, asn1crt/asn1crt_encoding_ber.c:389 and 537. -/
def bClear (value : List Byte) (n : Nat) : BM (List Byte) :=
  if n ≤ value.length then pure (List.replicate n 0#8 ++ value.drop n) else bUb

/-- `BerDecodeIA5String`, asn1crt/asn1crt_encoding_ber.c:384-408. `value` is the object the caller passes; the result is
its content afterwards. -/
def berDecodeIA5String (tag : U64) (value : List Byte) (maxLength : Nat) : BM (List Byte) := do
  let value ← bClear value maxLength
  berDecodeTag tag
  let length ← berDecodeLength
  berGetArray maxLength length.toNat 0 value

/-- `BerEncodeNull`, asn1crt/asn1crt_encoding_ber.c:410-419. -/
def berEncodeNull (tag : U64) : BM Unit := do
  berEncodeTag tag
  berPutByte 0#8

/-- `BerDecodeNull`, asn1crt/asn1crt_encoding_ber.c:421-436. -/
def berDecodeNull (tag : U64) : BM Unit := do
  berDecodeTag tag
  let length ← berDecodeLength
  if length ≠ 0 then bFail .mismatch else pure ()

/-- `BerEncodeBitString`, asn1crt/asn1crt_encoding_ber.c:438-467. -/
def berEncodeBitString (tag : U64) (value : List Byte) (bitCount : Nat) : BM Unit := do
  let length := if bitCount % 8 ≠ 0 then bitCount / 8 + 1 else bitCount / 8
  let lastByteUnusedBits := if 8 - bitCount % 8 = 8 then 0 else 8 - bitCount % 8
  berEncodeTag tag
  berEncodeLength (length + 1 : Nat)
  berPutByte (BitVec.ofNat 8 lastByteUnusedBits)
  berPutArray value length 0

/-- The loop of `BerDecodeBitString`, asn1crt/asn1crt_encoding_ber.c:490-502. -/
def berGetBits (maxBytesLen : Nat) : (n i : Nat) → (value : List Byte) → (nbitCnt : Int) → (unused : Byte) → BM (List Byte × Int × Byte)
  | 0, _, value, nbitCnt, unused => pure (value, nbitCnt, unused)
  | n + 1, i, value, nbitCnt, unused => do
    let curByte ← berGetByte
    if i < maxBytesLen then do
      let value ← bArrSet value i curByte
      berGetBits maxBytesLen n (i + 1) value (nbitCnt + 8) unused
    else berGetBits maxBytesLen n (i + 1) value nbitCnt 0#8

/-- `BerDecodeBitString`, asn1crt/asn1crt_encoding_ber.c:469-511: the array and `*bitCount`. `length - 1` overflows for the
smallest `int`. -/
def berDecodeBitString (tag : U64) (value : List Byte) (maxBitCount : Nat) : BM (List Byte × Int) := do
  let maxBytesLen := if maxBitCount % 8 ≠ 0 then maxBitCount / 8 + 1 else maxBitCount / 8
  berDecodeTag tag
  let length ← berDecodeLength
  let lastByteUnusedBits ← berGetByte
  if length = -(2 ^ 31) then bUb else do
  let r ← berGetBits maxBytesLen (length - 1).toNat 0 value 0 lastByteUnusedBits
  pure (r.1, r.2.1 - r.2.2.toNat)

/-- `BerEncodeOctetString`, asn1crt/asn1crt_encoding_ber.c:514-530. -/
def berEncodeOctetString (tag : U64) (value : List Byte) (octCount : Nat) : BM Unit := do
  berEncodeTag tag
  berEncodeLength octCount
  berPutArray value octCount 0

/-- `BerDecodeOctetString`, asn1crt/asn1crt_encoding_ber.c:532-557: the array and `*octCount`. -/
def berDecodeOctetString (tag : U64) (value : List Byte) (maxOctCount : Nat) : BM (List Byte × Int) := do
  let value ← bClear value maxOctCount
  berDecodeTag tag
  let length ← berDecodeLength
  let octCount := if length ≤ maxOctCount then length else maxOctCount
  let value ← berGetArray maxOctCount length.toNat 0 value
  pure (value, octCount)

/-- `NextTagMatches`, asn1crt/asn1crt_encoding_ber.c:560-568. -/
def nextTagMatches (tag : U64) : BM Bool := fun s =>
  match berDecodeTag tag s with
  | .ok (.ok _, s') => .ok (.ok true, { s' with currentByte := s.currentByte })
  | .ok (.error _, s') => .ok (.ok false, { s' with currentByte := s.currentByte })
  | .ub => .ub
  | .abort => .abort

/-- `LA_Next_Two_Bytes_00`, asn1crt/asn1crt_encoding_ber.c:572-581. -/
def laNextTwoBytes00 : BM Bool := fun s =>
  match berDecodeTwoZeroes s with
  | .ok (.ok _, s') => .ok (.ok true, { s' with currentByte := s.currentByte })
  | .ok (.error _, s') => .ok (.ok false, { s' with currentByte := s.currentByte })
  | .ub => .ub
  | .abort => .abort

end Asn1
