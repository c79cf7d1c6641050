import Verif.Model.Integer

/-!
# ACN integers, alignment, booleans, reals, length determinants

Models `/repo/asn1crt/asn1crt_encoding_acn.c` lines 13-645, 925-1149 and 1453-1475 for `WORD_SIZE == 8`,
on a little endian machine (`RequiresReverse() == 1`, lines 6-11), build without `ASN1SCC_STREAMING`.
The BCD and ASCII integers are in `Verif.Model.AcnDigits`, the strings in `Verif.Model.AcnStrings`.

`CHECK_BIT_STREAM` (asn1crt/asn1crt.h:303) is `assertInBounds`.
-/
namespace Asn1

/-- `CHECK_BIT_STREAM_PRE(pBitStrm, nBits)`, asn1crt/asn1crt.h:306-307. -/
def assertRoom (nBits : Nat) : M Unit := do
  let s ← getS
  assertC (decide (s.currentByte * 8 + s.currentBit + nBits ≤ s.count * 8))

/-- `Acn_AlignToNextByte`, asn1crt/asn1crt_encoding_acn.c:13-28 (the flag `bEncode` only selects a streaming hook). -/
def acnAlignToNextByte : M Unit := do
  let s ← getS
  assertRoom ((8 - s.currentBit) &&& 7)
  if s.currentBit ≠ 0 then do
    modS fun s => { s with currentBit := 0, currentByte := s.currentByte + 1 }
    assertInBounds
  else pure ()

/-- `Acn_AlignToNextWord`, asn1crt/asn1crt_encoding_acn.c:30-45. The argument of the macro is computed in `int` by
a mask with 15; `currentByte & 1` and `currentBit` keep the difference in 1..16. -/
def acnAlignToNextWord : M Unit := do
  let s ← getS
  assertRoom ((16 - (8 * (s.currentByte &&& 1) + s.currentBit)) &&& 15)
  acnAlignToNextByte
  modS fun s => { s with currentByte := ((s.currentByte + 1) / 2) * 2 }
  assertInBounds

/-- `Acn_AlignToNextDWord`, asn1crt/asn1crt_encoding_acn.c:47-62. -/
def acnAlignToNextDWord : M Unit := do
  let s ← getS
  assertRoom ((32 - (8 * (s.currentByte &&& 3) + s.currentBit)) &&& 31)
  acnAlignToNextByte
  modS fun s => { s with currentByte := ((s.currentByte + 3) / 4) * 4 }
  assertInBounds

/-- `Acn_Enc_Int_PositiveInteger_ConstSize`, asn1crt/asn1crt_encoding_acn.c:65-78. -/
def acnEncUIntConstSize (v : U64) (n : Nat) : M Unit :=
  if n = 0 then pure () else do
    let nBits := getNumberOfBits v
    appendNBitZero ((n : Int) - nBits)
    encodeNonNegativeInteger v
    assertInBounds

/-- `Acn_Enc_Int_PositiveInteger_ConstSize_8`, asn1crt/asn1crt_encoding_acn.c:79-83 (the result of
`BitStream_AppendByte0` is ignored, as in C). -/
def acnEncUIntConstSize8 (v : U64) : M Unit := do
  let _ ← appendByte0 (v.setWidth 8)
  assertInBounds

/-- The loop of `Acn_Enc_Int_PositiveInteger_ConstSize_big_endian_B`, asn1crt/asn1crt_encoding_acn.c:94-98:
`k` iterations left, that is `size - i`. -/
def acnEncBigLoop (tmp : U64) : (k : Nat) → (mask : U64) → M Unit
  | 0, _ => pure ()
  | k + 1, mask => do
    let _ ← appendByte0 (((tmp &&& mask) >>> (k * 8)).setWidth 8)
    acnEncBigLoop tmp k (mask >>> 8)

/-- `Acn_Enc_Int_PositiveInteger_ConstSize_big_endian_B`, asn1crt/asn1crt_encoding_acn.c:85-100 (`size` 2, 4 or 8:
the functions `..._big_endian_16`, `_32`, `_64`, lines 102-122). -/
def acnEncUIntBig (v : U64) (size : Nat) : M Unit := do
  acnEncBigLoop v size (0xFF#64 <<< ((size - 1) * 8))
  assertInBounds

/-- The loop of `Acn_Enc_Int_PositiveInteger_ConstSize_little_endian_N`, asn1crt/asn1crt_encoding_acn.c:131-135. -/
def acnEncLittleLoop : (k : Nat) → (tmp : U64) → M Unit
  | 0, _ => pure ()
  | k + 1, tmp => do
    let _ ← appendByte0 (tmp.setWidth 8)
    acnEncLittleLoop k (tmp >>> 8)

/-- `Acn_Enc_Int_PositiveInteger_ConstSize_little_endian_N`, asn1crt/asn1crt_encoding_acn.c:124-137 (`size` 2, 4 or 8:
the functions `..._little_endian_16`, `_32`, `_64`, lines 139-159). -/
def acnEncUIntLittle (v : U64) (size : Nat) : M Unit := do
  acnEncLittleLoop size v
  assertInBounds

/-- `Acn_Dec_Int_PositiveInteger_ConstSize`, asn1crt/asn1crt_encoding_acn.c:162-172. On failure C leaves `*pIntVal`
unchanged; the model reports 0. -/
def acnDecUIntConstSize (n : Nat) : M (Bool × U64) := do
  let r ← decodeNonNegativeInteger n
  if r.1 then pure (true, r.2) else pure (false, 0#64)

/-- `Acn_Dec_Int_PositiveInteger_ConstSize_8`, asn1crt/asn1crt_encoding_acn.c:175-182. -/
def acnDecUIntConstSize8 : M (Bool × U64) := do
  let r ← readByte
  if r.1 then pure (true, r.2.setWidth 64) else pure (false, 0#64)

/-- `Acn_Dec_Int_PositiveInteger_ConstSize_big_endian_N`, asn1crt/asn1crt_encoding_acn.c:184-202 (`size` 2, 4, 8:
lines 204-219); the loop, `k` iterations left. -/
def acnDecUIntBig : (k : Nat) → (ret : U64) → M (Bool × U64)
  | 0, ret => pure (true, ret)
  | k + 1, ret => do
    let r ← readByte
    if r.1 then acnDecUIntBig k ((ret <<< 8) ||| r.2.setWidth 64) else pure (false, 0#64)

/-- The loop of `Acn_Dec_Int_PositiveInteger_ConstSize_little_endian_N`, asn1crt/asn1crt_encoding_acn.c:221-242
(`size` 2, 4, 8: lines 244-260): `k` iterations left, `i` the loop variable. -/
def acnDecUIntLittle : (k i : Nat) → (ret : U64) → M (Bool × U64)
  | 0, _, ret => pure (true, ret)
  | k + 1, i, ret => do
    let r ← readByte
    if r.1 then acnDecUIntLittle k (i + 1) (ret ||| (r.2.setWidth 64 <<< (i * 8))) else pure (false, 0#64)

/-- The loop of `Encode_UnsignedInteger`, asn1crt/asn1crt_encoding_acn.c:275-279. -/
def acnEncUnsignedLoop : (k : Nat) → (val : U64) → M Unit
  | 0, _ => pure ()
  | k + 1, val => do
    let _ ← appendByte0 (((val &&& 0xFF00000000000000#64) >>> 56).setWidth 8)
    acnEncUnsignedLoop k (val <<< 8)

/-- `Encode_UnsignedInteger`, asn1crt/asn1crt_encoding_acn.c:265-280. A shift by 64 (`nBytes = 0`) is undefined. -/
def acnEncodeUnsignedInteger (val : U64) (nBytes : Nat) : M Unit := do
  assertC (decide (nBytes ≤ 8))
  if 64 - nBytes * 8 < 64 then acnEncUnsignedLoop nBytes (val <<< (64 - nBytes * 8)) else mUb

/-- `Acn_Enc_Int_PositiveInteger_VarSize_LengthEmbedded`, asn1crt/asn1crt_encoding_acn.c:283-296. -/
def acnEncUIntLengthEmbedded (v : U64) : M Unit := do
  let nBytes : Byte := BitVec.ofNat 8 (getLengthInBytesOfUInt v)
  let _ ← appendByte0 nBytes
  acnEncodeUnsignedInteger v nBytes.toNat
  assertInBounds

/-- `Acn_Dec_Int_PositiveInteger_VarSize_LengthEmbedded`, asn1crt/asn1crt_encoding_acn.c:298-315; the loop of lines
307-312 is `decodeBytesLoop`. -/
def acnDecUIntLengthEmbedded : M (Bool × U64) := do
  let n ← readByte
  if n.1 then
    if n.2.toNat > 8 then pure (false, 0#64) else do
      let r ← decodeBytesLoop n.2.toNat 0#64
      if r.1 then pure (true, r.2) else pure (false, 0#64)
  else pure (false, 0#64)

/-- `Acn_Enc_Int_TwosComplement_ConstSize`, asn1crt/asn1crt_encoding_acn.c:318-330. `-intVal - 1` is two signed
operations. A negative count makes the loops of `BitStream_AppendNBitOne` run zero times, as `Int.toNat` does. -/
def acnEncSIntConstSize (v : Int) (n : Nat) : M Unit := do
  (if v ≥ 0 then do
    appendNBitZero ((n : Int) - getNumberOfBits (BitVec.ofInt 64 v))
    encodeNonNegativeInteger (BitVec.ofInt 64 v)
  else do
    let w ← negMinusOne v
    appendNBitOne ((n : Int) - getNumberOfBits (BitVec.ofInt 64 w)).toNat
    encodeNonNegativeIntegerNeg (BitVec.ofInt 64 w) true)
  assertInBounds

/-- `Acn_Enc_Int_TwosComplement_ConstSize_8`, asn1crt/asn1crt_encoding_acn.c:335-338. -/
def acnEncSIntConstSize8 (v : Int) : M Unit := do
  let u ← int2uint v
  acnEncUIntConstSize8 u

/-- `Acn_Enc_Int_TwosComplement_ConstSize_big_endian_16`, `_32`, `_64`, asn1crt/asn1crt_encoding_acn.c:340-353. -/
def acnEncSIntBig (v : Int) (size : Nat) : M Unit := do
  let u ← int2uint v
  acnEncUIntBig u size

/-- `Acn_Enc_Int_TwosComplement_ConstSize_little_endian_16`, `_32`, `_64`, asn1crt/asn1crt_encoding_acn.c:355-368. -/
def acnEncSIntLittle (v : Int) (size : Nat) : M Unit := do
  let u ← int2uint v
  acnEncUIntLittle u size

/-- `Acn_Dec_Int_TwosComplement_ConstSize`, asn1crt/asn1crt_encoding_acn.c:373-397; the loop of lines 384-388 is
`decodeBytesLoop`. The signed `<<` is taken with GCC's documented meaning (two's complement). On failure C leaves an
intermediate value in `*pIntVal`; the model reports 0. -/
def acnDecSIntConstSize (n : Nat) : M (Bool × Int) := do
  let neg ← peekBit
  let r ← decodeBytesLoop (n / 8) (if neg then 0xFFFFFFFFFFFFFFFF#64 else 0#64)
  if r.1 then
    if n % 8 > 0 then do
      let p ← readPartialByte (n % 8)
      if p.1 then pure (true, ((r.2 <<< (n % 8)) ||| p.2.setWidth 64).toInt) else pure (false, 0)
    else pure (true, r.2.toInt)
  else pure (false, 0)

/-- `Acn_Dec_Int_TwosComplement_ConstSize_8`, asn1crt/asn1crt_encoding_acn.c:399-406. -/
def acnDecSIntConstSize8 : M (Bool × Int) := do
  let r ← acnDecUIntConstSize8
  if r.1 then do
    let x ← uint2int r.2 1
    pure (true, x)
  else pure (false, 0)

/-- `Acn_Dec_Int_TwosComplement_ConstSize_big_endian_16`, `_32`, `_64`, asn1crt/asn1crt_encoding_acn.c:408-433. -/
def acnDecSIntBig (size : Nat) : M (Bool × Int) := do
  let r ← acnDecUIntBig size 0#64
  if r.1 then do
    let x ← uint2int r.2 size
    pure (true, x)
  else pure (false, 0)

/-- `Acn_Dec_Int_TwosComplement_ConstSize_little_endian_16`, `_32`, `_64`, asn1crt/asn1crt_encoding_acn.c:435-460. -/
def acnDecSIntLittle (size : Nat) : M (Bool × Int) := do
  let r ← acnDecUIntLittle size 0 0#64
  if r.1 then do
    let x ← uint2int r.2 size
    pure (true, x)
  else pure (false, 0)

/-- `To_UInt`, asn1crt/asn1crt_encoding_acn.c:465-475. -/
def acnToUInt (v : Int) : M U64 :=
  if v < 0 then do
    let w ← negMinusOne v
    pure (~~~(BitVec.ofInt 64 w))
  else pure (BitVec.ofInt 64 v)

/-- `Acn_Enc_Int_TwosComplement_VarSize_LengthEmbedded`, asn1crt/asn1crt_encoding_acn.c:478-491. -/
def acnEncSIntLengthEmbedded (v : Int) : M Unit := do
  let n ← getLengthInBytesOfSInt v
  let nBytes : Byte := BitVec.ofNat 8 n
  let _ ← appendByte0 nBytes
  let u ← acnToUInt v
  acnEncodeUnsignedInteger u nBytes.toNat
  assertInBounds

/-- The loop of `Acn_Dec_Int_TwosComplement_VarSize_LengthEmbedded`, asn1crt/asn1crt_encoding_acn.c:505-515:
`k` iterations left, `i` the loop variable. -/
def acnDecSIntLoop : (k i : Nat) → (v : U64) → (isNeg : Bool) → M (Bool × (U64 × Bool))
  | 0, _, v, neg => pure (true, (v, neg))
  | k + 1, i, v, neg => do
    let r ← readByte
    if r.1 then
      if i = 0 ∧ r.2 &&& 0x80#8 > 0#8 then
        acnDecSIntLoop k (i + 1) ((0xFFFFFFFFFFFFFFFF#64 <<< 8) ||| r.2.setWidth 64) true
      else acnDecSIntLoop k (i + 1) ((v <<< 8) ||| r.2.setWidth 64) neg
    else pure (false, (v, neg))

/-- `Acn_Dec_Int_TwosComplement_VarSize_LengthEmbedded`, asn1crt/asn1crt_encoding_acn.c:494-524. -/
def acnDecSIntLengthEmbedded : M (Bool × Int) := do
  let n ← readByte
  if n.1 then
    if n.2.toNat > 8 then pure (false, 0) else do
      let r ← acnDecSIntLoop n.2.toNat 0 0#64 false
      if r.1 then
        if r.2.2 then do
          let x ← chk (-((~~~r.2.1).toInt))
          let y ← chk (x - 1)
          pure (true, y)
        else pure (true, r.2.1.toInt)
      else pure (false, 0)
  else pure (false, 0)

/-- The byte loop of `BitStream_ReadBitPattern`, asn1crt/asn1crt_encoding_acn.c:933-937: `k` iterations left. -/
def readPatternLoop (pat : List Byte) : (k i : Nat) → (acc : Bool) → M (Bool × Bool)
  | 0, _, acc => pure (true, acc)
  | k + 1, i, acc => do
    let r ← readByte
    if r.1 then do
      let p ← tblGet pat i
      readPatternLoop pat k (i + 1) (acc && decide (r.2 = p))
    else pure (false, acc)

/-- `BitStream_ReadBitPattern`, asn1crt/asn1crt_encoding_acn.c:925-946. -/
def readBitPattern (pat : List Byte) (n : Nat) : M (Bool × Bool) := do
  let r ← readPatternLoop pat (n / 8) 0 true
  if r.1 then
    if n % 8 > 0 then do
      let c ← readPartialByte (n % 8)
      if c.1 then do
        let p ← tblGet pat (n / 8)
        pure (true, r.2 && decide (c.2 = p >>> (8 - n % 8)))
      else pure (false, r.2)
    else pure (true, r.2)
  else pure (false, r.2)

/-- The byte loop of `BitStream_ReadBitPattern_ignore_value`, asn1crt/asn1crt_encoding_acn.c:955-958. -/
def skipBytesLoop : (k : Nat) → M (Bool × Unit)
  | 0 => pure (true, ())
  | k + 1 => do
    let r ← readByte
    if r.1 then skipBytesLoop k else pure (false, ())

/-- `BitStream_ReadBitPattern_ignore_value`, asn1crt/asn1crt_encoding_acn.c:948-967. -/
def readBitPatternIgnore (n : Nat) : M (Bool × Unit) := do
  let r ← skipBytesLoop (n / 8)
  if r.1 then
    if n % 8 > 0 then do
      let c ← readPartialByte (n % 8)
      if c.1 then pure (true, ()) else pure (false, ())
    else pure (true, ())
  else pure (false, ())

/-- The byte loop of `BitStream_DecodeTrueFalseBoolean`, asn1crt/asn1crt_encoding_acn.c:992-997. -/
def trueFalseLoop (tp fp : List Byte) : (k i : Nat) → (t f : Bool) → M (Bool × (Bool × Bool))
  | 0, _, t, f => pure (true, (t, f))
  | k + 1, i, t, f => do
    let r ← readByte
    if r.1 then do
      let p ← tblGet tp i
      let q ← tblGet fp i
      trueFalseLoop tp fp k (i + 1) (t && decide (r.2 = p)) (f && decide (r.2 = q))
    else pure (false, (t, f))

/-- The decision at the end of `BitStream_DecodeTrueFalseBoolean`, asn1crt/asn1crt_encoding_acn.c:1006-1015. -/
def trueFalseResult (t f : Bool) : Bool × Bool :=
  if t then (true, true) else if f then (true, false) else (false, false)

/-- `BitStream_DecodeTrueFalseBoolean`, asn1crt/asn1crt_encoding_acn.c:983-1016. C evaluates `truePattern[i]` only
while `isTrue` still holds; the model always reads it, the patterns have the full length. -/
def decodeTrueFalseBoolean (tp fp : List Byte) (n : Nat) : M (Bool × Bool) := do
  let r ← trueFalseLoop tp fp (n / 8) 0 true true
  if r.1 then
    if n % 8 > 0 then do
      let c ← readPartialByte (n % 8)
      if c.1 then do
        let p ← tblGet tp (n / 8)
        let q ← tblGet fp (n / 8)
        pure (trueFalseResult (r.2.1 && decide (c.2 = p >>> (8 - n % 8))) (r.2.2 && decide (c.2 = q >>> (8 - n % 8))))
      else pure (false, false)
    else pure (trueFalseResult r.2.1 r.2.2)
  else pure (false, false)

/-- Generated code for a boolean with patterns, `Boolean_encode` and `BooleanTrueFalse_encode`,
StgC/acn_c.stg:359-366, 383-390. -/
def acnBoolEncode (tp fp : List Byte) (n : Nat) (v : Bool) : M Unit := appendBits (if v then tp else fp) n

/-- Generated code for a boolean with one pattern, `Boolean_decode`, StgC/acn_c.stg:369-380; `encValIsTrue` says
whether the pattern of the ACN file is the one of TRUE. -/
def acnBoolDecode (encValIsTrue : Bool) (tp fp : List Byte) (n : Nat) : M (Bool × Bool) := do
  let r ← readBitPattern (if encValIsTrue then tp else fp) n
  if r.1 then pure (true, if encValIsTrue then r.2 else !r.2) else pure (false, r.2)

/-- The loop of `Acn_enc_real_big_endian`/`Acn_enc_real_little_endian`, asn1crt/asn1crt_encoding_acn.c:1033-1043 and
1094-1104, on a little endian machine: `image` are the bytes of the IEEE754 object in the order they are sent. -/
def acnEncRealLoop : List Byte → M Unit
  | [] => pure ()
  | b :: t => do
    let _ ← appendByte0 b
    acnEncRealLoop t

/-- The bytes of an object as they lie in the memory of a little endian machine, lowest address first
(`dat1.b[i]` of asn1crt/asn1crt_encoding_acn.c:1020-1030). -/
def memImage (size : Nat) (v : BitVec (8 * size)) : List Byte :=
  (List.range size).map fun i => (v >>> (8 * i)).setWidth 8

/-- The object with the given bytes in memory (`dat1.f` after the bytes are stored). -/
def ofMemImage (size : Nat) (l : List Byte) : BitVec (8 * size) :=
  l.foldr (fun b acc => (acc <<< 8) ||| b.setWidth (8 * size)) 0

/-- `Acn_Enc_Real_IEEE754_64_big_endian` (`size` 8) and `Acn_Enc_Real_IEEE754_32_big_endian` (`size` 4),
asn1crt/asn1crt_encoding_acn.c:1081-1084, 1065-1068. The argument is the IEEE754 bit image. For `size` 4 the
conversion `(float)realValue` from `double` is not modelled: the argument is the image of the converted value. -/
def acnEncRealBig (size : Nat) (v : BitVec (8 * size)) : M Unit := acnEncRealLoop (memImage size v).reverse

/-- `Acn_Enc_Real_IEEE754_64_little_endian`, `..._32_little_endian`, asn1crt/asn1crt_encoding_acn.c:1126-1149. -/
def acnEncRealLittle (size : Nat) (v : BitVec (8 * size)) : M Unit := acnEncRealLoop (memImage size v)

/-- The loop of the decoding macros, asn1crt/asn1crt_encoding_acn.c:1046-1062, 1107-1123: `k` bytes in the order
they arrive. -/
def acnDecRealLoop : (k : Nat) → M (Bool × List Byte)
  | 0 => pure (true, [])
  | k + 1 => do
    let r ← readByte
    if r.1 then do
      let t ← acnDecRealLoop k
      pure (t.1, r.2 :: t.2)
    else pure (false, [])

/-- `Acn_Dec_Real_IEEE754_64_big_endian`, `..._32_big_endian`, `..._32_big_endian_fp32`,
asn1crt/asn1crt_encoding_acn.c:1070-1089 (the result is the bit image). -/
def acnDecRealBig (size : Nat) : M (Bool × BitVec (8 * size)) := do
  let r ← acnDecRealLoop size
  if r.1 then pure (true, ofMemImage size r.2.reverse) else pure (false, 0)

/-- `Acn_Dec_Real_IEEE754_64_little_endian`, `..._32_little_endian`, `..._32_little_endian_fp32`,
asn1crt/asn1crt_encoding_acn.c:1131-1149. -/
def acnDecRealLittle (size : Nat) : M (Bool × BitVec (8 * size)) := do
  let r ← acnDecRealLoop size
  if r.1 then pure (true, ofMemImage size r.2) else pure (false, 0)

/-- `Acn_Enc_Length`, asn1crt/asn1crt_encoding_acn.c:1455-1459. -/
def acnEncLength (v : U64) (n : Nat) : M Unit := acnEncUIntConstSize v n

/-- `Acn_Dec_Length`, asn1crt/asn1crt_encoding_acn.c:1461-1464. -/
def acnDecLength (n : Nat) : M (Bool × U64) := acnDecUIntConstSize n

/-- `milbus_encode`, asn1crt/asn1crt_encoding_acn.c:1466-1469. -/
def milbusEncode (v : Int) : Int := if v = 32 then 0 else v

/-- `milbus_decode`, asn1crt/asn1crt_encoding_acn.c:1471-1474. -/
def milbusDecode (v : Int) : Int := if v = 0 then 32 else v

/-- The unsigned narrowing wrappers `Acn_Dec_Int_..._UInt8/UInt16/UInt32`, asn1crt/asn1crt_encoding_acn.c:1477-2058
(each calls one wide decoder and casts the result to `w` bits; the wide decoder is the argument `f`). -/
def acnNarrowU (w : Nat) (f : M (Bool × U64)) : M (Bool × BitVec w) := do
  let r ← f
  pure (r.1, r.2.setWidth w)

/-- The signed narrowing wrappers `Acn_Dec_Int_..._Int8/Int16/Int32`, asn1crt/asn1crt_encoding_acn.c:1477-2058 (casts
to a narrower signed type take GCC's documented meaning, two's complement). -/
def acnNarrowS (w : Nat) (f : M (Bool × Int)) : M (Bool × Int) := do
  let r ← f
  pure (r.1, (BitVec.ofInt w r.2).toInt)

end Asn1
