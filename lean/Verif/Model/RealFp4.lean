import Verif.Model.Float32
/-!
# REAL in the runtime compiled with `FP_WORD_SIZE` 4

asn1crt/asn1crt_encoding.c:1061-1321 with `asn1Real` = `float` (option `-fpWordSize 4`). Products and quotients of `float` are modelled by those
of `double`, rounded to `float`: the product of two 24 bit numbers fits a `double`, and the quotient is the correctly rounded one because 53
is at least 2 * 24 + 2.
-/
namespace Asn1

/-- `-f`, asn1crt/asn1crt_encoding.c:1183, 1317. -/
def fltNeg (f : Flt) : Flt := f ^^^ 0x80000000#32

/-- `(asn1Real)mantissa`, asn1crt/asn1crt_encoding.c:1126, 1134: the nearest `float`, ties to even. -/
def fltOfU64 (n : U64) : Flt :=
  if n = 0#64 then 0#32
  else
    let q : Int := max ((Nat.log2 n.toNat : Int) - 23) (-149)
    fltMake false ((q + 149).toNat * 2 ^ 23 + rne (n.toNat * 2 ^ (-q).toNat) (2 ^ q.toNat))

/-- `CalculateMantissaAndExponent`, asn1crt/asn1crt_encoding.c:1086-1092, 1104-1108: the `#else` branches. -/
def calculateMantissaAndExponent4 (f : Flt) : Int × U64 :=
  ((((f &&& 0x7F800000#32) >>> 23) - 127#32 - 23#32).toInt, ((f &&& 0x007FFFFF#32) ||| 0x00800000#32).setWidth 64)

/-- The loops `while (exponent) { ret = ret * 2.0; exponent--; }`, asn1crt/asn1crt_encoding.c:1122-1125, 1130-1133: the product is a `double`,
`ret` is a `float`. -/
def powLoop4 : Nat → Flt → Flt
  | 0, ret => ret
  | n + 1, ret => powLoop4 n (doubleToFloat (dblMul (floatToDouble ret) 0x4000000000000000#64))

/-- `GetDoubleByMantissaAndExp`, asn1crt/asn1crt_encoding.c:1112-1137. -/
def getFloatByMantissaAndExp (mantissa : U64) (exponent : Int) : M Flt :=
  if mantissa = 0#64 then pure 0#32
  else if exponent ≥ 0 then
    pure (doubleToFloat (dblMul (floatToDouble (fltOfU64 mantissa)) (floatToDouble (powLoop4 exponent.toNat 0x3F800000#32))))
  else do
    let k ← chk32 (-exponent)
    pure (doubleToFloat (dblDiv (floatToDouble (fltOfU64 mantissa)) (floatToDouble (powLoop4 k.toNat 0x3F800000#32))))

/-- `BitStream_EncodeReal` from line 1181 on, asn1crt/asn1crt_encoding.c:1181-1217: `v` is positive, `header` has the
sign. -/
def encodeRealBinary4 (header : Byte) (v : Flt) : M Unit := do
  let exponent := (calculateMantissaAndExponent4 v).1
  let mantissa := (calculateMantissaAndExponent4 v).2
  let nExpLen ← getLengthInBytesOfSInt exponent
  let nManLen := getLengthInBytesOfUInt mantissa
  assertC (decide (nExpLen ≤ 3))
  let header := if nExpLen = 2 then header ||| 1#8 else if nExpLen = 3 then header ||| 2#8 else header
  encodeConstraintWholeNumber (1 + nExpLen + nManLen : Nat) 0 0xFF
  encodeConstraintWholeNumber header.toNat 0 0xFF
  (if exponent ≥ 0 then do
    appendNBitZero ((nExpLen * 8 : Nat) - getNumberOfBits (BitVec.ofInt 64 exponent))
    encodeNonNegativeInteger (BitVec.ofInt 64 exponent)
  else do
    appendNBitOne ((nExpLen * 8 : Nat) - (getNumberOfBits (BitVec.ofInt 64 (-exponent - 1)) : Int)).toNat
    encodeNonNegativeIntegerNeg (BitVec.ofInt 64 (-exponent - 1)) true)
  appendNBitZero ((nManLen * 8 : Nat) - getNumberOfBits mantissa)
  encodeNonNegativeInteger mantissa

/-- `BitStream_EncodeReal`, asn1crt/asn1crt_encoding.c:1142-1217; the comparisons are those of `double`. -/
def encodeReal4 (v : Flt) : M Unit :=
  if dblIsNan (floatToDouble v) then do
    encodeConstraintWholeNumber 1 0 0xFF
    encodeConstraintWholeNumber 0x42 0 0xFF
  else if dblEq (floatToDouble v) 0#64 then encodeConstraintWholeNumber 0 0 0xFF
  else if dblEq (floatToDouble v) 0x8000000000000000#64 then do
    encodeConstraintWholeNumber 1 0 0xFF
    encodeConstraintWholeNumber 0x43 0 0xFF
  else if dblEq (floatToDouble v) dblInf then do
    encodeConstraintWholeNumber 1 0 0xFF
    encodeConstraintWholeNumber 0x40 0 0xFF
  else if dblEq (floatToDouble v) (dblNeg dblInf) then do
    encodeConstraintWholeNumber 1 0 0xFF
    encodeConstraintWholeNumber 0x41 0 0xFF
  else if dblLt (floatToDouble v) 0#64 then encodeRealBinary4 (0x80#8 ||| 0x40#8) (fltNeg v)
  else encodeRealBinary4 0x80#8 v

/-- `DecodeRealAsBinaryEncoding`, asn1crt/asn1crt_encoding.c:1263-1321; `length` counts the octets behind the header. The
loop over the mantissa octets (1305-1310) is `decodeBytesLoop`. -/
def decodeRealBinary4 (length : Nat) (header : Byte) : M (Bool × Flt) := do
  let neg := decide (header &&& 0x40#8 ≠ 0#8)
  let expFactor : Int := if header &&& 0x10#8 ≠ 0#8 then 3 else if header &&& 0x20#8 ≠ 0#8 then 4 else 1
  let factor : U64 := 1#64 <<< ((header &&& 0x0C#8) >>> 2).toNat
  let expLen := (header &&& 0x03#8).toNat + 1
  if expLen > length then pure (false, 0#32) else do
    let expIsNegative ← peekBit
    let e ← exponentLoop expLen (if expIsNegative then 0xFFFFFFFF#32 else 0#32)
    if e.1 then do
      let n ← decodeBytesLoop (length - expLen) 0#64
      if n.1 then do
        let x ← chk32 (expFactor * e.2.toInt)
        let v ← getFloatByMantissaAndExp (n.2 * factor) x
        pure (true, if neg then fltNeg v else v)
      else pure (false, 0#32)
    else pure (false, 0#32)

/-- `BitStream_DecodeReal`, asn1crt/asn1crt_encoding.c:1221-1260. On failure C leaves `*v` unchanged; the model reports 0. -/
def decodeReal4 : M (Bool × Flt) := do
  let length ← readByte
  if length.1 then
    if length.2 = 0#8 then pure (true, 0#32) else do
      let header ← readByte
      if header.1 then
        if header.2 = 0x40#8 then pure (true, 0x7F800000#32)
        else if header.2 = 0x41#8 then pure (true, fltNeg 0x7F800000#32)
        else if header.2 = 0x42#8 then pure (true, 0x7FC00000#32)
        else if header.2 = 0x43#8 then pure (true, 0x80000000#32)
        else decodeRealBinary4 (length.2.toNat - 1) header.2
      else pure (false, 0#32)
  else pure (false, 0#32)

end Asn1
