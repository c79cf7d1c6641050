import Verif.Model.Float
/-!
# REAL

Models `/repo/asn1crt/asn1crt_encoding.c` lines 1036-1321 (`FP_WORD_SIZE == 8`, without `USE_LDEXP`, which nothing defines)
and `Asn1Real_Equal` of `/repo/asn1crt/asn1crt.c`.
-/
namespace Asn1

/-- The result of an operation of type `int`: undefined when it does not fit 32 bits. -/
def chk32 (x : Int) : M Int := if -(2 ^ 31) ≤ x ∧ x < 2 ^ 31 then pure x else mUb

/-- `CalculateMantissaAndExponent`, asn1crt/asn1crt_encoding.c:1077-1110: exponent and mantissa. The subtraction is done
on 64 bit unsigned numbers, the conversion to `int` keeps the low 32 bits. -/
def calculateMantissaAndExponent (d : Dbl) : Int × U64 :=
  ((((d &&& 0x7FF0000000000000#64) >>> 52) - 1023#64 - 52#64).setWidth 32 |>.toInt,
    (d &&& 0x000FFFFFFFFFFFFF#64) ||| 0x0010000000000000#64)

/-- The loops `while (exponent) { ret = ret * 2.0; exponent--; }`, asn1crt/asn1crt_encoding.c:1122-1125, 1130-1133. -/
def powLoop : Nat → Dbl → Dbl
  | 0, ret => ret
  | n + 1, ret => powLoop n (dblMul ret 0x4000000000000000#64)

/-- `GetDoubleByMantissaAndExp`, asn1crt/asn1crt_encoding.c:1112-1137. `-exponent` overflows for the least `int`. -/
def getDoubleByMantissaAndExp (mantissa : U64) (exponent : Int) : M Dbl :=
  if mantissa = 0#64 then pure 0#64
  else if exponent ≥ 0 then pure (dblMul (dblOfU64 mantissa) (powLoop exponent.toNat 0x3FF0000000000000#64))
  else do
    let k ← chk32 (-exponent)
    pure (dblDiv (dblOfU64 mantissa) (powLoop k.toNat 0x3FF0000000000000#64))

/-- `BitStream_EncodeReal` from line 1181 on, asn1crt/asn1crt_encoding.c:1181-1217: `v` is positive, `header` has the
sign. -/
def encodeRealBinary (header : Byte) (v : Dbl) : M Unit := do
  let exponent := (calculateMantissaAndExponent v).1
  let mantissa := (calculateMantissaAndExponent v).2
  let nExpLen ← getLengthInBytesOfSInt exponent
  let nManLen := getLengthInBytesOfUInt mantissa
  assertC (decide (nExpLen ≤ 3))
  let header := if nExpLen = 2 then header ||| 1#8 else if nExpLen = 3 then header ||| 2#8 else header
  encodeConstraintWholeNumber (1 + nExpLen + nManLen : Nat) 0 0xFF
  encodeConstraintWholeNumber header.toNat 0 0xFF
  (if exponent ≥ 0 then do
    appendNBitZero ((nExpLen * 8 : Nat) - getNumberOfBits (BitVec.ofInt 64 exponent))
    encodeNonNegativeInteger (BitVec.ofInt 64 exponent)
  else do
    appendNBitOne ((nExpLen * 8 : Nat) - (getNumberOfBits (BitVec.ofInt 64 (-exponent - 1)) : Int)).toNat
    encodeNonNegativeIntegerNeg (BitVec.ofInt 64 (-exponent - 1)) true)
  appendNBitZero ((nManLen * 8 : Nat) - getNumberOfBits mantissa)
  encodeNonNegativeInteger mantissa

/-- `BitStream_EncodeReal`, asn1crt/asn1crt_encoding.c:1142-1217. -/
def encodeReal (v : Dbl) : M Unit :=
  if dblIsNan v then do
    encodeConstraintWholeNumber 1 0 0xFF
    encodeConstraintWholeNumber 0x42 0 0xFF
  else if dblEq v 0#64 then encodeConstraintWholeNumber 0 0 0xFF
  else if dblEq v 0x8000000000000000#64 then do
    encodeConstraintWholeNumber 1 0 0xFF
    encodeConstraintWholeNumber 0x43 0 0xFF
  else if dblEq v dblInf then do
    encodeConstraintWholeNumber 1 0 0xFF
    encodeConstraintWholeNumber 0x40 0 0xFF
  else if dblEq v (dblNeg dblInf) then do
    encodeConstraintWholeNumber 1 0 0xFF
    encodeConstraintWholeNumber 0x41 0 0xFF
  else if dblLt v 0#64 then encodeRealBinary (0x80#8 ||| 0x40#8) (dblNeg v)
  else encodeRealBinary 0x80#8 v

/-- The loop over the exponent octets, asn1crt/asn1crt_encoding.c:1296-1301; `exponent` is an `int`, `<<` has GCC's
documented meaning. -/
def exponentLoop : (k : Nat) → BitVec 32 → M (Bool × BitVec 32)
  | 0, e => pure (true, e)
  | k + 1, e => do
    let r ← readByte
    if r.1 then exponentLoop k ((e <<< 8) ||| r.2.setWidth 32) else pure (false, e)

/-- `DecodeRealAsBinaryEncoding`, asn1crt/asn1crt_encoding.c:1263-1321; `length` counts the octets behind the header. The
loop over the mantissa octets (1305-1310) is `decodeBytesLoop`. -/
def decodeRealBinary (length : Nat) (header : Byte) : M (Bool × Dbl) := do
  let neg := decide (header &&& 0x40#8 ≠ 0#8)
  let expFactor : Int := if header &&& 0x10#8 ≠ 0#8 then 3 else if header &&& 0x20#8 ≠ 0#8 then 4 else 1
  let factor : U64 := 1#64 <<< ((header &&& 0x0C#8) >>> 2).toNat
  let expLen := (header &&& 0x03#8).toNat + 1
  if expLen > length then pure (false, 0#64) else do
    let expIsNegative ← peekBit
    let e ← exponentLoop expLen (if expIsNegative then 0xFFFFFFFF#32 else 0#32)
    if e.1 then do
      let n ← decodeBytesLoop (length - expLen) 0#64
      if n.1 then do
        let x ← chk32 (expFactor * e.2.toInt)
        let v ← getDoubleByMantissaAndExp (n.2 * factor) x
        pure (true, if neg then dblNeg v else v)
      else pure (false, 0#64)
    else pure (false, 0#64)

/-- `BitStream_DecodeReal`, asn1crt/asn1crt_encoding.c:1221-1260. On failure C leaves `*v` unchanged; the model reports 0. -/
def decodeReal : M (Bool × Dbl) := do
  let length ← readByte
  if length.1 then
    if length.2 = 0#8 then pure (true, 0#64) else do
      let header ← readByte
      if header.1 then
        if header.2 = 0x40#8 then pure (true, dblInf)
        else if header.2 = 0x41#8 then pure (true, dblNeg dblInf)
        else if header.2 = 0x42#8 then pure (true, dblNan)
        else if header.2 = 0x43#8 then pure (true, 0x8000000000000000#64)
        else decodeRealBinary (length.2.toNat - 1) header.2
      else pure (false, 0#64)
  else pure (false, 0#64)

/-- `Asn1Real_Equal`, asn1crt/asn1crt.c:58-70; the last constant is the double nearest to 0.99999. -/
def asn1RealEqual (left right : Dbl) : Bool :=
  if dblEq left right then true
  else if dblEq left 0#64 then dblEq right 0#64
  else if (dblLt 0#64 left && dblLt right 0#64) || (dblLt left 0#64 && dblLt 0#64 right) then false
  else if dblLt (dblAbs right) (dblAbs left) then dblLe 0x3FEFFFEB074A771D#64 (dblDiv (dblAbs right) (dblAbs left))
  else dblLe 0x3FEFFFEB074A771D#64 (dblDiv (dblAbs left) (dblAbs right))

end Asn1
