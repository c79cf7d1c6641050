import Verif.Model.BitStream

/-!
# Integer codecs

Models `/repo/asn1crt/asn1crt_encoding.c` lines 527-1025 and `/repo/asn1crt/asn1crt.c` lines 8-47,
for `WORD_SIZE == 8`.

`asn1SccSint` values are integers; every signed addition, subtraction and negation goes through `chk`,
which is undefined outside the range of a 64-bit signed integer. A cast to `asn1SccUint` is `BitVec.ofInt 64`,
a cast back is `BitVec.toInt`.
-/
namespace Asn1

/-- `masks2[]`, asn1crt/asn1crt_encoding.c:13-17. -/
def masks2 : List U32 := [0x0#32, 0xFF#32, 0xFF00#32, 0xFF0000#32, 0xFF000000#32]

/-- Is the integer representable as `asn1SccSint` (`int64_t`, asn1crt/asn1crt.h:100, 105)? -/
def inS64 (x : Int) : Bool := decide (-(2 ^ 63) ≤ x ∧ x < 2 ^ 63)

/-- Result of a signed 64-bit operation: undefined on overflow. -/
def chk (x : Int) : M Int := if inS64 x then pure x else mUb

/-- The loop `while ((v & curMask) == 0)`, asn1crt/asn1crt_encoding.c:563-566. `fuel` bounds the number of
iterations; the first mask is one of the top eight bits of a non-zero byte, so eight are enough. -/
def findMsb : (fuel : Nat) → (v curMask : U32) → (cc : Nat) → Nat
  | 0, _, _, cc => cc
  | fuel + 1, v, curMask, cc =>
    if v &&& curMask = 0#32 then findMsb fuel v (curMask >>> 1) (cc - 1) else cc

/-- The loop `while (cc)`, asn1crt/asn1crt_encoding.c:574-578; `k` is `cc / 8`. -/
def encodeNN32Bytes (v : U32) (negate : Bool) : (k : Nat) → M Unit
  | 0 => pure ()
  | k + 1 => do
    let m ← tblGet masks2 (k + 1)
    let t1 := v &&& m
    appendByte ((t1 >>> (8 * k)).setWidth 8) negate
    encodeNN32Bytes v negate k

/-- `BitStream_EncodeNonNegativeInteger32Neg`, asn1crt/asn1crt_encoding.c:535-580. -/
def encodeNonNegativeInteger32Neg (v : U32) (negate : Bool) : M Unit :=
  if v = 0#32 then pure () else
  let cc :=
    if v < 0x100#32 then findMsb 8 v 0x80#32 8
    else if v < 0x10000#32 then findMsb 8 v 0x8000#32 16
    else if v < 0x1000000#32 then findMsb 8 v 0x800000#32 24
    else findMsb 8 v 0x80000000#32 32
  let pbits := cc % 8
  let cc' := cc - pbits
  do
    (if pbits ≠ 0 then appendPartialByte ((v >>> cc').setWidth 8) pbits negate else pure ())
    encodeNN32Bytes v negate (cc' / 8)

/-- The loop `while (nBits >= 8)`, asn1crt/asn1crt_encoding.c:588-594; `k` iterations left. -/
def decodeNN32Bytes : (k : Nat) → (v : U32) → M (Bool × U32)
  | 0, v => pure (true, v)
  | k + 1, v => do
    let v := v <<< 8
    let r ← readByte
    if r.1 then decodeNN32Bytes k (v ||| r.2.setWidth 32) else pure (false, v)

/-- `BitStream_DecodeNonNegativeInteger32Neg`, asn1crt/asn1crt_encoding.c:582-604. -/
def decodeNonNegativeInteger32Neg (nBits : Nat) : M (Bool × U32) := do
  let r ← decodeNN32Bytes (nBits / 8) 0#32
  if r.1 then
    if nBits % 8 ≠ 0 then do
      let v := r.2 <<< (nBits % 8)
      let p ← readPartialByte (nBits % 8)
      if p.1 then pure (true, v ||| p.2.setWidth 32) else pure (false, v)
    else pure (true, r.2)
  else pure (false, r.2)

/-- The loop `while (v>0)`, asn1crt/asn1crt_encoding.c:698-701. `fuel` bounds the number of iterations; the
value is below 256 there, so eight are enough. -/
def countBits : (fuel : Nat) → (v : U32) → (ret : Nat) → Nat
  | 0, _, ret => ret
  | fuel + 1, v, ret => if v > 0#32 then countBits fuel (v >>> 1) (ret + 1) else ret

/-- `GetNumberOfBitsForNonNegativeInteger32`, asn1crt/asn1crt_encoding.c:679-703. -/
def getNumberOfBits32 (v : U32) : Nat :=
  if v < 0x100#32 then countBits 8 v 0
  else if v < 0x10000#32 then countBits 8 (v >>> 8) 8
  else if v < 0x1000000#32 then countBits 8 (v >>> 16) 16
  else countBits 8 (v >>> 24) 24

/-- `GetNumberOfBitsForNonNegativeInteger`, asn1crt/asn1crt_encoding.c:705-717. -/
def getNumberOfBits (v : U64) : Nat :=
  if v < 0x100000000#64 then getNumberOfBits32 (v.setWidth 32)
  else 32 + getNumberOfBits32 ((v >>> 32).setWidth 32)

/-- `BitStream_EncodeNonNegativeInteger`, asn1crt/asn1crt_encoding.c:608-627. -/
def encodeNonNegativeInteger (v : U64) : M Unit :=
  if v < 0x100000000#64 then encodeNonNegativeInteger32Neg (v.setWidth 32) false
  else do
    let hi : U32 := (v >>> 32).setWidth 32
    let lo : U32 := v.setWidth 32
    encodeNonNegativeInteger32Neg hi false
    let nBits := getNumberOfBits (lo.setWidth 64)
    appendNBitZero (32 - nBits)
    encodeNonNegativeInteger32Neg lo false

/-- `BitStream_EncodeNonNegativeIntegerNeg`, asn1crt/asn1crt_encoding.c:656-677. -/
def encodeNonNegativeIntegerNeg (v : U64) (negate : Bool) : M Unit :=
  if v < 0x100000000#64 then encodeNonNegativeInteger32Neg (v.setWidth 32) negate
  else do
    let hi : U32 := (v >>> 32).setWidth 32
    let lo : U32 := v.setWidth 32
    encodeNonNegativeInteger32Neg hi negate
    let lo := if negate then ~~~lo else lo
    let nBits := getNumberOfBits (lo.setWidth 64)
    appendNBitZero (32 - nBits)
    encodeNonNegativeInteger32Neg lo false

/-- `BitStream_DecodeNonNegativeInteger`, asn1crt/asn1crt_encoding.c:630-653. -/
def decodeNonNegativeInteger (nBits : Nat) : M (Bool × U64) :=
  if nBits ≤ 32 then do
    let r ← decodeNonNegativeInteger32Neg nBits
    pure (r.1, r.2.setWidth 64)
  else do
    let h ← decodeNonNegativeInteger32Neg 32
    if h.1 then do
      let l ← decodeNonNegativeInteger32Neg (nBits - 32)
      if nBits - 32 < 64 then pure (l.1, ((h.2.setWidth 64) <<< (nBits - 32)) ||| l.2.setWidth 64) else mUb
    else
      if nBits - 32 < 64 then pure (false, (h.2.setWidth 64) <<< (nBits - 32)) else mUb

/-- `GetLengthInBytesOfUInt`, asn1crt/asn1crt_encoding.c:719-737. -/
def getLengthInBytesOfUInt (v : U64) : Nat :=
  let ret := if v > 0xFFFFFFFF#64 then 4 else 0
  let v32 : U32 := if v > 0xFFFFFFFF#64 then (v >>> 32).setWidth 32 else v.setWidth 32
  if v32 < 0x100#32 then ret + 1
  else if v32 < 0x10000#32 then ret + 2
  else if v32 < 0x1000000#32 then ret + 3
  else ret + 4

/-- `GetLengthSIntHelper`, asn1crt/asn1crt_encoding.c:739-757. -/
def getLengthSIntHelper (v : U64) : Nat :=
  let ret := if v > 0x7FFFFFFF#64 then 4 else 0
  let v32 : U32 := if v > 0x7FFFFFFF#64 then (v >>> 32).setWidth 32 else v.setWidth 32
  if v32 ≤ 0x7F#32 then ret + 1
  else if v32 ≤ 0x7FFF#32 then ret + 2
  else if v32 ≤ 0x7FFFFF#32 then ret + 3
  else ret + 4

/-- The expression `-v - 1` on `asn1SccSint`, asn1crt/asn1crt_encoding.c:764, 996, 997 and asn1crt.c:29:
two signed operations. -/
def negMinusOne (v : Int) : M Int := do
  let n ← chk (-v)
  chk (n - 1)

/-- `GetLengthInBytesOfSInt`, asn1crt/asn1crt_encoding.c:759-765. -/
def getLengthInBytesOfSInt (v : Int) : M Nat :=
  if v ≥ 0 then pure (getLengthSIntHelper (BitVec.ofInt 64 v))
  else do
    let w ← negMinusOne v
    pure (getLengthSIntHelper (BitVec.ofInt 64 w))

/-- `BitStream_EncodeConstraintWholeNumber`, asn1crt/asn1crt_encoding.c:769-782. -/
def encodeConstraintWholeNumber (v min max : Int) : M Unit := do
  assertC (decide (min ≤ max))
  let d ← chk (max - min)
  let range : U64 := BitVec.ofInt 64 d
  if range = 0#64 then pure () else do
    let nRangeBits := getNumberOfBits range
    let e ← chk (v - min)
    let nBits := getNumberOfBits (BitVec.ofInt 64 e)
    appendNBitZero ((nRangeBits : Int) - nBits)
    encodeNonNegativeInteger (BitVec.ofInt 64 e)

/-- `BitStream_EncodeConstraintPosWholeNumber`, asn1crt/asn1crt_encoding.c:784-798. -/
def encodeConstraintPosWholeNumber (v min max : U64) : M Unit := do
  assertC (decide (min ≤ v))
  assertC (decide (v ≤ max))
  let range := max - min
  if range = 0#64 then pure () else do
    let nRangeBits := getNumberOfBits range
    let nBits := getNumberOfBits (v - min)
    appendNBitZero ((nRangeBits : Int) - nBits)
    encodeNonNegativeInteger (v - min)

/-- `BitStream_DecodeConstraintWholeNumber`, asn1crt/asn1crt_encoding.c:801-827. Note `*v = 0` on failure. -/
def decodeConstraintWholeNumber (min max : Int) : M (Bool × Int) := do
  let d ← chk (max - min)
  let range : U64 := BitVec.ofInt 64 d
  assertC (decide (min ≤ max))
  if range = 0#64 then pure (true, min) else do
    let nRangeBits := getNumberOfBits range
    let r ← decodeNonNegativeInteger nRangeBits
    if r.1 then
      if r.2 > range then pure (false, 0)
      else do
        let x ← chk (r.2.toInt + min)
        pure (true, x)
    else pure (false, 0)

/-- `BitStream_DecodeConstraintPosWholeNumber`, asn1crt/asn1crt_encoding.c:888-913. -/
def decodeConstraintPosWholeNumber (min max : U64) : M (Bool × U64) := do
  let range := max - min
  assertC (decide (min ≤ max))
  if range = 0#64 then pure (true, min) else do
    let nRangeBits := getNumberOfBits range
    let r ← decodeNonNegativeInteger nRangeBits
    if r.1 then
      if r.2 > range then pure (false, 0#64) else pure (true, r.2 + min)
    else pure (false, 0#64)

/-- `BitStream_EncodeSemiConstraintWholeNumber`, asn1crt/asn1crt_encoding.c:916-928. -/
def encodeSemiConstraintWholeNumber (v min : Int) : M Unit := do
  assertC (decide (v ≥ min))
  let d ← chk (v - min)
  let u : U64 := BitVec.ofInt 64 d
  let nBytes := getLengthInBytesOfUInt u
  encodeConstraintWholeNumber nBytes 0 255
  appendNBitZero ((nBytes : Int) * 8 - getNumberOfBits u)
  encodeNonNegativeInteger u

/-- `BitStream_EncodeSemiConstraintPosWholeNumber`, asn1crt/asn1crt_encoding.c:930-942. -/
def encodeSemiConstraintPosWholeNumber (v min : U64) : M Unit := do
  assertC (decide (v ≥ min))
  let nBytes := getLengthInBytesOfUInt (v - min)
  encodeConstraintWholeNumber nBytes 0 255
  appendNBitZero ((nBytes : Int) * 8 - getNumberOfBits (v - min))
  encodeNonNegativeInteger (v - min)

/-- The loop `for (i = 0; i<nBytes; i++)` of the length-prefixed decoders, asn1crt/asn1crt_encoding.c:954-959,
973-978 and 1017-1022; `k` iterations left. The signed `<<` of lines 958 and 1021 is taken with GCC's
documented meaning (two's complement). -/
def decodeBytesLoop : (k : Nat) → (v : U64) → M (Bool × U64)
  | 0, v => pure (true, v)
  | k + 1, v => do
    let r ← readByte
    if r.1 then decodeBytesLoop k ((v <<< 8) ||| r.2.setWidth 64) else pure (false, v)

/-- `BitStream_DecodeSemiConstraintWholeNumber`, asn1crt/asn1crt_encoding.c:945-962. -/
def decodeSemiConstraintWholeNumber (min : Int) : M (Bool × Int) := do
  let n ← decodeConstraintWholeNumber 0 255
  if n.1 then
    if n.2 > 8 then pure (false, 0) else do
      let r ← decodeBytesLoop n.2.toNat 0#64
      if r.1 then do
        let x ← chk (r.2.toInt + min)
        pure (true, x)
      else pure (false, r.2.toInt)
  else pure (false, 0)

/-- `BitStream_DecodeSemiConstraintPosWholeNumber`, asn1crt/asn1crt_encoding.c:964-981. -/
def decodeSemiConstraintPosWholeNumber (min : U64) : M (Bool × U64) := do
  let n ← decodeConstraintWholeNumber 0 255
  if n.1 then
    if n.2 > 8 then pure (false, 0#64) else do
      let r ← decodeBytesLoop n.2.toNat 0#64
      if r.1 then pure (true, r.2 + min) else pure (false, r.2)
  else pure (false, 0#64)

/-- `BitStream_EncodeUnConstraintWholeNumber`, asn1crt/asn1crt_encoding.c:984-999. -/
def encodeUnConstraintWholeNumber (v : Int) : M Unit := do
  let nBytes ← getLengthInBytesOfSInt v
  encodeConstraintWholeNumber nBytes 0 255
  if v ≥ 0 then do
    appendNBitZero ((nBytes : Int) * 8 - getNumberOfBits (BitVec.ofInt 64 v))
    encodeNonNegativeInteger (BitVec.ofInt 64 v)
  else do
    let w ← negMinusOne v
    -- Simplification: a negative count makes the C loops run zero times, `Int.toNat` does the same.
    appendNBitOne ((nBytes : Int) * 8 - getNumberOfBits (BitVec.ofInt 64 w)).toNat
    encodeNonNegativeIntegerNeg (BitVec.ofInt 64 w) true

/-- `BitStream_DecodeUnConstraintWholeNumber`, asn1crt/asn1crt_encoding.c:1001-1025. On failure of the length
C leaves `*v` unchanged; the model reports 0. -/
def decodeUnConstraintWholeNumber : M (Bool × Int) := do
  let n ← decodeConstraintWholeNumber 0 255
  if n.1 then
    if n.2 > 8 then pure (false, 0) else do
      let neg ← peekBit
      let r ← decodeBytesLoop n.2.toNat (if neg then 0xFFFFFFFFFFFFFFFF#64 else 0#64)
      pure (r.1, r.2.toInt)
  else pure (false, 0)

/-- `BitStream_DecodeConstraintWholeNumberInt8`/`Int16`/`Int32`, asn1crt/asn1crt_encoding.c:829-854:
`w` is 8, 16 or 32; the result is truncated to `w` bits (two's complement). -/
def decodeConstraintWholeNumberNarrow (w : Nat) (min max : Int) : M (Bool × Int) := do
  let r ← decodeConstraintWholeNumber min max
  pure (r.1, (BitVec.ofInt w r.2).toInt)

/-- `BitStream_DecodeConstraintPosWholeNumberUInt8`/`UInt16`/`UInt32`, asn1crt/asn1crt_encoding.c:857-883:
`w` is 8, 16 or 32; the result is truncated to `w` bits. -/
def decodeConstraintPosWholeNumberNarrow (w : Nat) (min max : BitVec w) : M (Bool × BitVec w) := do
  let r ← decodeConstraintPosWholeNumber (min.setWidth 64) (max.setWidth 64)
  pure (r.1, r.2.setWidth w)

/-- `ber_aux[]`, asn1crt/asn1crt.c:9-17. -/
def berAux : List U64 :=
  [0xFF#64, 0xFF00#64, 0xFF0000#64, 0xFF000000#64, 0xFF00000000#64, 0xFF0000000000#64,
   0xFF000000000000#64, 0xFF00000000000000#64]

/-- `int2uint`, asn1crt/asn1crt.c:26-36. -/
def int2uint (v : Int) : M U64 :=
  if v < 0 then do
    let w ← negMinusOne v
    pure (~~~(BitVec.ofInt 64 w))
  else pure (BitVec.ofInt 64 v)

/-- The loop of `uint2int`, asn1crt/asn1crt.c:44-45: `n` iterations left, `i` counts down. -/
def uint2intLoop : (n i : Nat) → U64 → M U64
  | 0, _, v => pure v
  | n + 1, i, v => do
    let a ← tblGet berAux i
    uint2intLoop n (i - 1) (v ||| a)

/-- `uint2int`, asn1crt/asn1crt.c:38-47. `uintSizeInBytes` 1..8 (0 is an undefined shift). -/
def uint2int (v : U64) (n : Nat) : M Int :=
  if n = 0 ∨ (n - 1) * 8 ≥ 64 then mUb else
  let isNeg := decide (v &&& (0x80#64 <<< ((n - 1) * 8)) > 0#64)
  if !isNeg then pure v.toInt
  else do
    let v ← uint2intLoop (8 - n) 7 v
    let x ← chk (-((~~~v).toInt))
    chk (x - 1)

end Asn1
