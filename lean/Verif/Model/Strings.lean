import Verif.Model.Integer
/-!
# Octet strings and bit strings: asn1crt/asn1crt_encoding.c, lines 1471-1783

Lengths and offsets are natural numbers: C uses `int` and `asn1SccSint` and the model has no overflow of
`int` counters (sizes of 2^31 and more). The destination array of a decoder is passed in and out as a byte
list that stands for the caller's whole object: a store outside it is undefined behaviour.
Loops carry a step budget that is proved sufficient; running out of it is the outcome `ub`.
-/
namespace Asn1

/-- `arr[i] = b` for a destination array. -/
def arrSet (arr : List Byte) (i : Nat) (b : Byte) : M (List Byte) :=
  if i < arr.length then pure (arr.set i b) else mUb

/-- Storing the `n` bytes `l` at `&arr[off]` (`memcpy` or a loop). Conservative: all `n` bytes must fit even if
fewer are stored because the input ends. -/
def arrPut (arr : List Byte) (off n : Nat) (l : List Byte) : M (List Byte) :=
  if off + n ≤ arr.length then pure (arr.take off ++ l ++ arr.drop (off + l.length)) else mUb

/-- `for (i1 = off; i1 < off + n && ret; i1++) ret = BitStream_AppendByte0(pBitStrm, arr[i1]);`
asn1crt/asn1crt_encoding.c:1501-1504 and 1517-1520. -/
def appendBytesLoop (arr : List Byte) : (n off : Nat) → M Bool
  | 0, _ => pure true
  | n + 1, off => do
    let b ← tblGet arr off
    let ret ← appendByte0 b
    if ret then appendBytesLoop arr n (off + 1) else pure false

/-- `for (i1 = off; ret && i1 < off + n; i1++) ret = BitStream_ReadByte(pBitStrm, &arr[i1]);`
asn1crt/asn1crt_encoding.c:1550-1553 and 1576-1579. -/
def readBytesLoop : (n off : Nat) → List Byte → M (Bool × List Byte)
  | 0, _, arr => pure (true, arr)
  | n + 1, off, arr => do
    let p ← readByte
    let arr ← arrSet arr off p.2
    if p.1 then readBytesLoop n (off + 1) arr else pure (false, arr)

/-- Size of the next block when 0x4000 or more items remain, and its length octet:
asn1crt/asn1crt_encoding.c:1480-1499 (same at 1660-1679). -/
def blockFor (rem : Nat) : Nat × Int :=
  if rem ≥ 0x10000 then (0x10000, 0xC4)
  else if rem ≥ 0xC000 then (0xC000, 0xC3)
  else if rem ≥ 0x8000 then (0x8000, 0xC2)
  else (0x4000, 0xC1)

/-- The `while` loop of `BitStream_EncodeOctetString_fragmentation` (asn1crt/asn1crt_encoding.c:1478-1507) and of
`BitStream_EncodeBitString` (1658-1684). `blk off n` writes the items `off .. off+n-1` and reports success.
Result: `ret`, items left, offset. -/
def fragEncodeLoop (blk : (off n : Nat) → M Bool) : (fuel rem off : Nat) → M (Bool × Nat × Nat)
  | 0, _, _ => mUb
  | fuel + 1, rem, off =>
    if rem ≥ 0x4000 then do
      encodeConstraintWholeNumber (blockFor rem).2 0 0xFF
      let ret ← blk off (blockFor rem).1
      if ret then fragEncodeLoop blk fuel (rem - (blockFor rem).1) (off + (blockFor rem).1)
      else pure (false, rem - (blockFor rem).1, off + (blockFor rem).1)
    else pure (true, rem, off)

/-- The length of the last block: asn1crt/asn1crt_encoding.c:1509-1515 (same at 1686-1692). -/
def fragLastLength (rem : Nat) : M Unit :=
  if rem ≤ 0x7F then encodeConstraintWholeNumber rem 0 0xFF
  else do
    appendBit true
    encodeConstraintWholeNumber rem 0 0x7FFF

/-- `BitStream_EncodeOctetString_fragmentation` (asn1crt/asn1crt_encoding.c:1471-1523) and the fragmented branch of
`BitStream_EncodeBitString` (1651-1695): the same control flow around a different block writer. -/
def fragEncode (blk : (off n : Nat) → M Bool) (nCount : Nat) : M Bool := do
  let r ← fragEncodeLoop blk (nCount + 1) nCount 0
  if r.1 then do
    fragLastLength r.2.1
    blk r.2.2 r.2.1
  else pure false

/-- `BitStream_EncodeOctetString_fragmentation`, asn1crt/asn1crt_encoding.c:1471-1523. -/
def encodeOctetStringFragmentation (arr : List Byte) (nCount : Nat) : M Bool :=
  fragEncode (fun off n => appendBytesLoop arr n off) nCount

/-- Size announced by a block octet `11xxxxxx`; `none`: neither of the four cases.
asn1crt/asn1crt_encoding.c:1538-1547 (same at 1729-1738). -/
def blockSizeOf (b : Nat) : Option Nat :=
  if b = 0xC4 then some 0x10000
  else if b = 0xC3 then some 0xC000
  else if b = 0xC2 then some 0x8000
  else if b = 0xC1 then some 0x4000
  else none

/-- The `while` loop of `BitStream_DecodeOctetString_fragmentation` (asn1crt/asn1crt_encoding.c:1536-1561) and of
`BitStream_DecodeBitString` (1727-1751). `blk off n st` reads `n` items into the destination at `off`.
`nLengthTmp1` and `nCurOffset1` always have the same value and are one variable here. Result: `ret`, last
length octet, offset, destination. -/
def fragDecodeLoop {σ : Type} (blk : (off n : Nat) → σ → M (Bool × σ)) (asn1SizeMax : Nat) :
    (fuel rem off : Nat) → σ → M (Bool × (Nat × Nat × σ))
  | 0, _, _, _ => mUb
  | fuel + 1, rem, off, st =>
    if rem &&& 0xC0 = 0xC0 then
      match blockSizeOf rem with
      | none => pure (false, (rem, off, st))
      | some cur =>
        if off + cur ≤ asn1SizeMax then do
          let p ← blk off cur st
          if p.1 then do
            let q ← decodeConstraintWholeNumber 0 0xFF
            if q.1 then fragDecodeLoop blk asn1SizeMax fuel q.2.toNat (off + cur) p.2
            else pure (false, (q.2.toNat, off + cur, p.2))
          else pure (false, (rem, off, p.2))
        else pure (false, (rem, off, st))
    else pure (true, (rem, off, st))

/-- Length of the last block: asn1crt/asn1crt_encoding.c:1563-1572 (same at 1753-1762). -/
def fragDecodeLast (rem : Nat) : M (Bool × Nat) :=
  if rem &&& 0x80 > 0 then do
    let q ← decodeConstraintWholeNumber 0 0xFF
    if q.1 then pure (true, ((rem <<< 8) ||| q.2.toNat) &&& 0x7FFF) else pure (false, rem <<< 8)
  else pure (true, rem)

/-- `BitStream_DecodeOctetString_fragmentation` (asn1crt/asn1crt_encoding.c:1525-1597) and the fragmented branch of
`BitStream_DecodeBitString` (1717-1778). Result: `ret`, `*nCount` (0 when C does not assign it), destination. -/
def fragDecode {σ : Type} (blk : (off n : Nat) → σ → M (Bool × σ)) (asn1SizeMax : Nat) (st : σ) : M (Bool × (Nat × σ)) := do
  let q ← decodeConstraintWholeNumber 0 0xFF
  if q.1 then do
    let r ← fragDecodeLoop blk asn1SizeMax (asn1SizeMax + 1) q.2.toNat 0 st
    if r.1 then do
      let l ← fragDecodeLast r.2.1
      if l.1 then
        if r.2.2.1 + l.2 ≤ asn1SizeMax then do
          let p ← blk r.2.2.1 l.2 r.2.2.2
          if p.1 then
            if 1 ≤ r.2.2.1 + l.2 ∧ r.2.2.1 + l.2 ≤ asn1SizeMax then pure (true, (r.2.2.1 + l.2, p.2))
            else pure (false, (0, p.2))
          else pure (false, (0, p.2))
        else pure (false, (0, r.2.2.2))
      else pure (false, (0, r.2.2.2))
    else pure (false, (0, r.2.2.2))
  else pure (false, (0, st))

/-- `BitStream_DecodeOctetString_fragmentation`, asn1crt/asn1crt_encoding.c:1525-1597. -/
def decodeOctetStringFragmentation (arr : List Byte) (asn1SizeMax : Nat) : M (Bool × (Nat × List Byte)) :=
  fragDecode (fun off n arr => readBytesLoop n off arr) asn1SizeMax arr

/-- `BitStream_EncodeOctetString`, asn1crt/asn1crt_encoding.c:1601-1618. -/
def encodeOctetString (arr : List Byte) (nCount asn1SizeMin asn1SizeMax : Nat) : M Bool :=
  if asn1SizeMin ≤ nCount ∧ nCount ≤ asn1SizeMax then
    if asn1SizeMax < 65536 then do
      (if asn1SizeMin ≠ asn1SizeMax then encodeConstraintWholeNumber nCount asn1SizeMin asn1SizeMax else pure ())
      encodeOctetStringNoLength arr nCount
    else encodeOctetStringFragmentation arr nCount
  else pure false

/-- `BitStream_DecodeOctetString_no_length` into a destination array, asn1crt/asn1crt_encoding.c:1430-1467: on
failure nothing is stored. -/
def decodeOctetsInto (arr : List Byte) (nCount : Nat) : M (Bool × List Byte) := do
  let p ← decodeOctetStringNoLength nCount
  if p.1 then do
    let arr ← arrPut arr 0 nCount p.2
    pure (true, arr)
  else pure (false, arr)

/-- `BitStream_DecodeOctetString`, asn1crt/asn1crt_encoding.c:1620-1641. Line 1634 ignores the result of
`BitStream_DecodeOctetString_no_length`. -/
def decodeOctetString (arr : List Byte) (asn1SizeMin asn1SizeMax : Nat) : M (Bool × (Nat × List Byte)) :=
  if asn1SizeMax < 65536 then do
    let q ← (if asn1SizeMin < asn1SizeMax then decodeConstraintWholeNumber asn1SizeMin asn1SizeMax
      else pure (true, (asn1SizeMin : Int)))
    if q.1 ∧ (asn1SizeMin : Int) ≤ q.2 ∧ q.2 ≤ asn1SizeMax then do
      let p ← decodeOctetsInto arr q.2.toNat
      pure (true, (q.2.toNat, p.2))
    else pure (false, (q.2.toNat, arr))
  else decodeOctetStringFragmentation arr asn1SizeMax

/-- `BitStream_EncodeBitString`, asn1crt/asn1crt_encoding.c:1644-1699. -/
def encodeBitString (arr : List Byte) (nCount asn1SizeMin asn1SizeMax : Nat) : M Bool :=
  if asn1SizeMax < 65536 then do
    (if asn1SizeMin ≠ asn1SizeMax then encodeConstraintWholeNumber nCount asn1SizeMin asn1SizeMax else pure ())
    appendBits arr nCount
    pure true
  else fragEncode (fun off n => do appendBits (arr.drop (off / 8)) n; pure true) nCount

/-- `BitStream_ReadBits(pBitStrm, &arr[off / 8], n)`: asn1crt/asn1crt_encoding.c:431-447 with its destination.
Conservative: all bytes of the `n` bits must fit. -/
def readBitsInto (off n : Nat) (arr : List Byte) : M (Bool × List Byte) := do
  let p ← readBits n
  let arr ← arrPut arr (off / 8) ((n + 7) / 8) p.2
  pure (p.1, arr)

/-- `BitStream_DecodeBitString`, asn1crt/asn1crt_encoding.c:1701-1783. -/
def decodeBitString (arr : List Byte) (asn1SizeMin asn1SizeMax : Nat) : M (Bool × (Nat × List Byte)) :=
  if asn1SizeMax < 65536 then do
    let q ← (if asn1SizeMin ≠ asn1SizeMax then decodeConstraintWholeNumber asn1SizeMin asn1SizeMax
      else pure (true, (asn1SizeMin : Int)))
    if q.1 then do
      let p ← readBitsInto 0 q.2.toNat arr
      pure (p.1, (q.2.toNat, p.2))
    else pure (false, (0, arr))
  else fragDecode readBitsInto asn1SizeMax arr

end Asn1
