import Verif.Model.Core

/-!
# Bit stream primitives

Models `/repo/asn1crt/asn1crt_encoding.c` lines 10-518 and 1323-1467, build without
`ASN1SCC_STREAMING` (the push/fetch hooks are empty macros there, asn1crt_encoding.h).
-/
namespace Asn1

/-- `masks[]`, asn1crt/asn1crt_encoding.c:10. -/
def masks : List Byte := [0x80#8, 0x40#8, 0x20#8, 0x10#8, 0x08#8, 0x04#8, 0x02#8, 0x01#8]

/-- `masksb[]`, asn1crt/asn1crt_encoding.c:11. -/
def masksb : List Byte :=
  [0x0#8, 0x1#8, 0x3#8, 0x7#8, 0xF#8, 0x1F#8, 0x3F#8, 0x7F#8, 0xFF#8]

/-- `BitStream_Init`, asn1crt/asn1crt_encoding.c:62-71: the first `count` bytes are cleared.
`ub` is the undefined `memset` past the end of the object. -/
def bitStreamInit (buf : List Byte) (count : Nat) : Res BitStream :=
  if count ≤ buf.length then
    .ok { buf := List.replicate count 0#8 ++ buf.drop count, count := count,
          currentByte := 0, currentBit := 0 }
  else .ub

/-- `BitStream_AttachBuffer`, asn1crt/asn1crt_encoding.c:80-88: the buffer is left as it is. -/
def bitStreamAttach (buf : List Byte) (count : Nat) : BitStream :=
  { buf := buf, count := count, currentByte := 0, currentBit := 0 }

/-- `BitStream_GetLength`, asn1crt/asn1crt_encoding.c:98-104. -/
def bitStreamGetLength (s : BitStream) : Nat :=
  if s.currentBit ≠ 0 then s.currentByte + 1 else s.currentByte

/-- The bounds expression `currentByte*8+currentBit <= count*8` used by the asserts,
asn1crt/asn1crt_encoding.c:132, 161, 226, 241, 283, 489, 517. -/
def inBounds (s : BitStream) : Bool :=
  decide (s.currentByte * 8 + s.currentBit ≤ s.count * 8)

/-- The step to the next bit, asn1crt/asn1crt_encoding.c:125-131 (also 154-160, 219-225, 234-240). -/
def stepBit : M Unit := modS fun s =>
  if s.currentBit < 7 then { s with currentBit := s.currentBit + 1 }
  else { s with currentBit := 0, currentByte := s.currentByte + 1 }

/-- `currentByte++`. -/
def incByte : M Unit := modS fun s => { s with currentByte := s.currentByte + 1 }

/-- `assert(currentByte*8+currentBit <= count*8)`. -/
def assertInBounds : M Unit := do
  let s ← getS
  assertC (inBounds s)

/-- `BitStream_AppendBitOne`, asn1crt/asn1crt_encoding.c:121-133. -/
def appendBitOne : M Unit := do
  let s ← getS
  let m ← tblGet masks s.currentBit
  bufOr s.currentByte m
  stepBit
  assertInBounds

/-- `BitStream_AppendBitZero`, asn1crt/asn1crt_encoding.c:150-162. -/
def appendBitZero : M Unit := do
  let s ← getS
  let m ← tblGet masks s.currentBit
  bufAnd s.currentByte (~~~m)
  stepBit
  assertInBounds

/-- `BitStream_AppendBit`, asn1crt/asn1crt_encoding.c:209-227. -/
def appendBit (v : Bool) : M Unit := do
  let s ← getS
  let m ← tblGet masks s.currentBit
  if v then bufOr s.currentByte m else bufAnd s.currentByte (~~~m)
  stepBit
  assertInBounds

/-- `BitStream_AppendNBitZero`, asn1crt/asn1crt_encoding.c:164-179: moves the cursor only, the buffer is
not written. `/` and `%` truncate as in C. Simplification: a negative argument that would make
`currentBit` or `currentByte` negative is `ub` here at once (in C it is at the next access). -/
def appendNBitZero (nbits : Int) : M Unit := do
  let s ← getS
  let totalBits : Int := s.currentBit + nbits
  let totalBytes : Int := totalBits.tdiv 8
  let newBit : Int := totalBits.tmod 8
  if newBit < 0 then mUb else
  if (s.currentByte : Int) + totalBytes ≤ s.count then
    if (s.currentByte : Int) + totalBytes < 0 then mUb else
    modS fun s => { s with currentBit := newBit.toNat,
                           currentByte := ((s.currentByte : Int) + totalBytes).toNat }
  else
    modS fun s => { s with currentBit := newBit.toNat,
                           currentByte := ((s.currentByte : Int) + totalBytes - s.count).toNat }

/-- `BitStream_AppendByte`, asn1crt/asn1crt_encoding.c:271-291. -/
def appendByte (v : Byte) (negate : Bool) : M Unit := do
  let s ← getS
  let cb := s.currentBit
  let ncb := 8 - cb
  let v := if negate then ~~~v else v
  let mb ← tblGet masksb ncb
  bufAnd s.currentByte (~~~mb)
  bufOr s.currentByte (v >>> cb)
  incByte
  assertInBounds
  if cb ≠ 0 then do
    bufAnd (s.currentByte + 1) (~~~(~~~mb))
    bufOr (s.currentByte + 1) (v <<< ncb)
  else pure ()

/-- `BitStream_AppendByte0`, asn1crt/asn1crt_encoding.c:293-312. -/
def appendByte0 (v : Byte) : M Bool := do
  let s ← getS
  let cb := s.currentBit
  let ncb := 8 - cb
  let mb ← tblGet masksb ncb
  bufAnd s.currentByte (~~~mb)
  bufOr s.currentByte (v >>> cb)
  incByte
  if cb ≠ 0 then
    if s.currentByte + 1 ≥ s.count then pure false
    else do
      bufAnd (s.currentByte + 1) (~~~(~~~mb))
      bufOr (s.currentByte + 1) (v <<< ncb)
      pure true
  else pure true

/-- Middle loop of `BitStream_AppendByteArray`, asn1crt/asn1crt_encoding.c:338-345;
`i` is the loop variable, `n` the number of iterations left. -/
def appendByteArrayLoop (arr : List Byte) (cb ncb : Nat) : (n i : Nat) → M Unit
  | 0, _ => pure ()
  | n + 1, i => do
    let v ← tblGet arr i
    let s ← getS
    bufOr s.currentByte (v >>> cb)
    incByte
    bufOr (s.currentByte + 1) (v <<< ncb)
    appendByteArrayLoop arr cb ncb n (i + 1)

/-- `BitStream_AppendByteArray`, asn1crt/asn1crt_encoding.c:314-358. -/
def appendByteArray (arr : List Byte) (arrLen : Nat) : M Bool := do
  let s ← getS
  let cb := s.currentBit
  let ncb := 8 - cb
  let mb ← tblGet masksb ncb
  let mask := ~~~mb
  let nmask := ~~~mask
  if (s.currentByte + arrLen) * 8 + cb > s.count * 8 then pure false
  else do
    (if arrLen > 0 then do
      let v ← tblGet arr 0
      bufAnd s.currentByte mask
      bufOr s.currentByte (v >>> cb)
      incByte
      bufAnd (s.currentByte + 1) nmask
      bufOr (s.currentByte + 1) (v <<< ncb)
    else pure ())
    appendByteArrayLoop arr cb ncb (arrLen - 1 - 1) 1
    (if arrLen - 1 > 0 then do
      let v ← tblGet arr (arrLen - 1)
      let s ← getS
      bufAnd s.currentByte mask
      bufOr s.currentByte (v >>> cb)
      incByte
      if cb ≠ 0 then do
        bufAnd (s.currentByte + 1) nmask
        bufOr (s.currentByte + 1) (v <<< ncb)
      else pure ()
    else pure ())
    pure true

/-- `BitStream_AppendPartialByte`, asn1crt/asn1crt_encoding.c:450-491 (`nbits` 1..7). -/
def appendPartialByte (v : Byte) (nbits : Nat) (negate : Bool) : M Unit := do
  let s ← getS
  let cb := s.currentBit
  let totalBits := cb + nbits
  let ncb := 8 - cb
  let mn ← tblGet masksb (if negate then nbits else 0)
  let v := if negate then mn &&& ~~~v else v
  let mb ← tblGet masksb ncb
  let mask1 := ~~~mb
  if totalBits ≤ 8 then do
    let mask2 ← tblGet masksb (8 - totalBits)
    let mask := mask1 ||| mask2
    bufAnd s.currentByte mask
    bufOr s.currentByte (v <<< (8 - totalBits))
    modS fun s =>
      if s.currentBit + nbits = 8 then { s with currentBit := 0, currentByte := s.currentByte + 1 }
      else { s with currentBit := s.currentBit + nbits }
    assertInBounds
  else do
    let tbn := totalBits - 8
    bufAnd s.currentByte mask1
    bufOr s.currentByte (v >>> tbn)
    incByte
    let mb2 ← tblGet masksb (8 - tbn)
    bufAnd (s.currentByte + 1) (~~~mb2)
    bufOr (s.currentByte + 1) (v <<< (8 - tbn))
    modS fun s => { s with currentBit := tbn }
    assertInBounds

/-- Loop of `BitStream_AppendNBitOne`, asn1crt/asn1crt_encoding.c:185-188. -/
def appendNBytesOne : Nat → M Unit
  | 0 => pure ()
  | n + 1 => do
    appendByte 0xFF#8 false
    appendNBytesOne n

/-- Loop of `BitStream_AppendNBitOne`, asn1crt/asn1crt_encoding.c:189-190. -/
def appendNBitsOne : Nat → M Unit
  | 0 => pure ()
  | n + 1 => do
    appendBitOne
    appendNBitsOne n

/-- `BitStream_AppendNBitOne`, asn1crt/asn1crt_encoding.c:181-192. -/
def appendNBitOne (nbits : Nat) : M Unit := do
  appendNBytesOne (nbits / 8)
  appendNBitsOne (nbits % 8)

/-- `memcpy(&pBitStrm->buf[at], arr, n)`, used at asn1crt/asn1crt_encoding.c:1411: undefined if either
object is too small. -/
def memcpyIn (start : Nat) (arr : List Byte) (n : Nat) : M Unit := fun s =>
  if n ≤ arr.length ∧ start + n ≤ s.buf.length then
    .ok ((), { s with buf := s.buf.take start ++ arr.take n ++ s.buf.drop (start + n) })
  else .ub

/-- `memcpy(arr, &pBitStrm->buf[at], n)`, used at asn1crt/asn1crt_encoding.c:1452. -/
def memcpyOut (start : Nat) (n : Nat) : M (List Byte) := fun s =>
  if start + n ≤ s.buf.length then .ok ((s.buf.drop start).take n, s) else .ub

/-- `BitStream_EncodeOctetString_no_length`, asn1crt/asn1crt_encoding.c:1389-1428. -/
def encodeOctetStringNoLength (arr : List Byte) (nCount : Nat) : M Bool := do
  let s ← getS
  if s.currentBit = 0 then
    if s.currentByte + nCount ≤ s.count then do
      memcpyIn s.currentByte arr nCount
      modS fun s => { s with currentByte := s.currentByte + nCount }
      pure true
    else pure false
  else appendByteArray arr nCount

/-- `BitStream_AppendBits`, asn1crt/asn1crt_encoding.c:194-207 (the result of the octet call is
ignored, as in C). -/
def appendBits (src : List Byte) (nbits : Nat) : M Unit := do
  let _ ← encodeOctetStringNoLength src (nbits / 8)
  if nbits % 8 > 0 then do
    let b ← tblGet src (nbits / 8)
    appendPartialByte (b >>> (8 - nbits % 8)) (nbits % 8) false
  else pure ()

/-- `BitStream_ReadBit`, asn1crt/asn1crt_encoding.c:230-242. `flag` is `bool` (asn1crt.h:139), so the value
read is 0 or 1. -/
def readBit : M (Bool × Bool) := do
  let s ← getS
  let b ← bufGet s.currentByte
  let m ← tblGet masks s.currentBit
  stepBit
  let s ← getS
  pure (inBounds s, decide (b &&& m ≠ 0#8))

/-- `BitStream_PeekBit`, asn1crt/asn1crt_encoding.c:244-246. -/
def peekBit : M Bool := do
  let s ← getS
  let b ← bufGet s.currentByte
  let m ← tblGet masks s.currentBit
  pure (decide (b &&& m ≠ 0#8))

/-- `BitStream_ReadByte`, asn1crt/asn1crt_encoding.c:361-383. On failure C leaves `*v` unchanged; the model
reports 0, and no caller looks at it. -/
def readByte : M (Bool × Byte) := do
  let s ← getS
  let cb := s.currentBit
  let required := if cb > 0 then 2 else 1
  if (s.count : Int) - s.currentByte < required then pure (false, 0#8)
  else do
    let b ← bufGet s.currentByte
    incByte
    if cb > 0 then do
      let b2 ← bufGet (s.currentByte + 1)
      pure (true, (b <<< cb) ||| (b2 >>> (8 - cb)))
    else pure (true, b <<< cb)

/-- Loop of `BitStream_ReadByteArray`, asn1crt/asn1crt_encoding.c:399-405: `rb` is the index of the byte
being read, `n` the number of iterations left. -/
def readByteArrayLoop (cb ncb : Nat) : (n rb : Nat) → M (List Byte)
  | 0, _ => pure []
  | n + 1, rb => do
    let b1 ← bufGet rb
    let b2 ← bufGet (rb + 1)
    let rest ← readByteArrayLoop cb ncb n (rb + 1)
    pure (((b1 <<< cb) ||| (b2 >>> ncb)) :: rest)

/-- `BitStream_ReadByteArray`, asn1crt/asn1crt_encoding.c:388-408. The bytes stored into the destination are
the returned list. -/
def readByteArray (arrLen : Nat) : M (Bool × List Byte) := do
  let s ← getS
  let cb := s.currentBit
  let ncb := 8 - cb
  if (s.currentByte + arrLen) * 8 + cb > s.count * 8 then pure (false, [])
  else do
    let r ← readByteArrayLoop cb ncb arrLen s.currentByte
    modS fun s => { s with currentByte := s.currentByte + arrLen }
    pure (true, r)

/-- `BitStream_DecodeOctetString_no_length`, asn1crt/asn1crt_encoding.c:1430-1467. -/
def decodeOctetStringNoLength (nCount : Nat) : M (Bool × List Byte) := do
  let s ← getS
  if s.currentBit = 0 then
    if s.currentByte + nCount ≤ s.count then do
      let r ← memcpyOut s.currentByte nCount
      modS fun s => { s with currentByte := s.currentByte + nCount }
      pure (true, r)
    else pure (false, [])
  else readByteArray nCount

/-- `BitStream_ReadPartialByte`, asn1crt/asn1crt_encoding.c:494-518 (`nbits` 1..7). -/
def readPartialByte (nbits : Nat) : M (Bool × Byte) := do
  let s ← getS
  let cb := s.currentBit
  let totalBits := cb + nbits
  if totalBits ≤ 8 then do
    let b ← bufGet s.currentByte
    let m ← tblGet masksb nbits
    modS fun s =>
      if s.currentBit + nbits = 8 then { s with currentBit := 0, currentByte := s.currentByte + 1 }
      else { s with currentBit := s.currentBit + nbits }
    let s ← getS
    pure (inBounds s, (b >>> (8 - totalBits)) &&& m)
  else do
    let tbn := totalBits - 8
    let b ← bufGet s.currentByte
    incByte
    let b2 ← bufGet (s.currentByte + 1)
    let m ← tblGet masksb nbits
    modS fun s => { s with currentBit := tbn }
    let s ← getS
    pure (inBounds s, ((b <<< tbn) ||| (b2 >>> (8 - tbn))) &&& m)

/-- `BitStream_ReadBits`, asn1crt/asn1crt_encoding.c:431-447: whole bytes, then the remaining bits in the
most significant bits of one more byte. On failure of the last step C has stored the whole bytes; the
model returns them too. -/
def readBits (nbits : Nat) : M (Bool × List Byte) := do
  let (ret, bytes) ← decodeOctetStringNoLength (nbits / 8)
  if ret ∧ nbits % 8 > 0 then do
    let (ok, b) ← readPartialByte (nbits % 8)
    if ok then pure (true, bytes ++ [b <<< (8 - nbits % 8)]) else pure (false, bytes)
  else pure (ret, bytes)

end Asn1
