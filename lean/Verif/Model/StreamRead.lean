import Verif.Model.Integer
/-!
# Reading in the build with `ASN1SCC_STREAMING`

The read primitives of `/repo/asn1crt/asn1crt_encoding.c` with their calls of `bitstream_fetch_data_if_required`, for a
stream whose `fetchDataPrm` is not `NULL`. As for writing, everything above the primitives is the same source code in both
builds; it is represented by programs (`RProg`) over the primitives that are run in either build.
-/
namespace Asn1

/-- The stream and the bytes of the message that were not fetched yet. -/
structure RStream where
  st : BitStream
  rest : List Byte
  deriving DecidableEq, Repr

/-- A C function in the streaming build (not a C definition). -/
def RM (α : Type) : Type := RStream → Res (α × RStream)

instance : Monad RM where
  pure a := fun s => .ok (a, s)
  bind x f := fun s =>
    match x s with
    | .ok (a, s') => f a s'
    | .ub => .ub
    | .abort => .abort

/-- Code that does not call a hook. -/
def liftR {α : Type} (f : M α) : RM α := fun s =>
  match f s.st with
  | .ok (a, t) => .ok (a, { s with st := t })
  | .ub => .ub
  | .abort => .abort

/-- `BitStream_AttachBuffer2` with a `fetchDataPrm`, asn1crt/asn1crt_encoding.c:90-95, after the first `n` bytes of the message
were read into `buf`, Docs/examples/streaming_mode/c_out/mainprogram.c:103-106 (there the size of the object is `n`). -/
def bitStreamAttach2 (msg : List Byte) (n : Nat) (behind : List Byte) : RStream :=
  ⟨bitStreamAttach (msg.take n ++ behind) n, msg.drop n⟩

/-- `bitstream_fetch_data_if_required`, asn1crt/asn1crt_encoding.c:1786-1791, with the documented `fetchData`,
Docs/examples/streaming_mode/c_out/mainprogram.c:18-23: clear the `count` bytes and read up to `count` more bytes. -/
def fetchIfRequired : RM Unit := fun s =>
  if s.st.currentByte = s.st.count then
    if s.st.count ≤ s.st.buf.length then
      .ok ((), ⟨{ s.st with
        buf := s.rest.take s.st.count ++ List.replicate (s.st.count - s.rest.length) 0#8 ++ s.st.buf.drop s.st.count,
        currentByte := 0 }, s.rest.drop s.st.count⟩)
    else .ub
  else .ok ((), s)

/-- `BitStream_ReadBit`, asn1crt/asn1crt_encoding.c:230-242. -/
def rReadBit : RM (Bool × Bool) := do
  let s ← liftR getS
  let b ← liftR (bufGet s.currentByte)
  let m ← liftR (tblGet masks s.currentBit)
  (if s.currentBit < 7 then liftR (modS fun s => { s with currentBit := s.currentBit + 1 })
  else do
    liftR (modS fun s => { s with currentBit := 0, currentByte := s.currentByte + 1 })
    fetchIfRequired)
  let s ← liftR getS
  pure (inBounds s, decide (b &&& m ≠ 0#8))

/-- `BitStream_PeekBit`, asn1crt/asn1crt_encoding.c:244-246. -/
def rPeekBit : RM Bool := liftR peekBit

/-- `BitStream_ReadByte`, asn1crt/asn1crt_encoding.c:361-383. On failure C leaves `*v` unchanged; the model reports 0. -/
def rReadByte : RM (Bool × Byte) := do
  let s ← liftR getS
  let cb := s.currentBit
  let required := if cb > 0 then 2 else 1
  if (s.count : Int) - s.currentByte < required then pure (false, 0#8)
  else do
    let b ← liftR (bufGet s.currentByte)
    liftR incByte
    fetchIfRequired
    if cb > 0 then do
      let s ← liftR getS
      let b2 ← liftR (bufGet s.currentByte)
      pure (true, (b <<< cb) ||| (b2 >>> (8 - cb)))
    else pure (true, b <<< cb)

/-- Loop of `BitStream_ReadByteArray`, asn1crt/asn1crt_encoding.c:399-405: `rb` is the index of the byte being read; the hook
may replace the bytes of the buffer, but `rb` goes on. -/
def rReadByteArrayLoop (cb ncb : Nat) : (n rb : Nat) → RM (List Byte)
  | 0, _ => pure []
  | n + 1, rb => do
    let b1 ← liftR (bufGet rb)
    fetchIfRequired
    let b2 ← liftR (bufGet (rb + 1))
    let rest ← rReadByteArrayLoop cb ncb n (rb + 1)
    pure (((b1 <<< cb) ||| (b2 >>> ncb)) :: rest)

/-- `BitStream_ReadByteArray`, asn1crt/asn1crt_encoding.c:388-408: in this build without the check of the length. -/
def rReadByteArray (arrLen : Nat) : RM (Bool × List Byte) := do
  let s ← liftR getS
  let r ← rReadByteArrayLoop s.currentBit (8 - s.currentBit) arrLen s.currentByte
  liftR (modS fun s => { s with currentByte := s.currentByte + arrLen })
  pure (true, r)

/-- The loop of `BitStream_DecodeOctetString_no_length` in this build, asn1crt/asn1crt_encoding.c:1436-1448. `arr` is not
advanced, as in C: every batch is copied to the beginning of the destination. A negative batch is a `memcpy` of a huge size.
`fuel` bounds the iterations; unless `count` is 0 each iteration after the first copies at least one byte. -/
def rOctetsLoop : (fuel remaining : Nat) → (arr : List Byte) → RM (List Byte)
  | 0, _, arr => pure arr
  | fuel + 1, remaining, arr =>
    if remaining > 0 then do
      let s ← liftR getS
      if s.currentByte + remaining > s.count ∧ s.currentByte > s.count then liftR mUb
      else do
        let batch := if s.currentByte + remaining ≤ s.count then remaining else s.count - s.currentByte
        let r ← liftR (memcpyOut s.currentByte batch)
        liftR (modS fun s => { s with currentByte := s.currentByte + batch })
        fetchIfRequired
        rOctetsLoop fuel (remaining - batch) (r ++ arr.drop batch)
    else pure arr

/-- `BitStream_DecodeOctetString_no_length`, asn1crt/asn1crt_encoding.c:1430-1467. The result is what was stored into the
destination. -/
def rDecodeOctetStringNoLength (nCount : Nat) : RM (Bool × List Byte) := do
  let s ← liftR getS
  if s.currentBit = 0 then do
    let r ← rOctetsLoop (nCount + 1) nCount []
    pure (true, r)
  else rReadByteArray nCount

/-- `BitStream_ReadPartialByte`, asn1crt/asn1crt_encoding.c:494-518 (`nbits` 1..7). -/
def rReadPartialByte (nbits : Nat) : RM (Bool × Byte) := do
  let s ← liftR getS
  let totalBits := s.currentBit + nbits
  if totalBits ≤ 8 then do
    let b ← liftR (bufGet s.currentByte)
    let m ← liftR (tblGet masksb nbits)
    (if s.currentBit + nbits = 8 then do
      liftR (modS fun s => { s with currentBit := 0, currentByte := s.currentByte + 1 })
      fetchIfRequired
    else liftR (modS fun s => { s with currentBit := s.currentBit + nbits }))
    let s ← liftR getS
    pure (inBounds s, (b >>> (8 - totalBits)) &&& m)
  else do
    let tbn := totalBits - 8
    let b ← liftR (bufGet s.currentByte)
    liftR incByte
    fetchIfRequired
    let s ← liftR getS
    let b2 ← liftR (bufGet s.currentByte)
    let m ← liftR (tblGet masksb nbits)
    liftR (modS fun s => { s with currentBit := tbn })
    let s ← liftR getS
    pure (inBounds s, ((b <<< tbn) ||| (b2 >>> (8 - tbn))) &&& m)

/-! ## Programs over the primitives -/

/-- A call of a read primitive of asn1crt/asn1crt_encoding.c:230-518 or of `BitStream_DecodeOctetString_no_length`, 1430-1467. -/
inductive ROp where
  | bit
  | peek
  | byte
  | part (n : Nat)
  | octets (n : Nat)

/-- What the call delivers. (Not a C definition.) -/
def ROp.Out : ROp → Type
  | .bit => Bool × Bool
  | .peek => Bool
  | .byte => Bool × Byte
  | .part _ => Bool × Byte
  | .octets _ => Bool × List Byte

/-- The call in the build without streaming. (Not a C definition.) -/
def ROp.run : (o : ROp) → M o.Out
  | .bit => readBit
  | .peek => peekBit
  | .byte => readByte
  | .part n => readPartialByte n
  | .octets n => decodeOctetStringNoLength n

/-- The call in the build with streaming. (Not a C definition.) -/
def ROp.sRun : (o : ROp) → RM o.Out
  | .bit => rReadBit
  | .peek => rPeekBit
  | .byte => rReadByte
  | .part n => rReadPartialByte n
  | .octets n => rDecodeOctetStringNoLength n

/-- Source code that reaches the stream through the read primitives only. (Not a C definition.) -/
inductive RProg (α : Type) where
  | done (a : α)
  | ub
  | abort
  | op (o : ROp) (k : o.Out → RProg α)

/-- Sequential composition. -/
def RProg.bind {α β : Type} : RProg α → (α → RProg β) → RProg β
  | .done a, f => f a
  | .ub, _ => .ub
  | .abort, _ => .abort
  | .op o k, f => .op o (fun b => (k b).bind f)

instance : Monad RProg where
  pure := .done
  bind := RProg.bind

/-- The program in the build without streaming. -/
def RProg.run {α : Type} : RProg α → M α
  | .done a => pure a
  | .ub => mUb
  | .abort => mAbort
  | .op o k => do
    let b ← o.run
    (k b).run

/-- The program in the build with streaming. -/
def RProg.sRun {α : Type} : RProg α → RM α
  | .done a => pure a
  | .ub => liftR mUb
  | .abort => liftR mAbort
  | .op o k => do
    let b ← o.sRun
    (k b).sRun

/-- A call of `BitStream_ReadByte`. -/
def RProg.byte : RProg (Bool × Byte) := .op .byte .done

/-- A call of `BitStream_ReadBit`. -/
def RProg.bit : RProg (Bool × Bool) := .op .bit .done

/-- A call of `BitStream_PeekBit`. -/
def RProg.peek : RProg Bool := .op .peek .done

/-- A call of `BitStream_ReadPartialByte`. -/
def RProg.part (n : Nat) : RProg (Bool × Byte) := .op (.part n) .done

/-- A call of `BitStream_DecodeOctetString_no_length`. -/
def RProg.octets (n : Nat) : RProg (Bool × List Byte) := .op (.octets n) .done

/-- `assert(c)`. -/
def RProg.assertC (c : Bool) : RProg Unit := if c then .done () else .abort

/-- A signed 64 bit operation. -/
def RProg.chk (x : Int) : RProg Int := if inS64 x then .done x else .ub

namespace Src

/-- The loop `while (nBits >= 8)`, asn1crt/asn1crt_encoding.c:588-594; `k` iterations left. -/
def decodeNN32Bytes : (k : Nat) → (v : U32) → RProg (Bool × U32)
  | 0, v => pure (true, v)
  | k + 1, v => do
    let v := v <<< 8
    let r ← RProg.byte
    if r.1 then decodeNN32Bytes k (v ||| r.2.setWidth 32) else pure (false, v)

/-- `BitStream_DecodeNonNegativeInteger32Neg`, asn1crt/asn1crt_encoding.c:582-604. -/
def decodeNonNegativeInteger32Neg (nBits : Nat) : RProg (Bool × U32) := do
  let r ← decodeNN32Bytes (nBits / 8) 0#32
  if r.1 then
    if nBits % 8 ≠ 0 then do
      let v := r.2 <<< (nBits % 8)
      let p ← RProg.part (nBits % 8)
      if p.1 then pure (true, v ||| p.2.setWidth 32) else pure (false, v)
    else pure (true, r.2)
  else pure (false, r.2)

/-- `BitStream_DecodeNonNegativeInteger`, asn1crt/asn1crt_encoding.c:630-653. -/
def decodeNonNegativeInteger (nBits : Nat) : RProg (Bool × U64) :=
  if nBits ≤ 32 then do
    let r ← decodeNonNegativeInteger32Neg nBits
    pure (r.1, r.2.setWidth 64)
  else do
    let h ← decodeNonNegativeInteger32Neg 32
    if h.1 then do
      let l ← decodeNonNegativeInteger32Neg (nBits - 32)
      if nBits - 32 < 64 then pure (l.1, ((h.2.setWidth 64) <<< (nBits - 32)) ||| l.2.setWidth 64) else RProg.ub
    else
      if nBits - 32 < 64 then pure (false, (h.2.setWidth 64) <<< (nBits - 32)) else RProg.ub

/-- `BitStream_DecodeConstraintWholeNumber`, asn1crt/asn1crt_encoding.c:801-827. -/
def decodeConstraintWholeNumber (min max : Int) : RProg (Bool × Int) := do
  let d ← RProg.chk (max - min)
  let range : U64 := BitVec.ofInt 64 d
  RProg.assertC (decide (min ≤ max))
  if range = 0#64 then pure (true, min) else do
    let nRangeBits := getNumberOfBits range
    let r ← decodeNonNegativeInteger nRangeBits
    if r.1 then
      if r.2 > range then pure (false, 0)
      else do
        let x ← RProg.chk (r.2.toInt + min)
        pure (true, x)
    else pure (false, 0)

/-- `BitStream_DecodeConstraintPosWholeNumber`, asn1crt/asn1crt_encoding.c:888-913. -/
def decodeConstraintPosWholeNumber (min max : U64) : RProg (Bool × U64) := do
  let range := max - min
  RProg.assertC (decide (min ≤ max))
  if range = 0#64 then pure (true, min) else do
    let nRangeBits := getNumberOfBits range
    let r ← decodeNonNegativeInteger nRangeBits
    if r.1 then
      if r.2 > range then pure (false, 0#64) else pure (true, r.2 + min)
    else pure (false, 0#64)

/-- The loop `for (i = 0; i<nBytes; i++)`, asn1crt/asn1crt_encoding.c:954-959, 973-978 and 1017-1022. -/
def decodeBytesLoop : (k : Nat) → (v : U64) → RProg (Bool × U64)
  | 0, v => pure (true, v)
  | k + 1, v => do
    let r ← RProg.byte
    if r.1 then decodeBytesLoop k ((v <<< 8) ||| r.2.setWidth 64) else pure (false, v)

/-- `BitStream_DecodeSemiConstraintWholeNumber`, asn1crt/asn1crt_encoding.c:945-962. -/
def decodeSemiConstraintWholeNumber (min : Int) : RProg (Bool × Int) := do
  let n ← decodeConstraintWholeNumber 0 255
  if n.1 then
    if n.2 > 8 then pure (false, 0) else do
      let r ← decodeBytesLoop n.2.toNat 0#64
      if r.1 then do
        let x ← RProg.chk (r.2.toInt + min)
        pure (true, x)
      else pure (false, r.2.toInt)
  else pure (false, 0)

/-- `BitStream_DecodeSemiConstraintPosWholeNumber`, asn1crt/asn1crt_encoding.c:964-981. -/
def decodeSemiConstraintPosWholeNumber (min : U64) : RProg (Bool × U64) := do
  let n ← decodeConstraintWholeNumber 0 255
  if n.1 then
    if n.2 > 8 then pure (false, 0#64) else do
      let r ← decodeBytesLoop n.2.toNat 0#64
      if r.1 then pure (true, r.2 + min) else pure (false, r.2)
  else pure (false, 0#64)

/-- `BitStream_DecodeUnConstraintWholeNumber`, asn1crt/asn1crt_encoding.c:1001-1025. -/
def decodeUnConstraintWholeNumber : RProg (Bool × Int) := do
  let n ← decodeConstraintWholeNumber 0 255
  if n.1 then
    if n.2 > 8 then pure (false, 0) else do
      let neg ← RProg.peek
      let r ← decodeBytesLoop n.2.toNat (if neg then 0xFFFFFFFFFFFFFFFF#64 else 0#64)
      pure (r.1, r.2.toInt)
  else pure (false, 0)

end Src

end Asn1
