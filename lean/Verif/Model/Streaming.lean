import Verif.Model.Integer
/-!
# The build with `ASN1SCC_STREAMING`

The append primitives of `/repo/asn1crt/asn1crt_encoding.c` with their calls of `bitstream_push_data_if_required`, for a
stream whose `pushDataPrm` is not `NULL`. Everything above the primitives is the same source code in both builds; it is
represented by programs (`Prog`) over the primitives that are run in either build.
-/
namespace Asn1

/-- The stream and the bytes that were handed to `pushData` so far. `pushData` is user code; as in
Docs/examples/streaming_mode/c_out/mainprogram.c:92-96 it takes the first `currentByte` bytes of the buffer. -/
structure SStream where
  st : BitStream
  sent : List Byte
  deriving DecidableEq, Repr

/-- A C function in the streaming build (not a C definition). -/
def SM (α : Type) : Type := SStream → Res (α × SStream)

instance : Monad SM where
  pure a := fun s => .ok (a, s)
  bind x f := fun s =>
    match x s with
    | .ok (a, s') => f a s'
    | .ub => .ub
    | .abort => .abort

/-- Code that does not call a hook. -/
def liftS {α : Type} (f : M α) : SM α := fun s =>
  match f s.st with
  | .ok (a, t) => .ok (a, { s with st := t })
  | .ub => .ub
  | .abort => .abort

/-- `BitStream_Init2` with a `pushDataPrm`, asn1crt/asn1crt_encoding.c:73-78. -/
def bitStreamInit2 (buf : List Byte) (count : Nat) : Res SStream :=
  match bitStreamInit buf count with
  | .ok s => .ok ⟨s, []⟩
  | .ub => .ub
  | .abort => .abort

/-- `bitstream_push_data_if_required`, asn1crt/asn1crt_encoding.c:1794-1799. `left sent buf` is what the user's `pushData`
leaves in the buffer. -/
def pushIfRequired (left : List Byte → List Byte → List Byte) : SM Unit := fun s =>
  if s.st.currentByte = s.st.count then
    .ok ((), ⟨{ s.st with buf := left s.sent s.st.buf, currentByte := 0 }, s.sent ++ s.st.buf.take s.st.currentByte⟩)
  else .ok ((), s)

/-- The step to the next bit, asn1crt/asn1crt_encoding.c:125-131, 154-160 and 219-225. -/
def sStepBit (left : List Byte → List Byte → List Byte) : SM Unit := do
  let s ← liftS getS
  if s.currentBit < 7 then liftS (modS fun s => { s with currentBit := s.currentBit + 1 })
  else do
    liftS (modS fun s => { s with currentBit := 0, currentByte := s.currentByte + 1 })
    pushIfRequired left

/-- `BitStream_AppendBit`, asn1crt/asn1crt_encoding.c:209-227. -/
def sAppendBit (left : List Byte → List Byte → List Byte) (v : Bool) : SM Unit := do
  let s ← liftS getS
  let m ← liftS (tblGet masks s.currentBit)
  liftS (if v then bufOr s.currentByte m else bufAnd s.currentByte (~~~m))
  sStepBit left
  liftS assertInBounds

/-- `BitStream_AppendBitOne`, asn1crt/asn1crt_encoding.c:121-133. -/
def sAppendBitOne (left : List Byte → List Byte → List Byte) : SM Unit := do
  let s ← liftS getS
  let m ← liftS (tblGet masks s.currentBit)
  liftS (bufOr s.currentByte m)
  sStepBit left
  liftS assertInBounds

/-- `BitStream_AppendBitZero`, asn1crt/asn1crt_encoding.c:150-162. -/
def sAppendBitZero (left : List Byte → List Byte → List Byte) : SM Unit := do
  let s ← liftS getS
  let m ← liftS (tblGet masks s.currentBit)
  liftS (bufAnd s.currentByte (~~~m))
  sStepBit left
  liftS assertInBounds

/-- `BitStream_AppendNBitZero`, asn1crt/asn1crt_encoding.c:164-179. Simplification: as `appendNBitZero`. -/
def sAppendNBitZero (left : List Byte → List Byte → List Byte) (nbits : Int) : SM Unit := do
  let s ← liftS getS
  let totalBits : Int := s.currentBit + nbits
  let totalBytes : Int := totalBits.tdiv 8
  let newBit : Int := totalBits.tmod 8
  if newBit < 0 then liftS mUb else
  if (s.currentByte : Int) + totalBytes ≤ s.count then
    if (s.currentByte : Int) + totalBytes < 0 then liftS mUb else do
      liftS (modS fun s => { s with currentBit := newBit.toNat, currentByte := ((s.currentByte : Int) + totalBytes).toNat })
      pushIfRequired left
  else do
    liftS (modS fun s => { s with currentBit := newBit.toNat, currentByte := s.count })
    pushIfRequired left
    liftS (modS fun t => { t with currentByte := ((s.currentByte : Int) + totalBytes - s.count).toNat })

/-- `BitStream_AppendByte`, asn1crt/asn1crt_encoding.c:271-291. -/
def sAppendByte (left : List Byte → List Byte → List Byte) (v : Byte) (negate : Bool) : SM Unit := do
  let s ← liftS getS
  let cb := s.currentBit
  let ncb := 8 - cb
  let v := if negate then ~~~v else v
  let mb ← liftS (tblGet masksb ncb)
  liftS (do
    bufAnd s.currentByte (~~~mb)
    bufOr s.currentByte (v >>> cb)
    incByte)
  pushIfRequired left
  liftS assertInBounds
  if cb ≠ 0 then do
    let s ← liftS getS
    liftS (do
      bufAnd s.currentByte (~~~(~~~mb))
      bufOr s.currentByte (v <<< ncb))
  else pure ()

/-- `BitStream_AppendByte0`, asn1crt/asn1crt_encoding.c:293-312. -/
def sAppendByte0 (left : List Byte → List Byte → List Byte) (v : Byte) : SM Bool := do
  let s ← liftS getS
  let cb := s.currentBit
  let ncb := 8 - cb
  let mb ← liftS (tblGet masksb ncb)
  liftS (do
    bufAnd s.currentByte (~~~mb)
    bufOr s.currentByte (v >>> cb)
    incByte)
  pushIfRequired left
  if cb ≠ 0 then do
    let s ← liftS getS
    if s.currentByte ≥ s.count then pure false
    else do
      liftS (do
        bufAnd s.currentByte (~~~(~~~mb))
        bufOr s.currentByte (v <<< ncb))
      pure true
  else pure true

/-- `BitStream_AppendPartialByte`, asn1crt/asn1crt_encoding.c:450-491. -/
def sAppendPartialByte (left : List Byte → List Byte → List Byte) (v : Byte) (nbits : Nat) (negate : Bool) : SM Unit := do
  let s ← liftS getS
  let cb := s.currentBit
  let totalBits := cb + nbits
  let ncb := 8 - cb
  let mn ← liftS (tblGet masksb (if negate then nbits else 0))
  let v := if negate then mn &&& ~~~v else v
  let mb ← liftS (tblGet masksb ncb)
  let mask1 := ~~~mb
  (if totalBits ≤ 8 then do
    let mask2 ← liftS (tblGet masksb (8 - totalBits))
    let mask := mask1 ||| mask2
    liftS (do
      bufAnd s.currentByte mask
      bufOr s.currentByte (v <<< (8 - totalBits))
      modS fun s => { s with currentBit := s.currentBit + nbits })
    let s ← liftS getS
    if s.currentBit = 8 then do
      liftS (modS fun s => { s with currentBit := 0, currentByte := s.currentByte + 1 })
      pushIfRequired left
    else pure ()
  else do
    let tbn := totalBits - 8
    liftS (do
      bufAnd s.currentByte mask1
      bufOr s.currentByte (v >>> tbn)
      incByte)
    pushIfRequired left
    let mb2 ← liftS (tblGet masksb (8 - tbn))
    let s ← liftS getS
    liftS (do
      bufAnd s.currentByte (~~~mb2)
      bufOr s.currentByte (v <<< (8 - tbn))
      modS fun s => { s with currentBit := tbn }))
  liftS assertInBounds

/-- The loop of `BitStream_EncodeOctetString_no_length` in this build, asn1crt/asn1crt_encoding.c:1396-1407. `arr` is not
advanced, as in C. `fuel` bounds the iterations: each one sends at least one byte, so `nCount` are enough. -/
def sOctetsLoop (left : List Byte → List Byte → List Byte) (arr : List Byte) : (fuel remaining : Nat) → SM Unit
  | 0, _ => pure ()
  | fuel + 1, remaining =>
    if remaining > 0 then do
      let s ← liftS getS
      let batch := if s.currentByte + remaining ≤ s.count then remaining else s.count - s.currentByte
      liftS (do
        memcpyIn s.currentByte arr batch
        modS fun s => { s with currentByte := s.currentByte + batch })
      pushIfRequired left
      sOctetsLoop left arr fuel (remaining - batch)
    else pure ()

/-- The middle loop of `BitStream_AppendByteArray`, asn1crt/asn1crt_encoding.c:338-345. -/
def sByteArrayLoop (left : List Byte → List Byte → List Byte) (arr : List Byte) (cb ncb : Nat) : (n i : Nat) → SM Unit
  | 0, _ => pure ()
  | n + 1, i => do
    let v ← liftS (tblGet arr i)
    let s ← liftS getS
    liftS (do
      bufOr s.currentByte (v >>> cb)
      incByte)
    pushIfRequired left
    let s ← liftS getS
    liftS (bufOr s.currentByte (v <<< ncb))
    sByteArrayLoop left arr cb ncb n (i + 1)

/-- `BitStream_AppendByteArray`, asn1crt/asn1crt_encoding.c:314-358. -/
def sAppendByteArray (left : List Byte → List Byte → List Byte) (arr : List Byte) (arrLen : Nat) : SM Bool := do
  let s ← liftS getS
  let cb := s.currentBit
  let ncb := 8 - cb
  let mb ← liftS (tblGet masksb ncb)
  let mask := ~~~mb
  let nmask := ~~~mask
  if (s.currentByte + arrLen) * 8 + cb > s.count * 8 then pure false
  else do
    (if arrLen > 0 then do
      let v ← liftS (tblGet arr 0)
      liftS (do
        bufAnd s.currentByte mask
        bufOr s.currentByte (v >>> cb)
        incByte)
      pushIfRequired left
      let s ← liftS getS
      liftS (do
        bufAnd s.currentByte nmask
        bufOr s.currentByte (v <<< ncb))
    else pure ())
    sByteArrayLoop left arr cb ncb (arrLen - 1 - 1) 1
    (if arrLen - 1 > 0 then do
      let v ← liftS (tblGet arr (arrLen - 1))
      let s ← liftS getS
      liftS (do
        bufAnd s.currentByte mask
        bufOr s.currentByte (v >>> cb)
        incByte)
      pushIfRequired left
      if cb ≠ 0 then do
        let s ← liftS getS
        liftS (do
          bufAnd s.currentByte nmask
          bufOr s.currentByte (v <<< ncb))
      else pure ()
    else pure ())
    pure true

/-- `BitStream_EncodeOctetString_no_length`, asn1crt/asn1crt_encoding.c:1389-1428. -/
def sEncodeOctetStringNoLength (left : List Byte → List Byte → List Byte) (arr : List Byte) (nCount : Nat) : SM Bool := do
  let s ← liftS getS
  if s.currentBit = 0 then do
    sOctetsLoop left arr nCount nCount
    pure true
  else sAppendByteArray left arr nCount

/-! ## Programs over the primitives -/

/-- A call of an append primitive of asn1crt/asn1crt_encoding.c:121-491 or of `BitStream_EncodeOctetString_no_length`, 1389-1428. -/
inductive Op where
  | bit (v : Bool)
  | bitOne
  | bitZero
  | zeros (n : Int)
  | byte (v : Byte) (negate : Bool)
  | byte0 (v : Byte)
  | part (v : Byte) (n : Nat) (negate : Bool)
  | octets (arr : List Byte) (n : Nat)

/-- The call in the build without streaming; functions without a result return `true`. (Not a C definition.) -/
def Op.run : Op → M Bool
  | .bit v => do appendBit v; pure true
  | .bitOne => do appendBitOne; pure true
  | .bitZero => do appendBitZero; pure true
  | .zeros n => do appendNBitZero n; pure true
  | .byte v neg => do appendByte v neg; pure true
  | .byte0 v => appendByte0 v
  | .part v n neg => do appendPartialByte v n neg; pure true
  | .octets arr n => encodeOctetStringNoLength arr n

/-- The call in the build with streaming. (Not a C definition.) -/
def Op.sRun (left : List Byte → List Byte → List Byte) : Op → SM Bool
  | .bit v => do sAppendBit left v; pure true
  | .bitOne => do sAppendBitOne left; pure true
  | .bitZero => do sAppendBitZero left; pure true
  | .zeros n => do sAppendNBitZero left n; pure true
  | .byte v neg => do sAppendByte left v neg; pure true
  | .byte0 v => sAppendByte0 left v
  | .part v n neg => do sAppendPartialByte left v n neg; pure true
  | .octets arr n => sEncodeOctetStringNoLength left arr n

/-- Source code that reaches the stream through the append primitives only: it ends with a result, with undefined behaviour or
a failed assertion of its own, or calls a primitive and goes on. (Not a C definition.) -/
inductive Prog (α : Type) where
  | done (a : α)
  | ub
  | abort
  | op (o : Op) (k : Bool → Prog α)

/-- Sequential composition. -/
def Prog.bind {α β : Type} : Prog α → (α → Prog β) → Prog β
  | .done a, f => f a
  | .ub, _ => .ub
  | .abort, _ => .abort
  | .op o k, f => .op o (fun b => (k b).bind f)

instance : Monad Prog where
  pure := .done
  bind := Prog.bind

/-- The program in the build without streaming. -/
def Prog.run {α : Type} : Prog α → M α
  | .done a => pure a
  | .ub => mUb
  | .abort => mAbort
  | .op o k => do
    let b ← o.run
    (k b).run

/-- The program in the build with streaming. -/
def Prog.sRun {α : Type} (left : List Byte → List Byte → List Byte) : Prog α → SM α
  | .done a => pure a
  | .ub => liftS mUb
  | .abort => liftS mAbort
  | .op o k => do
    let b ← o.sRun left
    (k b).sRun left

/-- One call. -/
def Prog.call (o : Op) : Prog Bool := .op o .done

/-- `arr[i]`. -/
def Prog.tbl {α : Type} (t : List α) (i : Nat) : Prog α :=
  match t[i]? with
  | some b => .done b
  | none => .ub

/-- `assert(c)`. -/
def Prog.assertC (c : Bool) : Prog Unit := if c then .done () else .abort

/-- A signed 64 bit operation. -/
def Prog.chk (x : Int) : Prog Int := if inS64 x then .done x else .ub

/-- A call of a function without a result. -/
def Prog.do_ (o : Op) : Prog Unit := .op o fun _ => .done ()

namespace Src

/-- `BitStream_AppendNBitOne`, asn1crt/asn1crt_encoding.c:181-192: the two loops. -/
def appendNBytesOne : Nat → Prog Unit
  | 0 => pure ()
  | n + 1 => do
    Prog.do_ (.byte 0xFF#8 false)
    appendNBytesOne n

/-- `BitStream_AppendNBitOne`, asn1crt/asn1crt_encoding.c:189-190. -/
def appendNBitsOne : Nat → Prog Unit
  | 0 => pure ()
  | n + 1 => do
    Prog.do_ .bitOne
    appendNBitsOne n

/-- `BitStream_AppendNBitOne`, asn1crt/asn1crt_encoding.c:181-192. -/
def appendNBitOne (nbits : Nat) : Prog Unit := do
  appendNBytesOne (nbits / 8)
  appendNBitsOne (nbits % 8)

/-- `BitStream_AppendBits`, asn1crt/asn1crt_encoding.c:194-207. -/
def appendBits (src : List Byte) (nbits : Nat) : Prog Unit := do
  let _ ← Prog.call (.octets src (nbits / 8))
  if nbits % 8 > 0 then do
    let b ← Prog.tbl src (nbits / 8)
    Prog.do_ (.part (b >>> (8 - nbits % 8)) (nbits % 8) false)
  else pure ()

/-- The loop `while (cc)`, asn1crt/asn1crt_encoding.c:574-578. -/
def encodeNN32Bytes (v : U32) (negate : Bool) : (k : Nat) → Prog Unit
  | 0 => pure ()
  | k + 1 => do
    let m ← Prog.tbl masks2 (k + 1)
    let t1 := v &&& m
    Prog.do_ (.byte ((t1 >>> (8 * k)).setWidth 8) negate)
    encodeNN32Bytes v negate k

/-- `BitStream_EncodeNonNegativeInteger32Neg`, asn1crt/asn1crt_encoding.c:535-580. -/
def encodeNonNegativeInteger32Neg (v : U32) (negate : Bool) : Prog Unit :=
  if v = 0#32 then pure () else
  let cc :=
    if v < 0x100#32 then findMsb 8 v 0x80#32 8
    else if v < 0x10000#32 then findMsb 8 v 0x8000#32 16
    else if v < 0x1000000#32 then findMsb 8 v 0x800000#32 24
    else findMsb 8 v 0x80000000#32 32
  let pbits := cc % 8
  let cc' := cc - pbits
  do
    (if pbits ≠ 0 then Prog.do_ (.part ((v >>> cc').setWidth 8) pbits negate) else pure ())
    encodeNN32Bytes v negate (cc' / 8)

/-- `BitStream_EncodeNonNegativeInteger`, asn1crt/asn1crt_encoding.c:608-627. -/
def encodeNonNegativeInteger (v : U64) : Prog Unit :=
  if v < 0x100000000#64 then encodeNonNegativeInteger32Neg (v.setWidth 32) false
  else do
    let hi : U32 := (v >>> 32).setWidth 32
    let lo : U32 := v.setWidth 32
    encodeNonNegativeInteger32Neg hi false
    let nBits := getNumberOfBits (lo.setWidth 64)
    Prog.do_ (.zeros (32 - nBits))
    encodeNonNegativeInteger32Neg lo false

/-- `BitStream_EncodeNonNegativeIntegerNeg`, asn1crt/asn1crt_encoding.c:656-677. -/
def encodeNonNegativeIntegerNeg (v : U64) (negate : Bool) : Prog Unit :=
  if v < 0x100000000#64 then encodeNonNegativeInteger32Neg (v.setWidth 32) negate
  else do
    let hi : U32 := (v >>> 32).setWidth 32
    let lo : U32 := v.setWidth 32
    encodeNonNegativeInteger32Neg hi negate
    let lo := if negate then ~~~lo else lo
    let nBits := getNumberOfBits (lo.setWidth 64)
    Prog.do_ (.zeros (32 - nBits))
    encodeNonNegativeInteger32Neg lo false

/-- `-v - 1`, asn1crt/asn1crt_encoding.c:764, 996, 997. -/
def negMinusOne (v : Int) : Prog Int := do
  let n ← Prog.chk (-v)
  Prog.chk (n - 1)

/-- `GetLengthInBytesOfSInt`, asn1crt/asn1crt_encoding.c:759-765. -/
def getLengthInBytesOfSInt (v : Int) : Prog Nat :=
  if v ≥ 0 then pure (getLengthSIntHelper (BitVec.ofInt 64 v))
  else do
    let w ← negMinusOne v
    pure (getLengthSIntHelper (BitVec.ofInt 64 w))

/-- `BitStream_EncodeConstraintWholeNumber`, asn1crt/asn1crt_encoding.c:769-782. -/
def encodeConstraintWholeNumber (v min max : Int) : Prog Unit := do
  Prog.assertC (decide (min ≤ max))
  let d ← Prog.chk (max - min)
  let range : U64 := BitVec.ofInt 64 d
  if range = 0#64 then pure () else do
    let nRangeBits := getNumberOfBits range
    let e ← Prog.chk (v - min)
    let nBits := getNumberOfBits (BitVec.ofInt 64 e)
    Prog.do_ (.zeros ((nRangeBits : Int) - nBits))
    encodeNonNegativeInteger (BitVec.ofInt 64 e)

/-- `BitStream_EncodeConstraintPosWholeNumber`, asn1crt/asn1crt_encoding.c:784-798. -/
def encodeConstraintPosWholeNumber (v min max : U64) : Prog Unit := do
  Prog.assertC (decide (min ≤ v))
  Prog.assertC (decide (v ≤ max))
  let range := max - min
  if range = 0#64 then pure () else do
    let nRangeBits := getNumberOfBits range
    let nBits := getNumberOfBits (v - min)
    Prog.do_ (.zeros ((nRangeBits : Int) - nBits))
    encodeNonNegativeInteger (v - min)

/-- `BitStream_EncodeSemiConstraintWholeNumber`, asn1crt/asn1crt_encoding.c:916-928. -/
def encodeSemiConstraintWholeNumber (v min : Int) : Prog Unit := do
  Prog.assertC (decide (v ≥ min))
  let d ← Prog.chk (v - min)
  let u : U64 := BitVec.ofInt 64 d
  let nBytes := getLengthInBytesOfUInt u
  encodeConstraintWholeNumber nBytes 0 255
  Prog.do_ (.zeros ((nBytes : Int) * 8 - getNumberOfBits u))
  encodeNonNegativeInteger u

/-- `BitStream_EncodeSemiConstraintPosWholeNumber`, asn1crt/asn1crt_encoding.c:930-942. -/
def encodeSemiConstraintPosWholeNumber (v min : U64) : Prog Unit := do
  Prog.assertC (decide (v ≥ min))
  let nBytes := getLengthInBytesOfUInt (v - min)
  encodeConstraintWholeNumber nBytes 0 255
  Prog.do_ (.zeros ((nBytes : Int) * 8 - getNumberOfBits (v - min)))
  encodeNonNegativeInteger (v - min)

/-- `BitStream_EncodeUnConstraintWholeNumber`, asn1crt/asn1crt_encoding.c:984-999. -/
def encodeUnConstraintWholeNumber (v : Int) : Prog Unit := do
  let nBytes ← getLengthInBytesOfSInt v
  encodeConstraintWholeNumber nBytes 0 255
  if v ≥ 0 then do
    Prog.do_ (.zeros ((nBytes : Int) * 8 - getNumberOfBits (BitVec.ofInt 64 v)))
    encodeNonNegativeInteger (BitVec.ofInt 64 v)
  else do
    let w ← negMinusOne v
    appendNBitOne ((nBytes : Int) * 8 - getNumberOfBits (BitVec.ofInt 64 w)).toNat
    encodeNonNegativeIntegerNeg (BitVec.ofInt 64 w) true

end Src

end Asn1
