import Verif.Model.Core
/-!
# XER primitives

Models `/repo/asn1crt/asn1crt_encoding_xer.c` lines 12-22, 51-1107 except REAL (`Double2String`, `atof`, lines 24-49, 600-603, 804-813).

A C string is the list of its characters; a `char` array is a list that may contain the terminating 0 (`cstr` cuts there). A tag that
is `NULL` is the empty list: the functions that test for `NULL` treat both alike, the others are never called with `NULL` by
generated code. Error codes are not modelled: the generated code replaces them by its own.
-/
namespace Asn1

/-- `ByteStream`, asn1crt/asn1crt.h:166-171, with `EncodeWhiteSpace`. `buf` is the whole C object the pointer points into.
Simplification: positions are natural numbers (C: `long`). -/
structure XerStream where
  buf : List Byte
  count : Nat
  currentByte : Nat
  white : Bool
  deriving DecidableEq, Repr

/-- `ByteStream_Init` on an object of exactly `n` octets, asn1crt/asn1crt_encoding.c:27-34. -/
def xerInit (n : Nat) : XerStream := ⟨List.replicate n 0#8, n, 0, false⟩

/-- `ByteStream_AttachBuffer` on an object with exactly this content, asn1crt/asn1crt_encoding.c:36-41. -/
def xerAttach (l : List Byte) : XerStream := ⟨l, l.length, 0, false⟩

/-- A C function on a byte stream that returns a flag: `some a` is `TRUE` with the outputs `a`, `none` is `FALSE`. -/
def XM (α : Type) : Type := XerStream → Res (Option α × XerStream)

/-- `if (!f(...)) return FALSE;` in sequence. -/
instance : Monad XM where
  pure a := fun s => .ok (some a, s)
  bind x f := fun s =>
    match x s with
    | .ok (some a, s') => f a s'
    | .ok (none, s') => .ok (none, s')
    | .ub => .ub
    | .abort => .abort

/-- `return FALSE;`. -/
def xFail {α : Type} : XM α := fun s => .ok (none, s)

/-- Undefined behaviour. -/
def xUb {α : Type} : XM α := fun _ => .ub

/-- A failed `assert`. -/
def xAbort {α : Type} : XM α := fun _ => .abort

/-- The stream structure. -/
def xGet : XM XerStream := fun s => .ok (some s, s)

/-- `pStrm->currentByte = p`. -/
def xSetPos (p : Nat) : XM Unit := fun s => .ok (some (), { s with currentByte := p })

/-- `pStrm->buf[i]`. -/
def xAt (i : Nat) : XM Byte := fun s =>
  match s.buf[i]? with
  | some b => .ok (some b, s)
  | none => .ub

/-- `pStrm->buf[currentByte] = b; currentByte++`. -/
def xPut (b : Byte) : XM Unit := fun s =>
  if s.currentByte < s.buf.length then .ok (some (), { s with buf := s.buf.set s.currentByte b, currentByte := s.currentByte + 1 })
  else .ub

/-- `arr[i] = b` of an array. -/
def xArrSet (arr : List Byte) (i : Nat) (b : Byte) : XM (List Byte) :=
  if i < arr.length then pure (arr.set i b) else xUb

/-- `arr[i]` of an array. -/
def xArrGet (arr : List Byte) (i : Nat) : XM Byte :=
  match arr[i]? with
  | some b => pure b
  | none => xUb

/-- The string in an array: what lies before the first 0. -/
def cstr (l : List Byte) : List Byte := l.takeWhile (· != 0#8)

/-- Characters as bytes. -/
def chars (l : List Char) : List Byte := l.map fun c => BitVec.ofNat 8 c.toNat

/-- `isspace` in the C locale. -/
def isSpaceC (b : Byte) : Bool := b == 0x20#8 || (decide (9 ≤ b.toNat) && decide (b.toNat ≤ 13))

/-- `isalpha` in the C locale. A `char` above 127 is negative, which the standard leaves undefined; the common libraries answer 0. -/
def isAlphaC (b : Byte) : Bool :=
  (decide (0x41 ≤ b.toNat) && decide (b.toNat ≤ 0x5A)) || (decide (0x61 ≤ b.toNat) && decide (b.toNat ≤ 0x7A))

/-- `isdigit`. -/
def isDigitC (b : Byte) : Bool := decide (0x30 ≤ b.toNat) && decide (b.toNat ≤ 0x39)

/-! ## Numbers as text -/

/-- The decimal digits that `%llu` prints, at most `k` of them. -/
def decFuel : Nat → Nat → List Byte
  | 0, _ => []
  | k + 1, n => if n < 10 then [BitVec.ofNat 8 (0x30 + n)] else decFuel k (n / 10) ++ [BitVec.ofNat 8 (0x30 + n % 10)]

/-- `UInt2String`, asn1crt/asn1crt_encoding_xer.c:18-22; 64 bits need at most 20 digits. -/
def uint2String (v : Nat) : List Byte := decFuel 20 v

/-- `Int2String`, asn1crt/asn1crt_encoding_xer.c:12-16. -/
def int2String (v : Int) : List Byte := if v < 0 then 0x2D#8 :: uint2String v.natAbs else uint2String v.natAbs

/-- The digits at the beginning of a string, as `atoll` and `strtoull` read them. -/
def readDigits : List Byte → Nat → Nat
  | [], acc => acc
  | b :: l, acc => if isDigitC b then readDigits l (10 * acc + (b.toNat - 0x30)) else acc

/-- White space, then an optional sign, then digits: the sign and the number. No digits give 0. -/
def readNumber (l : List Byte) : Bool × Nat :=
  match l.dropWhile isSpaceC with
  | [] => (false, 0)
  | c :: r => if c = 0x2D#8 then (true, readDigits r 0) else if c = 0x2B#8 then (false, readDigits r 0) else (false, readDigits (c :: r) 0)

/-- `atoll`: undefined if the number does not fit (C17 7.22.1). -/
def atollC (l : List Byte) : XM Int :=
  let p := readNumber l
  let v : Int := if p.1 then -(p.2 : Int) else p.2
  if -(2 ^ 63) ≤ v ∧ v < 2 ^ 63 then pure v else xUb

/-- `strtoull(…, NULL, 10)`: the largest number if it does not fit; a minus sign negates modulo `2^64`. -/
def strtoullC (l : List Byte) : Nat :=
  let p := readNumber l
  if p.2 ≥ 2 ^ 64 then 2 ^ 64 - 1 else if p.1 then (2 ^ 64 - p.2) % 2 ^ 64 else p.2

/-! ## Characters -/

/-- `GetNextChar`, asn1crt/asn1crt_encoding_xer.c:51-57. -/
def getNextChar : XM Byte := do
  let s ← xGet
  if s.currentByte ≥ s.count then xFail else do
    let c ← xAt s.currentByte
    xSetPos (s.currentByte + 1)
    pure c

/-- `PushBackChar`, asn1crt/asn1crt_encoding_xer.c:59-63. -/
def pushBackChar : XM Unit := do
  let s ← xGet
  if s.currentByte = 0 then xAbort else xSetPos (s.currentByte - 1)

/-- The loop of `ByteStream_PutSpace`, asn1crt/asn1crt_encoding_xer.c:78-81. -/
def putSpaceLoop : Nat → XM Unit
  | 0 => pure ()
  | n + 1 => do xPut 0x20#8; putSpaceLoop n

/-- `ByteStream_PutSpace`, asn1crt/asn1crt_encoding_xer.c:65-83. -/
def putSpace (level : Int) : XM Unit := do
  let s ← xGet
  if !s.white then pure ()
  else if level < 0 then pure ()
  else if s.currentByte + 2 * level.toNat ≥ s.count then xFail
  else putSpaceLoop (2 * level.toNat)

/-- `ByteStream_PutNL`, asn1crt/asn1crt_encoding_xer.c:85-96. -/
def putNL : XM Unit := do
  let s ← xGet
  if !s.white then pure ()
  else if s.currentByte ≥ s.count then xFail
  else xPut 0x0A#8

/-- `if (level >= 0) if (!ByteStream_PutNL(pByteStrm)) return FALSE;`. -/
def putNLIf (level : Int) : XM Unit := if level ≥ 0 then putNL else pure ()

/-- `ByteStream_AppendString`, asn1crt/asn1crt_encoding_xer.c:98-107. `strcat` looks for the first 0 from the current position on
(undefined if there is none in the object) and writes the string and a 0 there. -/
def appendString (v : List Byte) : XM Unit := fun s =>
  let v := cstr v
  if s.currentByte + v.length ≥ s.count then .ok (none, s)
  else match (s.buf.drop s.currentByte).findIdx? (· == 0#8) with
    | none => .ub
    | some k =>
      let p := s.currentByte + k
      if p + v.length < s.buf.length then
        .ok (some (), { s with buf := s.buf.take p ++ v ++ [0#8] ++ s.buf.drop (p + v.length + 1),
                               currentByte := s.currentByte + v.length })
      else .ub

/-! ## Tokens -/

/-- `isPartOfID`, asn1crt/asn1crt_encoding_xer.c:113-128. -/
def isPartOfID (c : Byte) : Bool :=
  isAlphaC c || isDigitC c || c == 0x2E#8 || c == 0x2B#8 || c == 0x2D#8 || c == 0x5F#8

/-- `Token`, asn1crt/asn1crt.h:173-176; `value` is the string in `Value`. -/
structure Token where
  id : Nat
  value : List Byte
  deriving DecidableEq, Repr

/-- `WORD_ID`, asn1crt/asn1crt_encoding_xer.c:111. -/
def wordId : Nat := 1000

/-- The loop over white space, asn1crt/asn1crt_encoding_xer.c:137-138, 150-151, 165-166. The first argument bounds the number of
rounds; the number of octets left is enough. -/
def skipSpaceLoop : Nat → XM Unit
  | 0 => pure ()
  | n + 1 => do
    let s ← xGet
    if s.currentByte < s.count then do
      let b ← xAt s.currentByte
      if isSpaceC b then do
        xSetPos (s.currentByte + 1)
        skipSpaceLoop n
      else pure ()
    else pure ()

/-- The same with the number of rounds. -/
def skipSpace : XM Unit := do
  let s ← xGet
  skipSpaceLoop (s.count - s.currentByte)

/-- `while (currentByte < count && !(buf[currentByte-1] == '?' && buf[currentByte] == '>')) currentByte++;`,
asn1crt/asn1crt_encoding_xer.c:146-148. -/
def headerLoop : Nat → XM Unit
  | 0 => pure ()
  | n + 1 => do
    let s ← xGet
    if s.currentByte < s.count then do
      let a ← xAt (s.currentByte - 1)
      let b ← xAt s.currentByte
      if a == 0x3F#8 && b == 0x3E#8 then pure () else do
        xSetPos (s.currentByte + 1)
        headerLoop n
    else pure ()

/-- `while (currentByte < count && !(… "-->")) currentByte++;`, asn1crt/asn1crt_encoding_xer.c:161-163. -/
def commentLoop : Nat → XM Unit
  | 0 => pure ()
  | n + 1 => do
    let s ← xGet
    if s.currentByte < s.count then do
      let a ← xAt (s.currentByte - 2)
      let b ← xAt (s.currentByte - 1)
      let c ← xAt s.currentByte
      if a == 0x2D#8 && b == 0x2D#8 && c == 0x3E#8 then pure () else do
        xSetPos (s.currentByte + 1)
        commentLoop n
    else pure ()

/-- The XML declaration in `NT`, asn1crt/asn1crt_encoding_xer.c:143-152. -/
def ntHeader : XM Unit := do
  let s ← xGet
  if s.currentByte + 1 < s.count then do
    let a ← xAt s.currentByte
    let b ← xAt (s.currentByte + 1)
    if a == 0x3C#8 && b == 0x3F#8 then do
      xSetPos (s.currentByte + 1)
      headerLoop (s.count - s.currentByte)
      let s ← xGet
      xSetPos (s.currentByte + 1)
      skipSpace
    else pure ()
  else pure ()

/-- The comment in `NT`, asn1crt/asn1crt_encoding_xer.c:157-167. -/
def ntComment : XM Unit := do
  let s ← xGet
  if s.currentByte + 3 < s.count then do
    let a ← xAt s.currentByte
    let b ← xAt (s.currentByte + 1)
    let c ← xAt (s.currentByte + 2)
    let d ← xAt (s.currentByte + 3)
    if a == 0x3C#8 && b == 0x21#8 && c == 0x2D#8 && d == 0x2D#8 then do
      xSetPos (s.currentByte + 2)
      commentLoop (s.count - s.currentByte)
      let s ← xGet
      xSetPos (s.currentByte + 1)
      skipSpace
    else pure ()
  else pure ()

/-- The loop over a word, asn1crt/asn1crt_encoding_xer.c:181-189; `sizeof(ret.Value) - 1` is 99. -/
def wordLoop : Nat → List Byte → XM Token
  | 0, v => pure ⟨if v.length = 0 then 0 else wordId, v⟩
  | n + 1, v => do
    let s ← xGet
    if s.currentByte < s.count then do
      let b ← xAt s.currentByte
      if isPartOfID b && decide (v.length < 99) then do
        xSetPos (s.currentByte + 1)
        wordLoop n (v ++ [b])
      else pure ⟨if v.length = 0 then 0 else wordId, v⟩
    else pure ⟨if v.length = 0 then 0 else wordId, v⟩

/-- `strchr(spChrs, c) != NULL`, asn1crt/asn1crt_encoding_xer.c:132 and 172: the 0 at the end of `spChrs` counts. -/
def isSpecial (c : Byte) : Bool := c == 0x3C#8 || c == 0x3E#8 || c == 0x2F#8 || c == 0x3D#8 || c == 0x22#8 || c == 0#8

/-- `NT` from line 169 on, asn1crt/asn1crt_encoding_xer.c:169-193. -/
def ntToken : XM Token := do
  let s ← xGet
  if s.currentByte ≥ s.count then pure ⟨0, []⟩ else do
    let c ← xAt s.currentByte
    if isSpecial c then do
      xSetPos (s.currentByte + 1)
      pure ⟨c.toNat, cstr [c]⟩
    else wordLoop (s.count - s.currentByte) []

/-- `NT`, asn1crt/asn1crt_encoding_xer.c:130-193. -/
def nt : XM Token := do
  skipSpace
  let s ← xGet
  if s.currentByte ≥ s.count then pure ⟨0, []⟩ else do
    ntHeader
    let s ← xGet
    if s.currentByte ≥ s.count then pure ⟨0, []⟩ else do
      ntComment
      ntToken

/-- `LA`, asn1crt/asn1crt_encoding_xer.c:195-205. -/
def la : XM Token := do
  let s ← xGet
  let t ← nt
  xSetPos s.currentByte
  pure t

/-- `if (NT(pByteStrm).TokenID != c) return FALSE;`. -/
def expect (c : Byte) : XM Unit := do
  let t ← nt
  if t.id = c.toNat then pure () else xFail

/-- `t = NT(pByteStrm); if (t.TokenID != WORD_ID || strcmp(t.Value, elementTag) != 0) return FALSE;`. -/
def expectTag (tag : List Byte) : XM Unit := do
  let t ← nt
  if t.id = wordId ∧ t.value = cstr tag then pure () else xFail

/-! ## Elements -/

/-- `Xer_EncodePrimitiveElement`, asn1crt/asn1crt_encoding_xer.c:223-261. A `NULL` value is the empty list. -/
def encodePrimitiveElement (tag value : List Byte) (level : Int) : XM Unit := do
  putSpace level
  appendString [0x3C#8]
  appendString tag
  if (cstr value).length = 0 then do
    appendString [0x2F#8]
    appendString [0x3E#8]
    putNLIf level
  else do
    appendString [0x3E#8]
    appendString value
    appendString [0x3C#8]
    appendString [0x2F#8]
    appendString tag
    appendString [0x3E#8]
    putNLIf level

/-- The loop over the contents, asn1crt/asn1crt_encoding_xer.c:309-326. `arr` is the array `pDecodedValue` points into. The first
argument bounds the number of rounds; one more than the octets left is enough. -/
def contentLoop (maxLen : Nat) : Nat → (written : Nat) → List Byte → XM (List Byte)
  | 0, _, _ => xFail
  | n + 1, written, arr => do
    let c ← getNextChar
    if c == 0x3C#8 then xArrSet arr written 0#8
    else if written ≥ maxLen - 1 then xFail
    else do
      let arr ← xArrSet arr written c
      contentLoop maxLen n (written + 1) arr

/-- `Xer_DecodePrimitiveElement`, asn1crt/asn1crt_encoding_xer.c:265-353: the array after the call. -/
def decodePrimitiveElement (tag : List Byte) (arr : List Byte) (maxLen : Nat) : XM (List Byte) := do
  let arr ← xArrSet arr 0 0#8
  expect 0x3C#8
  expectTag tag
  let t ← nt
  if t.id = 0x2F then do
    expect 0x3E#8
    pure arr
  else if t.id ≠ 0x3E then xFail
  else do
    let s ← xGet
    let arr ← contentLoop maxLen (s.count - s.currentByte + 1) 0 arr
    pushBackChar
    expect 0x3C#8
    expect 0x2F#8
    expectTag tag
    expect 0x3E#8
    pure arr

/-- `XmlAttributeArray`, asn1crt/asn1crt.h:178-186: names and values. -/
abbrev XmlAttrs := List (List Byte × List Byte)

/-- `AddAttribute`, asn1crt/asn1crt_encoding_xer.c:210-217. `none` is the `NULL` pointer. `Name` has 50 characters, `Value` 100, the
array 20 elements. -/
def addAttribute (attrs : Option XmlAttrs) (name val : List Byte) : XM (Option XmlAttrs) :=
  match attrs with
  | none => xUb
  | some l =>
    if l.length < 20 then
      if name.length < 50 ∧ val.length < 100 then pure (some (l ++ [(name, val)])) else xUb
    else xAbort

/-- `Xer_DecodeAttributes`, asn1crt/asn1crt_encoding_xer.c:362-397. The first argument bounds the number of rounds; each round moves
forward, so one more than the octets left is enough. -/
def decodeAttributes : Nat → Option XmlAttrs → XM (Option XmlAttrs)
  | 0, _ => xFail
  | n + 1, attrs => do
    let t ← la
    if t.id = 0x3E then pure attrs
    else do
      let t1 ← nt
      if t1.id ≠ wordId then xFail else do
        expect 0x3D#8
        expect 0x22#8
        let t2 ← nt
        if t2.id ≠ wordId then xFail else do
          expect 0x22#8
          let attrs ← addAttribute attrs t1.value t2.value
          decodeAttributes n attrs

/-- The loop over the attributes, asn1crt/asn1crt_encoding_xer.c:415-428. -/
def encodeAttributes : XmlAttrs → XM Unit
  | [] => pure ()
  | (n, v) :: l => do
    appendString n
    appendString [0x3D#8]
    appendString [0x22#8]
    appendString v
    appendString [0x22#8]
    encodeAttributes l

/-- `Xer_EncodeComplexElementStart`, asn1crt/asn1crt_encoding_xer.c:400-437; a `NULL` array has no attributes. -/
def encodeElementStart (tag : List Byte) (attrs : XmlAttrs) (level : Int) : XM Unit :=
  if (cstr tag).length = 0 then pure () else do
    putSpace level
    appendString [0x3C#8]
    appendString tag
    encodeAttributes attrs
    appendString [0x3E#8]
    putNLIf level

/-- `Xer_DecodeComplexElementStart`, asn1crt/asn1crt_encoding_xer.c:439-479. -/
def decodeElementStart (tag : List Byte) (attrs : Option XmlAttrs) : XM (Option XmlAttrs) :=
  if (cstr tag).length = 0 then pure attrs else do
    expect 0x3C#8
    expectTag tag
    let s ← xGet
    let attrs ← decodeAttributes (s.count - s.currentByte + 1) attrs
    let t ← nt
    if t.id = 0x2F then do
      expect 0x3E#8
      pure attrs
    else if t.id ≠ 0x3E then xFail
    else pure attrs

/-- `Xer_EncodeComplexElementEnd`, asn1crt/asn1crt_encoding_xer.c:481-503. -/
def encodeElementEnd (tag : List Byte) (level : Int) : XM Unit :=
  if (cstr tag).length = 0 then pure () else do
    putSpace level
    appendString [0x3C#8]
    appendString [0x2F#8]
    appendString tag
    appendString [0x3E#8]
    putNLIf level

/-- `Xer_DecodeComplexElementEnd`, asn1crt/asn1crt_encoding_xer.c:505-534. -/
def decodeElementEnd (tag : List Byte) : XM Unit :=
  if (cstr tag).length = 0 then pure () else do
    expect 0x3C#8
    expect 0x2F#8
    expectTag tag
    expect 0x3E#8

/-! ## Encoders of values -/

/-- `Xer_EncodeNull`, asn1crt/asn1crt_encoding_xer.c:539-543. -/
def xerEncodeNull (tag : List Byte) (level : Int) : XM Unit := encodePrimitiveElement tag [] level

/-- `Xer_EncodeInteger`, asn1crt/asn1crt_encoding_xer.c:545-548. -/
def xerEncodeInteger (tag : List Byte) (v : Int) (level : Int) : XM Unit := encodePrimitiveElement tag (int2String v) level

/-- `Xer_EncodePosInteger`, asn1crt/asn1crt_encoding_xer.c:550-553. -/
def xerEncodePosInteger (tag : List Byte) (v : Nat) (level : Int) : XM Unit := encodePrimitiveElement tag (uint2String v) level

/-- `"true"`. -/
def txtTrue : List Byte := chars ['t', 'r', 'u', 'e']

/-- `"false"`. -/
def txtFalse : List Byte := chars ['f', 'a', 'l', 's', 'e']

/-- `Xer_EncodeBoolean`, asn1crt/asn1crt_encoding_xer.c:555-568. -/
def xerEncodeBoolean (tag : List Byte) (v : Bool) (level : Int) : XM Unit :=
  if (cstr tag).length = 0 then encodePrimitiveElement (if v then txtTrue else txtFalse) [] level
  else encodePrimitiveElement tag ([0x3C#8] ++ (if v then txtTrue else txtFalse) ++ [0x2F#8, 0x3E#8]) level

/-- `Xer_EncodeEnumerated`, asn1crt/asn1crt_encoding_xer.c:570-598: `strcat` into `tmp[256]` is undefined when the label does not
fit; nothing else is done with `tmp`. -/
def xerEncodeEnumerated (tag value : List Byte) (level : Int) : XM Unit :=
  if (cstr value).length + 4 > 256 then xUb
  else if (cstr tag).length = 0 then encodePrimitiveElement value [] level
  else do
    putSpace level
    encodeElementStart tag [] (-1)
    encodePrimitiveElement value [] (-1)
    encodeElementEnd tag (-1)
    putNL

/-- `Xer_EncodeString`, asn1crt/asn1crt_encoding_xer.c:605-608. -/
def xerEncodeString (tag value : List Byte) (level : Int) : XM Unit := encodePrimitiveElement tag value level

/-- A hexadecimal digit of `%02X`. -/
def hexDigit (n : Nat) : Byte := BitVec.ofNat 8 (if n < 10 then 0x30 + n else 0x37 + n)

/-- The loop over the octets, asn1crt/asn1crt_encoding_xer.c:621-627. -/
def hexLoop (value : List Byte) : (n i : Nat) → XM Unit
  | 0, _ => pure ()
  | n + 1, i => do
    let b ← xArrGet value i
    appendString [hexDigit (b.toNat / 16), hexDigit (b.toNat % 16)]
    hexLoop value n (i + 1)

/-- `Xer_EncodeOctetString`, asn1crt/asn1crt_encoding_xer.c:610-635. -/
def xerEncodeOctetString (tag value : List Byte) (nCount : Nat) (level : Int) : XM Unit := do
  putSpace level
  encodeElementStart tag [] (-1)
  hexLoop value nCount 0
  encodeElementEnd tag (-1)
  putNL

/-- The loop over the bits, asn1crt/asn1crt_encoding_xer.c:652-663. -/
def bitLoop (value : List Byte) : (n i : Nat) → XM Unit
  | 0, _ => pure ()
  | n + 1, i => do
    let b ← xArrGet value (i / 8)
    appendString [if b.getMsbD (i % 8) then 0x31#8 else 0x30#8]
    bitLoop value n (i + 1)

/-- `Xer_EncodeBitString`, asn1crt/asn1crt_encoding_xer.c:637-671. -/
def xerEncodeBitString (tag value : List Byte) (nCount : Nat) (level : Int) : XM Unit := do
  putSpace level
  encodeElementStart tag [] (-1)
  bitLoop value nCount 0
  encodeElementEnd tag (-1)
  putNL

/-- The loop over the components behind the first, asn1crt/asn1crt_encoding_xer.c:691-697. -/
def arcsLoop : List Nat → XM Unit
  | [] => pure ()
  | v :: l => do
    appendString (0x2E#8 :: uint2String v)
    arcsLoop l

/-- `Xer_EncodeObjectIdentifier`, asn1crt/asn1crt_encoding_xer.c:674-705; `values` are the first `nCount` components. -/
def xerEncodeObjectIdentifier (tag : List Byte) (values : List Nat) (level : Int) : XM Unit := do
  putSpace level
  encodeElementStart tag [] (-1)
  (match values with
  | [] => pure ()
  | v :: l => do
    appendString (uint2String v)
    arcsLoop l)
  encodeElementEnd tag (-1)
  putNL

/-! ## Looking ahead -/

/-- `f` and then `pByteStrm->currentByte = save` whatever the outcome; the flag becomes a value. -/
def peekFlag {α : Type} (f : XM α) : XM (Option α) := fun s =>
  match f s with
  | .ok (r, s') => .ok (some r, { s' with currentByte := s.currentByte })
  | .ub => .ub
  | .abort => .abort

/-- `t = NT(…); if (t.TokenID == '/') { if (NT(…).TokenID == '>') … } else if (t.TokenID != '>') …`,
asn1crt/asn1crt_encoding_xer.c:1018-1034 and 1058-1074. -/
def tagEnd : XM Unit := do
  let t ← nt
  if t.id = 0x2F then expect 0x3E#8
  else if t.id ≠ 0x3E then xFail
  else pure ()

/-- `Xer_NextEndElementIs`, asn1crt/asn1crt_encoding_xer.c:970-999. -/
def nextEndElementIs (tag : List Byte) : XM Bool := do
  let r ← peekFlag (do expect 0x3C#8; expect 0x2F#8; expectTag tag; expect 0x3E#8)
  pure r.isSome

/-- `Xer_NextStartElementIs`, asn1crt/asn1crt_encoding_xer.c:1002-1038. -/
def nextStartElementIs (tag : List Byte) : XM Bool := do
  let r ← peekFlag (do expect 0x3C#8; expectTag tag; tagEnd)
  pure r.isSome

/-- `Xer_LA_NextElementTag`, asn1crt/asn1crt_encoding_xer.c:1041-1080: the tag is copied before it is looked at, so it may be that
of another token; callers use it only when the function returns `TRUE`. The caller's array has at least 100 characters. -/
def laNextElementTag : XM (List Byte) := do
  let r ← peekFlag (do
    expect 0x3C#8
    let t ← nt
    if t.id ≠ wordId then xFail else do
      tagEnd
      pure t.value)
  match r with
  | some v => pure v
  | none => xFail

/-! ## Decoders of values -/

/-- `char tmp[n]; memset(tmp, 0, sizeof(tmp)); Xer_DecodePrimitiveElement(…, tmp, sizeof(tmp), …)`: the string in `tmp`. -/
def primitiveText (tag : List Byte) (n : Nat) : XM (List Byte) := do
  let tmp ← decodePrimitiveElement tag (List.replicate n 0#8) n
  pure (cstr tmp)

/-- `Xer_DecodeNull`, asn1crt/asn1crt_encoding_xer.c:716-724. -/
def xerDecodeNull (tag : List Byte) : XM Unit := do
  let _ ← primitiveText tag 256
  pure ()

/-- `Xer_DecodeInteger`, asn1crt/asn1crt_encoding_xer.c:730-738. -/
def xerDecodeInteger (tag : List Byte) : XM Int := do
  let tmp ← primitiveText tag 256
  atollC tmp

/-- `Xer_DecodePosInteger`, asn1crt/asn1crt_encoding_xer.c:740-748. -/
def xerDecodePosInteger (tag : List Byte) : XM Nat := do
  let tmp ← primitiveText tag 256
  pure (strtoullC tmp)

/-- `if (hasExtTag) if (!Xer_DecodeComplexElementStart(…, NULL, …)) return FALSE;`. -/
def openTag (tag : List Byte) : XM Unit :=
  if (cstr tag).length > 0 then do
    let _ ← decodeElementStart tag none
    pure ()
  else pure ()

/-- `if (hasExtTag) if (!Xer_DecodeComplexElementEnd(…)) return FALSE;`. -/
def closeTag (tag : List Byte) : XM Unit :=
  if (cstr tag).length > 0 then decodeElementEnd tag else pure ()

/-- `Xer_DecodeBoolean`, asn1crt/asn1crt_encoding_xer.c:750-779. -/
def xerDecodeBoolean (tag : List Byte) : XM Bool := do
  openTag tag
  let t ← laNextElementTag
  if t = txtTrue then do
    let _ ← primitiveText txtTrue 256
    closeTag tag
    pure true
  else do
    let _ ← primitiveText txtFalse 256
    closeTag tag
    pure false

/-- `Xer_DecodeEnumerated`, asn1crt/asn1crt_encoding_xer.c:781-802: the label. -/
def xerDecodeEnumerated (tag : List Byte) : XM (List Byte) := do
  openTag tag
  let value ← laNextElementTag
  let _ ← primitiveText value 256
  closeTag tag
  pure value

/-- `Xer_DecodeString`, asn1crt/asn1crt_encoding_xer.c:815-818: the array after the call. -/
def xerDecodeString (tag arr : List Byte) (valSize : Nat) : XM (List Byte) := decodePrimitiveElement tag arr valSize

/-- `for (i = 0; i<len; i++) { if (isspace(tmp[i])) continue; tmp[j++] = tmp[i]; } len = j;`,
asn1crt/asn1crt_encoding_xer.c:848-856, 942-948: the first `len` characters. -/
def stripSpaces (l : List Byte) : List Byte := l.filter (fun b => !isSpaceC b)

/-- `CharToNibble`, asn1crt/asn1crt_encoding_xer.c:821-836. -/
def charToNibble (c : Byte) : Option Byte :=
  if 0x30 ≤ c.toNat ∧ c.toNat ≤ 0x39 then some (c - 0x30#8)
  else if 0x41 ≤ c.toNat ∧ c.toNat ≤ 0x46 then some (c - 0x37#8)
  else if 0x61 ≤ c.toNat ∧ c.toNat ≤ 0x66 then some (c - 0x57#8)
  else none

/-- `for (i = 0; i<len && i / 2 < bufferMaxSize; i++) …`, asn1crt/asn1crt_encoding_xer.c:858-868; the list is `tmp` from `i` on. -/
def nibbleLoop (bufferMaxSize : Nat) : List Byte → (i : Nat) → List Byte → XM (List Byte)
  | [], _, value => pure value
  | c :: l, i, value =>
    if i / 2 < bufferMaxSize then
      match charToNibble c with
      | none => xFail
      | some nibble => do
        let value ← (if i % 2 = 0 then xArrSet value (i / 2) (nibble <<< 4) else do
          let b ← xArrGet value (i / 2)
          xArrSet value (i / 2) (b ||| nibble))
        nibbleLoop bufferMaxSize l (i + 1) value
    else pure value

/-- `Xer_DecodeOctetString`, asn1crt/asn1crt_encoding_xer.c:838-873: the array after the call and `*nCount`. -/
def xerDecodeOctetString (tag value : List Byte) (bufferMaxSize : Nat) : XM (List Byte × Nat) := do
  let tmp ← primitiveText tag 1024
  let tmp := stripSpaces tmp
  let value ← nibbleLoop bufferMaxSize tmp 0 value
  pure (value, tmp.length / 2 + tmp.length % 2)

/-- `for (i = 0; i<len && i / 8 < bufferMaxSize; i++) …`, asn1crt/asn1crt_encoding_xer.c:957-961; the list is `tmp` from `i` on. -/
def bitsLoop (bufferMaxSize : Nat) : List Byte → (i : Nat) → List Byte → XM (List Byte)
  | [], _, value => pure value
  | c :: l, i, value =>
    if i / 8 < bufferMaxSize then do
      let b ← xArrGet value (i / 8)
      let value ← xArrSet value (i / 8) (b ||| ((c - 0x30#8) <<< (7 - i % 8)))
      bitsLoop bufferMaxSize l (i + 1) value
    else pure value

/-- `Xer_DecodeBitString`, asn1crt/asn1crt_encoding_xer.c:930-966: the array after the call and `*nCount`. `memset` clears as many
octets as the text has bits for, whatever the size of the array. -/
def xerDecodeBitString (tag value : List Byte) (bufferMaxSize : Nat) : XM (List Byte × Nat) := do
  let tmp ← primitiveText tag 2048
  let tmp := stripSpaces tmp
  let bytes := (tmp.length + 7) / 8
  if bytes > value.length then xUb else do
    let value ← bitsLoop bufferMaxSize tmp 0 (List.replicate bytes 0#8 ++ value.drop bytes)
    pure (value, tmp.length)

/-- The number of pieces `strtok(tmp, ".")` finds: maximal stretches without a point. -/
def countPieces : List Byte → Bool → Nat
  | [], _ => 0
  | c :: l, inside => if c = 0x2E#8 then countPieces l false else (if inside then 0 else 1) + countPieces l true

/-- `Xer_DecodeObjectIdentifier`, asn1crt/asn1crt_encoding_xer.c:878-909: `values` after the call. `tmp`, and not the piece `strtok` found, is given to `atoll`, whose text ends behind the first piece because `strtok` put a 0 there;
`nCount` is not set. The characters that white space removal leaves behind `len` stay part of the string. -/
def xerDecodeObjectIdentifier (tag : List Byte) (values : List Nat) : XM (List Nat) := do
  let tmp ← primitiveText tag 1024
  let tmp := stripSpaces tmp ++ tmp.drop (stripSpaces tmp).length
  let n := min (countPieces tmp false) values.length
  if n = 0 then pure values else do
    let v ← atollC (tmp.takeWhile (· == 0x2E#8) ++ (tmp.dropWhile (· == 0x2E#8)).takeWhile (· != 0x2E#8))
    pure (List.replicate n (v % 2 ^ 64).toNat ++ values.drop n)

/-- `Xer_EncodeComment`, asn1crt/asn1crt_encoding_xer.c:1084-1096. -/
def xerEncodeComment (comment : List Byte) : XM Unit := do
  appendString (chars ['<', '!', '-', '-'])
  appendString comment
  appendString (chars ['-', '-', '>'])

/-- `Xer_EncodeXmlHeader`, asn1crt/asn1crt_encoding_xer.c:1098-1107: `strcpy` to the beginning of the buffer, then a new line in place
of the 0, without any check. -/
def xerEncodeXmlHeader (hdr : List Byte) : XM Unit := fun s =>
  let h := cstr hdr
  if h.length < s.buf.length then
    .ok (some (), { s with buf := h ++ [0x0A#8] ++ s.buf.drop (h.length + 1), currentByte := h.length + 1 })
  else .ub

end Asn1
