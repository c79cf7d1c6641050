import Verif.Model.AcnDigits

/-!
# ACN character strings

Models `/repo/asn1crt/asn1crt_encoding_acn.c` lines 1155-1447. A `const char*` argument is the list of the bytes of the
object it points to, a destination `char*` is the list of the bytes of the caller's array, which the decoders return
updated; accesses outside are undefined. Simplifications: the `asn1SccSint` maxima and minima and the `int` alphabet
sizes are natural numbers (their type constraints are non-negative), the `int` results of `strlen` are not truncated
(strings of less than 2^31 characters).
-/
namespace Asn1

/-- `strVal[i] = b`. -/
def dstSet (dst : List Byte) (i : Nat) (b : Byte) : M (List Byte) :=
  if i < dst.length then pure (dst.set i b) else mUb

/-- `memset(strVal, 0x0, n)`. -/
def dstZero (dst : List Byte) (n : Nat) : M (List Byte) :=
  if n ≤ dst.length then pure (List.replicate n 0#8 ++ dst.drop n) else mUb

/-- `strlen` of the C library: undefined when the object holds no zero byte. -/
def strLen : List Byte → M Nat
  | [] => mUb
  | b :: t => if b = 0#8 then pure 0 else do
    let n ← strLen t
    pure (n + 1)

/-! ### encoders -/

/-- The loop of `Acn_Enc_String_Ascii_FixSize`, asn1crt/asn1crt_encoding_acn.c:1158-1161: `k` characters left. -/
def encAsciiFixLoop (str : List Byte) : (k i : Nat) → M Unit
  | 0, _ => pure ()
  | k + 1, i => do
    let c ← tblGet str i
    appendByte c false
    encAsciiFixLoop str k (i + 1)

/-- `Acn_Enc_String_Ascii_FixSize`, asn1crt/asn1crt_encoding_acn.c:1155-1162. -/
def acnEncStrAsciiFixSize (max : Nat) (str : List Byte) : M Unit := encAsciiFixLoop str max 0

/-- The loop of `Acn_Enc_String_Ascii_private`, asn1crt/asn1crt_encoding_acn.c:1169-1172: `k` is `max - i`. The result of
the function is not used by its callers and is left out. -/
def encAsciiLoop (str : List Byte) : (k i : Nat) → M Unit
  | 0, _ => pure ()
  | k + 1, i => do
    let c ← tblGet str i
    if c ≠ 0#8 then do
      appendByte c false
      encAsciiLoop str k (i + 1)
    else pure ()

/-- `Acn_Enc_String_Ascii_private`, asn1crt/asn1crt_encoding_acn.c:1164-1174. -/
def acnEncStrAsciiPrivate (max : Nat) (str : List Byte) : M Unit := encAsciiLoop str max 0

/-- `Acn_Enc_String_Ascii_Null_Terminated`, asn1crt/asn1crt_encoding_acn.c:1176-1180. -/
def acnEncStrAsciiNullTerminated (max : Nat) (nul : Byte) (str : List Byte) : M Unit := do
  acnEncStrAsciiPrivate max str
  appendByte nul false

/-- The loop of `Acn_Enc_String_Ascii_Null_Terminated_mult`, asn1crt/asn1crt_encoding_acn.c:1185-1187. -/
def appendBytesF : List Byte → M Unit
  | [] => pure ()
  | b :: t => do
    appendByte b false
    appendBytesF t

/-- `Acn_Enc_String_Ascii_Null_Terminated_mult`, asn1crt/asn1crt_encoding_acn.c:1182-1188; `null_character_size` is the
length of `nul`. -/
def acnEncStrAsciiNullTerminatedMult (max : Nat) (nul : List Byte) (str : List Byte) : M Unit := do
  acnEncStrAsciiPrivate max str
  appendBytesF nul

/-- `Acn_Enc_String_Ascii_External_Field_Determinant`, asn1crt/asn1crt_encoding_acn.c:1191-1194. -/
def acnEncStrAsciiExternal (max : Nat) (str : List Byte) : M Unit := acnEncStrAsciiPrivate max str

/-- `Acn_Enc_String_Ascii_Internal_Field_Determinant`, asn1crt/asn1crt_encoding_acn.c:1196-1201. -/
def acnEncStrAsciiInternal (max min : Nat) (str : List Byte) : M Unit := do
  let n ← strLen str
  encodeConstraintWholeNumber (if n ≤ max then n else max) min max
  acnEncStrAsciiPrivate max str

/-- The loop of `Acn_Enc_String_CharIndex_FixSize`, asn1crt/asn1crt_encoding_acn.c:1206-1210. -/
def encIndexFixLoop (set : List Byte) (setSize : Nat) (str : List Byte) : (k i : Nat) → M Unit
  | 0, _ => pure ()
  | k + 1, i => do
    let c ← tblGet str i
    let idx ← getCharIndex c set setSize
    encodeConstraintWholeNumber idx 0 ((setSize : Int) - 1)
    encIndexFixLoop set setSize str k (i + 1)

/-- `Acn_Enc_String_CharIndex_FixSize`, asn1crt/asn1crt_encoding_acn.c:1203-1211. -/
def acnEncStrIndexFixSize (max : Nat) (set : List Byte) (setSize : Nat) (str : List Byte) : M Unit :=
  encIndexFixLoop set setSize str max 0

/-- The loop of `Acn_Enc_String_CharIndex_private`, asn1crt/asn1crt_encoding_acn.c:1220-1224. -/
def encIndexLoop (set : List Byte) (setSize : Nat) (str : List Byte) : (k i : Nat) → M Unit
  | 0, _ => pure ()
  | k + 1, i => do
    let c ← tblGet str i
    if c ≠ 0#8 then do
      let idx ← getCharIndex c set setSize
      encodeConstraintWholeNumber idx 0 ((setSize : Int) - 1)
      encIndexLoop set setSize str k (i + 1)
    else pure ()

/-- `Acn_Enc_String_CharIndex_private`, asn1crt/asn1crt_encoding_acn.c:1213-1226. -/
def acnEncStrIndexPrivate (max : Nat) (set : List Byte) (setSize : Nat) (str : List Byte) : M Unit :=
  encIndexLoop set setSize str max 0

/-- `Acn_Enc_String_CharIndex_External_Field_Determinant`, asn1crt/asn1crt_encoding_acn.c:1229-1232. -/
def acnEncStrIndexExternal (max : Nat) (set : List Byte) (setSize : Nat) (str : List Byte) : M Unit :=
  acnEncStrIndexPrivate max set setSize str

/-- `Acn_Enc_String_CharIndex_Internal_Field_Determinant`, asn1crt/asn1crt_encoding_acn.c:1234-1239. -/
def acnEncStrIndexInternal (max : Nat) (set : List Byte) (setSize min : Nat) (str : List Byte) : M Unit := do
  let n ← strLen str
  encodeConstraintWholeNumber (if n ≤ max then n else max) min max
  acnEncStrIndexPrivate max set setSize str

/-- The table `allowedCharSet`, asn1crt/asn1crt_encoding_acn.c:1244-1253, 1260-1269, 1412-1424, 1431-1443: the 128
characters of IA5String in order. -/
def ia5Set : List Byte := (List.range 128).map (BitVec.ofNat 8)

/-- `Acn_Enc_IA5String_CharIndex_External_Field_Determinant`, asn1crt/asn1crt_encoding_acn.c:1242-1256. -/
def acnEncIa5External (max : Nat) (str : List Byte) : M Unit := acnEncStrIndexPrivate max ia5Set 128 str

/-- `Acn_Enc_IA5String_CharIndex_Internal_Field_Determinant`, asn1crt/asn1crt_encoding_acn.c:1258-1274. -/
def acnEncIa5Internal (max min : Nat) (str : List Byte) : M Unit := do
  let n ← strLen str
  encodeConstraintWholeNumber (if n ≤ max then n else max) min max
  acnEncStrIndexPrivate max ia5Set 128 str

/-! ### decoders -/

/-- The loop of `Acn_Dec_String_Ascii_private`, asn1crt/asn1crt_encoding_acn.c:1285-1290: `k` characters left. -/
def decAsciiLoop : (k i : Nat) → (dst : List Byte) → M (Bool × List Byte)
  | 0, _, dst => pure (true, dst)
  | k + 1, i, dst => do
    let r ← readByte
    if r.1 then do
      let dst ← dstSet dst i r.2
      decAsciiLoop k (i + 1) dst
    else pure (false, dst)

/-- `Acn_Dec_String_Ascii_private`, asn1crt/asn1crt_encoding_acn.c:1277-1292. -/
def acnDecStrAsciiPrivate (max : Nat) (n : Int) (dst : List Byte) : M (Bool × List Byte) := do
  let dst ← dstZero dst (max + 1)
  decAsciiLoop n.toNat 0 dst

/-- `Acn_Dec_String_Ascii_FixSize`, asn1crt/asn1crt_encoding_acn.c:1295-1298. -/
def acnDecStrAsciiFixSize (max : Nat) (dst : List Byte) : M (Bool × List Byte) := acnDecStrAsciiPrivate max max dst

/-- The loop of `Acn_Dec_String_Ascii_Null_Terminated`, asn1crt/asn1crt_encoding_acn.c:1307-1320: `k` is `max + 1 - i`. -/
def decAsciiNullLoop (nul : Byte) : (k i : Nat) → (dst : List Byte) → M (Bool × List Byte)
  | 0, _, dst => pure (false, dst)
  | k + 1, i, dst => do
    let r ← readByte
    if r.1 then
      if r.2 ≠ nul then do
        let dst ← dstSet dst i r.2
        decAsciiNullLoop nul k (i + 1) dst
      else do
        let dst ← dstSet dst i 0#8
        pure (true, dst)
    else pure (false, dst)

/-- `Acn_Dec_String_Ascii_Null_Terminated`, asn1crt/asn1crt_encoding_acn.c:1302-1322. -/
def acnDecStrAsciiNullTerminated (max : Nat) (nul : Byte) (dst : List Byte) : M (Bool × List Byte) := do
  let dst ← dstZero dst (max + 1)
  decAsciiNullLoop nul (max + 1) 0 dst

/-- The loop of `Acn_Dec_String_Ascii_Null_Terminated_mult` and what follows it,
asn1crt/asn1crt_encoding_acn.c:1337-1347: `k` is `max + 1 - i`, `win` are the first `sz` bytes of `tmp`. -/
def decAsciiMultLoop (nul : List Byte) (sz : Nat) : (k i : Nat) → (win dst : List Byte) → M (Bool × List Byte)
  | 0, i, win, dst => do
    let dst ← dstSet dst i 0#8
    let eq ← memEq nul win sz
    pure (eq, dst)
  | k + 1, i, win, dst => do
    let eq ← memEq nul win sz
    if eq then do
      let dst ← dstSet dst i 0#8
      pure (true, dst)
    else do
      let c ← tblGet win 0
      let dst ← dstSet dst i c
      let r ← readByte
      if r.1 then decAsciiMultLoop nul sz k (i + 1) (win.tail ++ [r.2]) dst else pure (false, dst)

/-- `Acn_Dec_String_Ascii_Null_Terminated_mult`, asn1crt/asn1crt_encoding_acn.c:1324-1349. -/
def acnDecStrAsciiNullTerminatedMult (max : Nat) (nul : List Byte) (dst : List Byte) : M (Bool × List Byte) := do
  let sz := if nul.length < 10 then nul.length else 10
  let dst ← dstZero dst (max + 1)
  let w ← windowFill sz
  if w.1 then decAsciiMultLoop nul sz (max + 1) 0 w.2 dst else pure (false, dst)

/-- `n <= max ? n : max`, asn1crt/asn1crt_encoding_acn.c:1354, 1363, 1396, 1404, 1425, 1446. -/
def clip (n : Int) (max : Nat) : Int := if n ≤ max then n else max

/-- `Acn_Dec_String_Ascii_External_Field_Determinant`, asn1crt/asn1crt_encoding_acn.c:1352-1355. -/
def acnDecStrAsciiExternal (max : Nat) (det : Int) (dst : List Byte) : M (Bool × List Byte) :=
  acnDecStrAsciiPrivate max (clip det max) dst

/-- `Acn_Dec_String_Ascii_Internal_Field_Determinant`, asn1crt/asn1crt_encoding_acn.c:1357-1365. -/
def acnDecStrAsciiInternal (max min : Nat) (dst : List Byte) : M (Bool × List Byte) := do
  let n ← decodeConstraintWholeNumber min max
  if n.1 then acnDecStrAsciiPrivate max (clip n.2 max) dst else pure (false, dst)

/-- The loop of `Acn_Dec_String_CharIndex_private`, asn1crt/asn1crt_encoding_acn.c:1376-1384: `k` characters left. -/
def decIndexLoop (set : List Byte) (setSize : Nat) : (k i : Nat) → (dst : List Byte) → M (Bool × List Byte)
  | 0, _, dst => pure (true, dst)
  | k + 1, i, dst => do
    let r ← decodeConstraintWholeNumber 0 ((setSize : Int) - 1)
    if r.1 then
      if r.2 < 0 ∨ r.2 ≥ setSize then pure (false, dst) else do
        let c ← tblGet set r.2.toNat
        let dst ← dstSet dst i c
        decIndexLoop set setSize k (i + 1) dst
    else pure (false, dst)

/-- `Acn_Dec_String_CharIndex_private`, asn1crt/asn1crt_encoding_acn.c:1367-1386. -/
def acnDecStrIndexPrivate (max : Nat) (n : Int) (set : List Byte) (setSize : Nat) (dst : List Byte) : M (Bool × List Byte) := do
  let dst ← dstZero dst (max + 1)
  decIndexLoop set setSize n.toNat 0 dst

/-- `Acn_Dec_String_CharIndex_FixSize`, asn1crt/asn1crt_encoding_acn.c:1389-1392. -/
def acnDecStrIndexFixSize (max : Nat) (set : List Byte) (setSize : Nat) (dst : List Byte) : M (Bool × List Byte) :=
  acnDecStrIndexPrivate max max set setSize dst

/-- `Acn_Dec_String_CharIndex_External_Field_Determinant`, asn1crt/asn1crt_encoding_acn.c:1394-1397. -/
def acnDecStrIndexExternal (max : Nat) (set : List Byte) (setSize : Nat) (det : Int) (dst : List Byte) : M (Bool × List Byte) :=
  acnDecStrIndexPrivate max (clip det max) set setSize dst

/-- `Acn_Dec_String_CharIndex_Internal_Field_Determinant`, asn1crt/asn1crt_encoding_acn.c:1399-1405. -/
def acnDecStrIndexInternal (max : Nat) (set : List Byte) (setSize min : Nat) (dst : List Byte) : M (Bool × List Byte) := do
  let n ← decodeConstraintWholeNumber min max
  if n.1 then acnDecStrIndexPrivate max (clip n.2 max) set setSize dst else pure (false, dst)

/-- `Acn_Dec_IA5String_CharIndex_External_Field_Determinant`, asn1crt/asn1crt_encoding_acn.c:1410-1426. -/
def acnDecIa5External (max : Nat) (det : Int) (dst : List Byte) : M (Bool × List Byte) :=
  acnDecStrIndexPrivate max (clip det max) ia5Set 128 dst

/-- `Acn_Dec_IA5String_CharIndex_Internal_Field_Determinant`, asn1crt/asn1crt_encoding_acn.c:1428-1447. -/
def acnDecIa5Internal (max min : Nat) (dst : List Byte) : M (Bool × List Byte) := do
  let n ← decodeConstraintWholeNumber min max
  if n.1 then acnDecStrIndexPrivate max (clip n.2 max) ia5Set 128 dst else pure (false, dst)

end Asn1
