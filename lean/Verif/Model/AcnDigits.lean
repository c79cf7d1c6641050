import Verif.Model.AcnInt
import Verif.Model.Search

/-!
# ACN integers as decimal digits: BCD and ASCII

Models `/repo/asn1crt/asn1crt_encoding_acn.c` lines 526-905.
-/
namespace Asn1

/-- The loop of `Acn_Get_Int_Size_BCD`, asn1crt/asn1crt_encoding_acn.c:531-535, with a step budget: a 64-bit value is 0
after at most 20 divisions by 10 (`bcdSize_eq` proves the budget is never used up). -/
def bcdSizeLoop : (fuel : Nat) → (v : U64) → Nat
  | 0, _ => 0
  | k + 1, v => if v > 0#64 then bcdSizeLoop k (v / 10#64) + 1 else 0

/-- `Acn_Get_Int_Size_BCD`, asn1crt/asn1crt_encoding_acn.c:528-537. -/
def bcdSize (v : U64) : Nat := bcdSizeLoop 64 v

/-- The loop `while (intVal>0) { tmp[totalNibbles++] = intVal % 10; intVal /= 10; }`,
asn1crt/asn1crt_encoding_acn.c:552-555 and 660-663, 749-753: `k` free elements of `tmp` left. The result is what was stored. -/
def digitLoop : (k : Nat) → (v : U64) → M (List Byte)
  | 0, v => if v > 0#64 then mUb else pure []
  | k + 1, v => if v > 0#64 then do
      let t ← digitLoop k (v / 10#64)
      pure ((v % 10#64).setWidth 8 :: t)
    else pure []

/-- The loop of `Acn_Enc_Int_BCD_ConstSize`, asn1crt/asn1crt_encoding_acn.c:558-560: `k` is `i + 1`. -/
def bcdEncLoop (tmp : List Byte) : (k : Nat) → M Unit
  | 0 => pure ()
  | k + 1 => do
    let d ← tblGet tmp k
    appendPartialByte d 4 false
    bcdEncLoop tmp k

/-- `Acn_Enc_Int_BCD_ConstSize`, asn1crt/asn1crt_encoding_acn.c:542-563. `tmp` is the stored digits followed by the
zeros of the `memset`. -/
def acnEncBcdConstSize (v : U64) (n : Nat) : M Unit := do
  assertC (decide (100 ≥ n))
  let ds ← digitLoop 100 v
  assertC (decide (n ≥ ds.length))
  bcdEncLoop (ds ++ List.replicate (100 - ds.length) 0#8) n
  assertInBounds

/-- The loop of `Acn_Dec_Int_BCD_ConstSize`, asn1crt/asn1crt_encoding_acn.c:573-582: `k` nibbles left. -/
def bcdDecLoop : (k : Nat) → (ret : U64) → M (Bool × U64)
  | 0, ret => pure (true, ret)
  | k + 1, ret => do
    let d ← readPartialByte 4
    if d.1 then bcdDecLoop k (ret * 10#64 + d.2.setWidth 64) else pure (false, ret)

/-- `Acn_Dec_Int_BCD_ConstSize`, asn1crt/asn1crt_encoding_acn.c:567-586. -/
def acnDecBcdConstSize (n : Nat) : M (Bool × U64) := bcdDecLoop n 0#64

/-- `Acn_Enc_Int_BCD_VarSize_LengthEmbedded`, asn1crt/asn1crt_encoding_acn.c:589-600. -/
def acnEncBcdLengthEmbedded (v : U64) : M Unit := do
  let nNibbles := bcdSize v
  let _ ← appendByte0 (BitVec.ofNat 8 nNibbles)
  acnEncBcdConstSize v nNibbles
  assertInBounds

/-- `Acn_Dec_Int_BCD_VarSize_LengthEmbedded`, asn1crt/asn1crt_encoding_acn.c:602-610 (`WORD_SIZE` is 8). -/
def acnDecBcdLengthEmbedded : M (Bool × U64) := do
  let n ← readByte
  if n.1 then
    if n.2.toNat > 16 then pure (false, 0#64) else acnDecBcdConstSize n.2.toNat
  else pure (false, 0#64)

/-- `Acn_Enc_Int_BCD_VarSize_NullTerminated`, asn1crt/asn1crt_encoding_acn.c:615-626. -/
def acnEncBcdNullTerminated (v : U64) : M Unit := do
  let nNibbles := bcdSize v
  acnEncBcdConstSize v nNibbles
  appendPartialByte 0xF#8 4 false
  assertInBounds

/-- The loop of `Acn_Dec_Int_BCD_VarSize_NullTerminated`, asn1crt/asn1crt_encoding_acn.c:633-643, with a step budget;
running out of it counts as undefined (a loop that does not end). -/
def bcdNullLoop : (fuel : Nat) → (ret : U64) → M (Bool × U64)
  | 0, _ => mUb
  | k + 1, ret => do
    let d ← readPartialByte 4
    if d.1 then
      if d.2.toNat > 9 then pure (true, ret) else bcdNullLoop k (ret * 10#64 + d.2.setWidth 64)
    else pure (false, ret)

/-- `Acn_Dec_Int_BCD_VarSize_NullTerminated`, asn1crt/asn1crt_encoding_acn.c:628-647. Every iteration consumes four
bits, so `8 * count + 1` iterations are more than any run needs. -/
def acnDecBcdNullTerminated : M (Bool × U64) := do
  let s ← getS
  bcdNullLoop (8 * s.count + 1) 0#64

/-- The loop of `Acn_Enc_UInt_ASCII_ConstSize`, asn1crt/asn1crt_encoding_acn.c:666-668: `k` is `i + 1`. -/
def asciiEncLoop (tmp : List Byte) : (k : Nat) → M Unit
  | 0 => pure ()
  | k + 1 => do
    let d ← tblGet tmp k
    let _ ← appendByte0 (d + 48#8)
    asciiEncLoop tmp k

/-- `Acn_Enc_UInt_ASCII_ConstSize`, asn1crt/asn1crt_encoding_acn.c:650-671. The size is an `int` and may be negative
(it is -1 when the signed encoder is called with size 0). -/
def acnEncUIntAsciiConstSize (v : U64) (n : Int) : M Unit := do
  assertC (decide (100 ≥ n))
  let ds ← digitLoop 100 v
  assertC (decide (n ≥ ds.length))
  asciiEncLoop (ds ++ List.replicate (100 - ds.length) 0#8) n.toNat
  assertInBounds

/-- `intVal >= 0 ? (asn1SccUint)intVal : (asn1SccUint)(-intVal)`, asn1crt/asn1crt_encoding_acn.c:676, 770, 846. -/
def absUInt (v : Int) : M U64 :=
  if v ≥ 0 then pure (BitVec.ofInt 64 v) else do
    let w ← chk (-v)
    pure (BitVec.ofInt 64 w)

/-- `intVal >= 0 ? '+' : '-'`, asn1crt/asn1crt_encoding_acn.c:679, 777, 847. -/
def signByte (v : Int) : Byte := if v ≥ 0 then 43#8 else 45#8

/-- `Acn_Enc_SInt_ASCII_ConstSize`, asn1crt/asn1crt_encoding_acn.c:674-686. -/
def acnEncSIntAsciiConstSize (v : Int) (n : Int) : M Unit := do
  let a ← absUInt v
  let _ ← appendByte0 (signByte v)
  acnEncUIntAsciiConstSize a (n - 1)

/-- The loop of `Acn_Dec_UInt_ASCII_ConstSize`, asn1crt/asn1crt_encoding_acn.c:693-704: `k` characters left.
`ASSERT_OR_RETURN_FALSE` aborts in the build without `NDEBUG`. -/
def asciiDecLoop : (k : Nat) → (ret : U64) → M (Bool × U64)
  | 0, ret => pure (true, ret)
  | k + 1, ret => do
    let d ← readByte
    if d.1 then do
      assertC (decide (d.2.toNat ≥ 48 ∧ d.2.toNat ≤ 57))
      asciiDecLoop k (ret * 10#64 + (d.2 - 48#8).setWidth 64)
    else pure (false, ret)

/-- `Acn_Dec_UInt_ASCII_ConstSize`, asn1crt/asn1crt_encoding_acn.c:688-708. -/
def acnDecUIntAsciiConstSize (n : Int) : M (Bool × U64) := asciiDecLoop n.toNat 0#64

/-- `Acn_Dec_SInt_ASCII_ConstSize`, asn1crt/asn1crt_encoding_acn.c:710-737. -/
def acnDecSIntAsciiConstSize (n : Int) : M (Bool × Int) := do
  let d ← readByte
  if d.1 then
    if d.2 = 43#8 ∨ d.2 = 45#8 then do
      let r ← acnDecUIntAsciiConstSize (n - 1)
      if r.1 then do
        let x ← chk ((if d.2 = 43#8 then 1 else -1) * r.2.toInt)
        pure (true, x)
      else pure (false, 0)
    else mAbort
  else pure (false, 0)

/-- `getIntegerDigits`, asn1crt/asn1crt_encoding_acn.c:742-762: the digits as characters, most significant first (the
part of `digitsArray100` before its first zero byte); their number is `*totalDigits`. The loop condition
`*totalDigits < 100` is the bound of `digitLoop`. -/
def getIntegerDigits (v : U64) : M (List Byte) :=
  if v > 0#64 then do
    let ds ← digitLoop 100 v
    pure (ds.reverse.map (· + 48#8))
  else pure [48#8]

/-- `while (i < 100 && digitsArray100[i] != 0x0) BitStream_AppendByte0(pBitStrm, digitsArray100[i++])`,
asn1crt/asn1crt_encoding_acn.c:780-783, 799-802, 835-838, and the terminator loop 839-840 (the characters are never 0). -/
def appendChars : List Byte → M Unit
  | [] => pure ()
  | b :: t => do
    let _ ← appendByte0 b
    appendChars t

/-- `Acn_Enc_SInt_ASCII_VarSize_LengthEmbedded`, asn1crt/asn1crt_encoding_acn.c:765-787. -/
def acnEncSIntAsciiLengthEmbedded (v : Int) : M Unit := do
  let a ← absUInt v
  let ds ← getIntegerDigits a
  let _ ← appendByte0 (BitVec.ofNat 8 ds.length + 1#8)
  let _ ← appendByte0 (signByte v)
  appendChars ds
  assertInBounds

/-- `Acn_Enc_UInt_ASCII_VarSize_LengthEmbedded`, asn1crt/asn1crt_encoding_acn.c:789-806. -/
def acnEncUIntAsciiLengthEmbedded (v : U64) : M Unit := do
  let ds ← getIntegerDigits v
  let _ ← appendByte0 (BitVec.ofNat 8 ds.length)
  appendChars ds
  assertInBounds

/-- `Acn_Dec_UInt_ASCII_VarSize_LengthEmbedded`, asn1crt/asn1crt_encoding_acn.c:809-816. -/
def acnDecUIntAsciiLengthEmbedded : M (Bool × U64) := do
  let n ← readByte
  if n.1 then acnDecUIntAsciiConstSize n.2.toNat else pure (false, 0#64)

/-- `Acn_Dec_SInt_ASCII_VarSize_LengthEmbedded`, asn1crt/asn1crt_encoding_acn.c:818-825. -/
def acnDecSIntAsciiLengthEmbedded : M (Bool × Int) := do
  let n ← readByte
  if n.1 then acnDecSIntAsciiConstSize n.2.toNat else pure (false, 0)

/-- `Acn_Enc_UInt_ASCII_VarSize_NullTerminated`, asn1crt/asn1crt_encoding_acn.c:829-842; `null_characters_size` is the
length of `nul`. -/
def acnEncUIntAsciiNullTerminated (v : U64) (nul : List Byte) : M Unit := do
  let ds ← getIntegerDigits v
  appendChars ds
  appendChars nul
  assertInBounds

/-- `Acn_Enc_SInt_ASCII_VarSize_NullTerminated`, asn1crt/asn1crt_encoding_acn.c:844-850. -/
def acnEncSIntAsciiNullTerminated (v : Int) (nul : List Byte) : M Unit := do
  let a ← absUInt v
  let _ ← appendByte0 (signByte v)
  acnEncUIntAsciiNullTerminated a nul

/-- Reading the first `sz` bytes into `tmp`, asn1crt/asn1crt_encoding_acn.c:862-865, 1331-1334. -/
def windowFill : (k : Nat) → M (Bool × List Byte)
  | 0 => pure (true, [])
  | k + 1 => do
    let r ← readByte
    if r.1 then do
      let t ← windowFill k
      pure (t.1, r.2 :: t.2)
    else pure (false, [])

/-- The loop of `Acn_Dec_UInt_ASCII_VarSize_NullTerminated`, asn1crt/asn1crt_encoding_acn.c:867-878, with a step budget;
`win` are the first `sz` bytes of `tmp`. With `sz == 0` the loop condition is false at once. -/
def asciiNullLoop (nul : List Byte) (sz : Nat) : (fuel : Nat) → (win : List Byte) → (ret : U64) → M (Bool × U64)
  | 0, _, _ => mUb
  | k + 1, win, ret => do
    let eq ← memEq nul win sz
    if eq then pure (true, ret) else do
      let digit ← tblGet win 0
      let r ← readByte
      if r.1 then asciiNullLoop nul sz k (win.tail ++ [r.2]) (ret * 10#64 + (digit - 48#8).setWidth 64)
      else pure (false, ret)

/-- `Acn_Dec_UInt_ASCII_VarSize_NullTerminated`, asn1crt/asn1crt_encoding_acn.c:853-883. Every iteration consumes a byte,
so `8 * count + 1` iterations are more than any run needs. -/
def acnDecUIntAsciiNullTerminated (nul : List Byte) : M (Bool × U64) := do
  let sz := if nul.length < 10 then nul.length else 10
  let w ← windowFill sz
  if w.1 then do
    let s ← getS
    asciiNullLoop nul sz (8 * s.count + 1) w.2 0#64
  else pure (false, 0#64)

/-- `Acn_Dec_SInt_ASCII_VarSize_NullTerminated`, asn1crt/asn1crt_encoding_acn.c:886-905. -/
def acnDecSIntAsciiNullTerminated (nul : List Byte) : M (Bool × Int) := do
  let d ← readByte
  if d.1 then do
    assertC (decide (d.2 = 45#8 ∨ d.2 = 43#8))
    let r ← acnDecUIntAsciiNullTerminated nul
    if r.1 then
      if d.2 = 45#8 then do
        let x ← chk (-r.2.toInt)
        pure (true, x)
      else pure (true, r.2.toInt)
    else pure (false, 0)
  else pure (false, 0)

end Asn1
