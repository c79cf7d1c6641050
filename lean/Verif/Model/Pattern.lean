import Verif.Model.BitStream
/-!
# Bit patterns: asn1crt/asn1crt_encoding.c:1323-1386
-/
namespace Asn1

/-- Running a function on another stream object (`&tmpStrm` instead of `pBitStrm`). -/
def onStream {α : Type} (f : M α) (t : BitStream) : M (α × BitStream) := fun s =>
  match f t with
  | .ok (a, t') => .ok ((a, t'), s)
  | .ub => .ub
  | .abort => .abort

/-- `pBitStrm->currentByte = tmp_currentByte; pBitStrm->currentBit = tmp_currentBit;`,
asn1crt/asn1crt_encoding.c:1340-1341 and 1354-1355. -/
def restoreCursor (byte bit : Nat) : M Unit := modS fun s => { s with currentByte := byte, currentBit := bit }

/-- The `while` loop of `BitStream_checkBitPatternPresent`, asn1crt/asn1crt_encoding.c:1335-1346: `n` whole bytes left
from index `i`. `some v` is `return v`, `none` is leaving the loop. -/
def checkPatternBytes (pat : List Byte) (byte bit : Nat) : (n i : Nat) → M (Option Nat)
  | 0, _ => pure none
  | n + 1, i => do
    let p ← readByte
    if p.1 then do
      let b ← tblGet pat i
      if b ≠ p.2 then do
        restoreCursor byte bit
        pure (some 1)
      else checkPatternBytes pat byte bit n (i + 1)
    else pure (some 0)

/-- `BitStream_checkBitPatternPresent`, asn1crt/asn1crt_encoding.c:1323-1361. -/
def checkBitPatternPresent (pat : List Byte) (nbits : Nat) : M Nat := do
  let s ← getS
  if s.currentByte * 8 + s.currentBit + nbits > s.count * 8 then pure 0
  else do
    let r ← checkPatternBytes pat s.currentByte s.currentBit (nbits / 8) 0
    match r with
    | some v => pure v
    | none =>
      if nbits % 8 > 0 then do
        let p ← readPartialByte (nbits % 8)
        if p.1 then do
          let b ← tblGet pat (nbits / 8)
          if b ≠ p.2 <<< (8 - nbits % 8) then do
            restoreCursor s.currentByte s.currentBit
            pure 1
          else pure 2
        else pure 0
      else pure 2

/-- The `while` loop of `BitStream_ReadBits_nullterminated`, asn1crt/asn1crt_encoding.c:1373-1380: `left` is
`nMaxReadBits - *bitsRead`, `chk` is `checkBitPatternPresentResult`, `tmp` is `tmpStrm`.
Result: `ret`, `checkBitPatternPresentResult`, `*bitsRead`, `tmpStrm`. -/
def readBitsNTLoop (pat : List Byte) (nbits : Nat) : (left chk bitsRead : Nat) → (tmp : BitStream) →
    M (Bool × (Nat × Nat × BitStream))
  | 0, chk, bitsRead, tmp => pure (true, (chk, bitsRead, tmp))
  | left + 1, _, bitsRead, tmp => do
    let c ← checkBitPatternPresent pat nbits
    if c = 1 then do
      let p ← readBit
      if p.1 then do
        let t ← onStream (appendBit p.2) tmp
        readBitsNTLoop pat nbits left c (bitsRead + 1) t.2
      else pure (false, (c, bitsRead, tmp))
    else pure (true, (c, bitsRead, tmp))

/-- `BitStream_ReadBits_nullterminated`, asn1crt/asn1crt_encoding.c:1364-1386. `dst` is `BuffToWrite`; result: flag,
`*bitsRead` and the destination array. -/
def readBitsNullTerminated (pat : List Byte) (nbits : Nat) (dst : List Byte) (maxBits : Nat) : M (Bool × (Nat × List Byte)) := do
  match bitStreamInit dst (if maxBits % 8 = 0 then maxBits / 8 else maxBits / 8 + 1) with
  | .ok tmp => do
    let r ← readBitsNTLoop pat nbits maxBits 0 0 tmp
    let c ← (if r.1 ∧ r.2.2.1 = maxBits ∧ r.2.1 = 1 then checkBitPatternPresent pat nbits else pure r.2.1)
    pure (r.1 && decide (c = 2), (r.2.2.1, r.2.2.2.buf))
  | .ub => mUb
  | .abort => mAbort

end Asn1
