import Verif.Model.BitStream
import Verif.Spec.Stream
/-!
# Specification vocabulary: sequences of calls of the bit stream API
-/
namespace Asn1

/-- One call of an append function of asn1crt_encoding.h. -/
inductive AppendCall where
  | bit (v : Bool)                               -- BitStream_AppendBit
  | bitOne                                       -- BitStream_AppendBitOne
  | bitZero                                      -- BitStream_AppendBitZero
  | nBitZero (n : Nat)                           -- BitStream_AppendNBitZero
  | nBitOne (n : Nat)                            -- BitStream_AppendNBitOne
  | bits (src : List Byte) (n : Nat)             -- BitStream_AppendBits
  | byte (v : Byte) (negate : Bool)              -- BitStream_AppendByte
  | byte0 (v : Byte)                             -- BitStream_AppendByte0
  | partialByte (v : Byte) (n : Nat) (negate : Bool)  -- BitStream_AppendPartialByte
  | byteArray (arr : List Byte) (n : Nat)        -- BitStream_AppendByteArray
  | octets (arr : List Byte) (n : Nat)           -- BitStream_EncodeOctetString_no_length

/-- The bits a call asks for. -/
def AppendCall.requested : AppendCall → List Bool
  | .bit v => [v]
  | .bitOne => [true]
  | .bitZero => [false]
  | .nBitZero n => List.replicate n false
  | .nBitOne n => List.replicate n true
  | .bits src n => (bytesBits src).take n
  | .byte v neg => negBits neg (byteBits v)
  | .byte0 v => byteBits v
  | .partialByte v n neg => negBits neg (bitsMsb n v.toNat)
  | .byteArray arr n => bytesBits (arr.take n)
  | .octets arr n => bytesBits (arr.take n)

/-- What the caller must respect: source arrays are large enough, a partial byte has 1 to 7 bits and no
bit outside them. `AppendByteArray` of exactly one byte is excluded: at a byte boundary it touches the byte
behind (see `C03_violation_appendByteArray`). -/
def AppendCall.legal : AppendCall → Prop
  | .bits src n => n ≤ 8 * src.length
  | .partialByte v n neg => 0 < n ∧ n < 8 ∧ (neg = true ∨ v.toNat < 2 ^ n)
  | .byteArray arr n => n ≤ arr.length ∧ n ≠ 1
  | .octets arr n => n ≤ arr.length
  | _ => True

/-- Perform the call; functions without a result count as successful. -/
def AppendCall.run : AppendCall → M Bool
  | .bit v => do appendBit v; pure true
  | .bitOne => do appendBitOne; pure true
  | .bitZero => do appendBitZero; pure true
  | .nBitZero n => do appendNBitZero n; pure true
  | .nBitOne n => do appendNBitOne n; pure true
  | .bits src n => do appendBits src n; pure true
  | .byte v neg => do appendByte v neg; pure true
  | .byte0 v => appendByte0 v
  | .partialByte v n neg => do appendPartialByte v n neg; pure true
  | .byteArray arr n => appendByteArray arr n
  | .octets arr n => encodeOctetStringNoLength arr n

/-- Perform calls one after the other, stop at the first failure. -/
def runAppends : List AppendCall → M Bool
  | [] => pure true
  | c :: cs => do
    let ok ← c.run
    if ok then runAppends cs else pure false

/-- All bits requested by a sequence of calls, in order. -/
def requestedBits (cs : List AppendCall) : List Bool := cs.flatMap AppendCall.requested

/-- One call of a read function. -/
inductive ReadCall where
  | bit                  -- BitStream_ReadBit
  | bits (n : Nat)       -- BitStream_ReadBits
  | byte                 -- BitStream_ReadByte
  | partialByte (n : Nat)  -- BitStream_ReadPartialByte
  | octets (n : Nat)     -- BitStream_DecodeOctetString_no_length

/-- Number of bits a call consumes. -/
def ReadCall.size : ReadCall → Nat
  | .bit => 1
  | .bits n => n
  | .byte => 8
  | .partialByte n => n
  | .octets n => 8 * n

/-- A partial byte has 1 to 7 bits. -/
def ReadCall.legal : ReadCall → Prop
  | .partialByte n => 0 < n ∧ n < 8
  | _ => True

/-- Perform the call; the value delivered to the caller is shown as the bits it stands for. For `ReadBits`
these are all the bits of the destination bytes; `ReadCall.expected` says that the unused ones are 0. -/
def ReadCall.run : ReadCall → M (Bool × List Bool)
  | .bit => do let r ← readBit; pure (r.1, [r.2])
  | .bits n => do let r ← readBits n; pure (r.1, bytesBits r.2)
  | .byte => do let r ← readByte; pure (r.1, byteBits r.2)
  | .partialByte n => do let r ← readPartialByte n; pure (r.1, byteBits r.2)
  | .octets n => do let r ← decodeOctetStringNoLength n; pure (r.1, bytesBits r.2)

/-- What a call must deliver when the next bits of the stream are `w`. -/
def ReadCall.expected : ReadCall → List Bool → List Bool
  | .bit, w => w
  | .bits n, w => w ++ List.replicate (8 * ((n + 7) / 8) - n) false
  | .byte, w => w
  | .partialByte n, w => List.replicate (8 - n) false ++ w
  | .octets _, w => w

/-- Perform read calls one after the other, collecting what each delivered. -/
def runReads : List ReadCall → M (Bool × List (List Bool))
  | [] => pure (true, [])
  | c :: cs => do
    let r ← c.run
    if r.1 then do
      let rs ← runReads cs
      pure (rs.1, r.2 :: rs.2)
    else pure (false, [])

/-- What a sequence of read calls must deliver from the bits `w`: each call takes the next bits. -/
def expectedReads : List ReadCall → List Bool → List (List Bool)
  | [], _ => []
  | c :: cs, w => c.expected (w.take c.size) :: expectedReads cs (w.drop c.size)

/-- Number of bits a sequence of read calls consumes. -/
def readSize (rs : List ReadCall) : Nat := (rs.map ReadCall.size).sum

end Asn1
