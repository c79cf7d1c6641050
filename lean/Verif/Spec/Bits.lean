/-!
# Specification vocabulary: bits

Independent of the model of the C code: numbers and bytes as lists of bits, most significant first.
-/
namespace Asn1

/-- The `w` low bits of `v`, most significant bit first. -/
def bitsMsb (w v : Nat) : List Bool := (List.range w).map fun i => v.testBit (w - 1 - i)

/-- The eight bits of a byte, most significant first. -/
def byteBits (b : BitVec 8) : List Bool := bitsMsb 8 b.toNat

/-- The bits of a byte sequence. -/
def bytesBits (l : List (BitVec 8)) : List Bool := l.flatMap byteBits

/-- The number with the given bits, most significant first. -/
def natOfBits (l : List Bool) : Nat := l.foldl (fun acc b => 2 * acc + b.toNat) 0

/-- Bit number `i` of a buffer (bit 0 is the most significant bit of byte 0); 0 past the end. -/
def bitAt (buf : List (BitVec 8)) (i : Nat) : Bool := (buf.getD (i / 8) 0#8).getMsbD (i % 8)

end Asn1

namespace Asn1

/-- Number of significant bits of a natural number (0 for 0). -/
def bitLen (v : Nat) : Nat := if v = 0 then 0 else Nat.log2 v + 1

/-- Complement of every bit when `neg`. -/
def negBits (neg : Bool) (l : List Bool) : List Bool := if neg then l.map (!·) else l

/-- `r` holds the bits `w`, left-justified and zero-padded to whole bytes. -/
def Packed (w : List Bool) (r : List (BitVec 8)) : Prop :=
  r.length = (w.length + 7) / 8 ∧ bytesBits r = w ++ List.replicate (8 * r.length - w.length) false

end Asn1
