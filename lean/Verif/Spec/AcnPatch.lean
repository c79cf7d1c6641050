import Verif.Model.AcnPatch
import Verif.Spec.Acn
import Verif.Spec.CStrings
/-!
# Specification: patched determinants, independent of the C code that patches
-/
namespace Asn1

/-- The kinds that exist: 2, 4 or 8 octets; at most 64 bits. -/
def DetKind.Legal : DetKind → Prop
  | .uBig size | .uLittle size | .iBig size => size = 2 ∨ size = 4 ∨ size = 8
  | .constSize n => n ≤ 64
  | .twosConstSize n => 1 ≤ n ∧ n ≤ 64
  | _ => True

/-- Number of bits of the determinant. -/
def DetKind.width : DetKind → Nat
  | .u8 | .i8 => 8
  | .uBig size | .uLittle size | .iBig size => 8 * size
  | .bool1 => 1
  | .constSize n | .twosConstSize n => n

/-- The value fits in the determinant (for the signed kinds the 64-bit word is a two's complement number). -/
def DetKind.Fits : DetKind → U64 → Prop
  | .u8, v => v.toNat < 256
  | .uBig size, v | .uLittle size, v => v.toNat < 2 ^ (8 * size)
  | .i8, v => FitsTwos 8 v.toInt
  | .iBig size, v => FitsTwos (8 * size) v.toInt
  | .bool1, v => v.toNat < 2
  | .constSize n, v => v.toNat < 2 ^ n
  | .twosConstSize n, v => FitsTwos n v.toInt

/-- The bits that say `v`: octets least significant first for the little endian kinds, else the binary number. -/
def DetKind.code : DetKind → U64 → List Bool
  | .uLittle size, v => littleCode size v.toNat
  | k, v => bitsMsb k.width v.toNat

/-- The bits from `p` on are `w`. -/
def HoldsBits (buf : List Byte) (p : Nat) (w : List Bool) : Prop := ∀ i, i < w.length → bitAt buf (p + i) = w[i]?.getD false

/-- Nothing but the `n` bits from `p` on differs: same cursor, same size, same other bits. -/
structure OnlyAt (p n : Nat) (s s' : BitStream) : Prop where
  byte : s'.currentByte = s.currentByte
  bit : s'.currentBit = s.currentBit
  count : s'.count = s.count
  len : s'.buf.length = s.buf.length
  other : ∀ i, i < p ∨ p + n ≤ i → bitAt s'.buf i = bitAt s.buf i

/-- A reader that stands at `p`, over any buffer that agrees with `buf` on the bits `p`, …, `p + n - 1`, gets TRUE and
`v` from `dec` and stops at `p + n`. -/
def ReadsAt {α : Type} (dec : M (Bool × α)) (v : α) (buf : List Byte) (p n : Nat) : Prop :=
  ∀ t, Wf t → t.pos = p → p + n ≤ 8 * t.count → (∀ i, p ≤ i → i < p + n → bitAt t.buf i = bitAt buf i) →
    ∃ t', dec t = .ok ((true, v), t') ∧ t'.pos = p + n ∧ t'.buf = t.buf ∧ t'.count = t.count

/-- A string padded with blanks to `n` characters. -/
def blankPad (n : Nat) (str : List Byte) : List Byte := str ++ List.replicate (n - str.length) 0x20#8

/-- Seven bits per character. -/
def sevenBits (str : List Byte) : List Bool := (str.map fun c => bitsMsb 7 c.toNat).flatten

/-- The first `n` characters agree. -/
def SamePrefix (n : Nat) (a b : List Byte) : Prop := a.take n = b.take n

end Asn1
