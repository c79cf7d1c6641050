import Verif.Model.Ber
import Verif.Spec.Ints
/-!
# Specification: BER octets (X.690), and what it means to write and to read them
-/
namespace Asn1

/-- The `k` least significant octets of `n`, most significant first. -/
def beOctets : (k n : Nat) → List Byte
  | 0, _ => []
  | k + 1, n => BitVec.ofNat 8 (n / 256 ^ k) :: beOctets k n

/-- The octets of a natural number without leading zero octets (but at least one octet). -/
def natOctets (n : Nat) : List Byte := beOctets (octetsNat n) n

/-- The number that octets represent, most significant first. -/
def octetsVal (l : List Byte) : Nat := l.foldl (fun a b => 256 * a + b.toNat) 0

/-- Length octets in the definite form (X.690, 8.1.3): one octet up to 127, otherwise the number of the following
octets with the highest bit set, then the length in the least number of octets. -/
def berLength (n : Nat) : List Byte :=
  if n < 128 then [BitVec.ofNat 8 n] else BitVec.ofNat 8 (128 + octetsNat n) :: natOctets n

/-- Identifier octets (given as a number, as the C code does), length octets, contents octets (X.690, 8.1.1). -/
def berTlv (tag : Nat) (contents : List Byte) : List Byte := natOctets tag ++ berLength contents.length ++ contents

/-- Contents octets of an INTEGER (X.690, 8.3): two's complement in the least number of octets. -/
def berInt (v : Int) : List Byte := beOctets (octetsInt v) (v % 2 ^ (8 * octetsInt v)).toNat

/-- Contents octets of a BOOLEAN (X.690, 8.2 and 11.1). -/
def berBool (b : Bool) : List Byte := [if b then 0xFF#8 else 0#8]

/-- Contents octets of a BIT STRING of `n` bits (X.690, 8.6): the number of unused bits in the last octet, then the octets. -/
def berBits (n : Nat) (octets : List Byte) : List Byte := BitVec.ofNat 8 ((n + 7) / 8 * 8 - n) :: octets

/-- Two numbers are the identifier octets of the same tag: they differ at most in bit 6 of the first octet, the
primitive/constructed bit (X.690, 8.1.2.5). -/
def SameTag (a b : Nat) : Prop :=
  (natOctets a).length = (natOctets b).length ∧ (natOctets a).tail = (natOctets b).tail ∧
    (natOctets a).head?.map (· ||| 0x20#8) = (natOctets b).head?.map (· ||| 0x20#8)

/-- The octets of a well-formed identifier (X.690, 8.1.2): one octet whose last five bits are not all 1, or one with
all of them 1, octets with the highest bit set, and an octet without. -/
def TagOctets (l : List Byte) : Prop :=
  ∃ a rest, l = a :: rest ∧
    ((rest = [] ∧ a &&& 0x1F#8 ≠ 0x1F#8) ∨
     (a &&& 0x1F#8 = 0x1F#8 ∧ ∃ mid last, rest = mid ++ [last] ∧ (∀ b ∈ mid, b &&& 0x80#8 = 0x80#8) ∧ last &&& 0x80#8 = 0#8))

/-- `enc` writes exactly `octets` at the position of any stream with enough room and touches nothing else; `dec` then reads them
from any stream that holds them at this position, returns `v` and stops behind them. -/
def BerRoundTrip {α : Type} (enc : BM Unit) (octets : List Byte) (dec : BM α) (v : α) : Prop :=
  ∀ s : ByteStream, s.count ≤ s.buf.length → s.currentByte + octets.length ≤ s.count →
    ∃ s', enc s = .ok (.ok (), s') ∧ s'.currentByte = s.currentByte + octets.length ∧ s'.count = s.count ∧
      s'.buf = s.buf.take s.currentByte ++ octets ++ s.buf.drop s'.currentByte ∧
      ∀ t : ByteStream, t.count ≤ t.buf.length → t.currentByte = s.currentByte → s'.currentByte ≤ t.count →
        (∀ i, s.currentByte ≤ i → i < s'.currentByte → t.buf[i]? = s'.buf[i]?) →
        dec t = .ok (.ok v, { t with currentByte := s'.currentByte })

/-- `f` runs without undefined behaviour on every stream whose object is one octet larger than `count`, and changes
nothing but the position. -/
def BerSafe {α : Type} (f : BM α) : Prop :=
  ∀ s : ByteStream, s.count < s.buf.length → ∃ r p, f s = .ok (r, { s with currentByte := p })

/-- `l` are length octets that say `n` in the definite form, short or long, not necessarily the shortest (X.690, 8.1.3.3-8.1.3.5). -/
def LengthOctets (l : List Byte) (n : Nat) : Prop :=
  (∃ b : Byte, b.toNat < 128 ∧ l = [b] ∧ n = b.toNat) ∨
  (∃ (b : Byte) (m : List Byte), l = b :: m ∧ b.toNat = 128 + m.length ∧ m ≠ [] ∧ n = octetsVal m)

/-- `l` are the identifier octets `tag`, up to the primitive/constructed bit. -/
def IdentOctets (l : List Byte) (tag : Nat) : Prop :=
  l.length = (natOctets tag).length ∧ l.tail = (natOctets tag).tail ∧
    l.head?.map (· ||| 0x20#8) = (natOctets tag).head?.map (· ||| 0x20#8)

/-- The octets between the positions of two states of the same stream. -/
def consumed (s s' : ByteStream) : List Byte := (s.buf.drop s.currentByte).take (s'.currentByte - s.currentByte)

/-- The value of octets in two's complement. -/
def octetsInt' (l : List Byte) : Int :=
  if 2 * octetsVal l < 256 ^ l.length then octetsVal l else (octetsVal l : Int) - 256 ^ l.length

end Asn1
