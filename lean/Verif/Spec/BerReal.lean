import Verif.Spec.Ber
/-!
# Specification: contents octets of a REAL (X.690, 8.5)
-/
namespace Asn1

/-- Contents octets of a REAL held in a double: none for 0, one octet for the special values (8.5.9), otherwise the
binary encoding with base 2 (8.5.7): an octet with bit 8 set, the sign in bit 7 and the number of exponent octets minus one
in bits 2 and 1, the exponent, the mantissa. Deviation: the mantissa has all 53 bits of the double, DER wants it odd. -/
def berReal (d : BitVec 64) : List Byte :=
  let s : Nat := d.toNat / 2 ^ 63
  let e : Nat := d.toNat / 2 ^ 52 % 2 ^ 11
  let f : Nat := d.toNat % 2 ^ 52
  if d = 0#64 then []
  else if d = 0x7FF0000000000000#64 then [0x40#8]
  else if d = 0xFFF0000000000000#64 then [0x41#8]
  else if e = 2047 then [0x42#8]
  else BitVec.ofNat 8 (128 + 64 * s + (octetsInt ((e : Int) - 1075) - 1)) :: (berInt ((e : Int) - 1075) ++ natOctets (2 ^ 52 + f))

end Asn1
