import Verif.Spec.Bits
/-!
# Specification: the bits of integer encodings (X.691), independent of the C code
-/
namespace Asn1

/-- A value of the range `lo..hi`: the offset from `lo` in the least number of bits that holds `hi - lo`
(X.691, 11.5.7.1, without the length limits of aligned PER). -/
def constrainedCode (lo hi v : Int) : List Bool := bitsMsb (bitLen (hi - lo).toNat) (v - lo).toNat

/-- Least number of octets, at least one, that holds the natural number `n`
(`C12_length_uint` states this in words that do not use `bitLen`). -/
def octetsNat (n : Nat) : Nat := max 1 ((bitLen n + 7) / 8)

/-- Least number of octets whose two's complement range contains `v` (`C12_length_sint_partial`). -/
def octetsInt (v : Int) : Nat := bitLen (if 0 ≤ v then v.toNat else (-v - 1).toNat) / 8 + 1

/-- A length octet followed by that many octets of the natural number `n`. -/
def lengthPrefixedNat (n : Nat) : List Bool :=
  bitsMsb 8 (octetsNat n) ++ bitsMsb (8 * octetsNat n) n

/-- A length octet followed by that many octets of two's complement. -/
def lengthPrefixedInt (v : Int) : List Bool :=
  bitsMsb 8 (octetsInt v) ++ bitsMsb (8 * octetsInt v) (v % 2 ^ (8 * octetsInt v)).toNat

end Asn1
