import Verif.Spec.Bits
/-!
# Specification: object identifiers (X.690, 8.19 and 8.20; X.691, 24), independent of the C code
-/
namespace Asn1

/-- The leading octets of a subidentifier: base 128, most significant digit first, each with its high bit set. -/
def subidLead (n : Nat) : List Nat :=
  if n = 0 then [] else subidLead (n / 128) ++ [128 + n % 128]
termination_by n
decreasing_by omega

/-- A subidentifier: base 128, most significant digit first, no leading zero digit, the high bit set in every
octet but the last (X.690, 8.19.2). -/
def subidOctets (n : Nat) : List Nat := subidLead (n / 128) ++ [n % 128]

/-- Contents octets of a list of subidentifiers. -/
def oidOctets (l : List Nat) : List Nat := l.flatMap subidOctets

/-- Length (one octet below 128, two octets `10......` from there on) and contents. -/
def oidCode (octets : List Nat) : List Bool :=
  (if octets.length < 128 then bitsMsb 8 octets.length else true :: bitsMsb 15 octets.length) ++
    octets.flatMap (bitsMsb 8)

/-- The subidentifiers of an object identifier: the first two components are combined (X.690, 8.19.4). -/
def oidSubids : List Nat → List Nat
  | a :: b :: rest => (40 * a + b) :: rest
  | _ => []

end Asn1
