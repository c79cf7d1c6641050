import Verif.Model.Types
/-!
# The sizes the compiler announces

`REQUIRED_BITS_FOR_ENCODING`, `REQUIRED_BYTES_FOR_ENCODING` and the minimum size of a type.
-/
namespace Asn1

/-- `GetNumberOfBitsForNonNegativeInteger`, CommonTypes/FsUtils.fs:535-546: the first of 1 … 100 bits that suffices. Above
`2 ^ 100 - 1` the compiler stops with an internal error, here the result is 0. -/
def numBits (a : Int) : Nat :=
  if a > 0 then (((List.range 100).map (· + 1)).find? (fun i => decide (a ≤ 2 ^ i - 1))).getD 0 else 0

/-- `GetChoiceUperDeterminantLengthInBits`, CommonTypes/FsUtils.fs:555-558. -/
def choiceBits (n : Nat) : Nat := if n > 1 then numBits ((n : Int) - 1) else 0

/-- `getRequiredBitsForIntUperEncoding`, FrontEndAst/uPER.fs:270-273, with `integerSizeInBytes = 8`. -/
def intMinBits : Rng → Nat
  | .concrete a b => numBits (b - a)
  | _ => 8
def intMaxBits : Rng → Nat
  | .concrete a b => numBits (b - a)
  | _ => (8 + 1) * 8

/-- `getSizeableTypeSize`, FrontEndAst/uPER.fs:275-280, the first component. -/
def sizeableMin (a b k : Nat) : Nat :=
  if a = b ∧ b < 65536 then a * k
  else if a ≠ b ∧ b < 65536 then a * k + numBits ((b : Int) - a)
  else a * k + numBits ((b : Int) - a)

/-- `getSizeableTypeSize`, FrontEndAst/uPER.fs:275-280, the second component. -/
def sizeableMax (a b k : Nat) : Nat :=
  if a = b ∧ b < 65536 then b * k
  else if a ≠ b ∧ b < 65536 then b * k + numBits ((b : Int) - a)
  else b * k + (b / 65536 + 3) * 8

/-- The number of presence bits: `uperBitMaskSize`, FrontEndAst/AcnCreateFromAntlr.fs:1339. -/
def maskBits : Fields → Nat
  | .nil => 0
  | .cons .mandatory _ rest => maskBits rest
  | .cons _ _ rest => 1 + maskBits rest

mutual
/-- `uperMaxSizeInBits` of a type. INTEGER: FrontEndAst/AcnCreateFromAntlr.fs:260-265 (a constraint with an extension marker
has the range `Full`, FrontEndAst/uPER.fs:20-21; the case of further constraints next to it is left out here, see
`C34_violation_serial`); string 445-446; OCTET STRING 507; BIT STRING 559-560 (computed from the sizes after WITH
COMPONENTS); OBJECT IDENTIFIER 359-362; REAL 332-333; ENUMERATED 773; SEQUENCE OF 1185-1186; SEQUENCE 1339-1342 and 1377; CHOICE 1488-1490 and
1507-1508; references 1582-1612 (without CONTAINING). -/
def maxBits : Ty → Nat
  | .int _ r => intMaxBits r
  | .intExt _ _ _ => 1 + intMaxBits .full
  | .bool => 1
  | .null => 0
  | .enum items _ _ => numBits ((items.length : Int) - 1)
  | .octets lo hi => sizeableMax lo hi 8
  | .bits _ _ alo ahi => sizeableMax alo ahi 1
  | .str alphabet lo hi => sizeableMax lo hi (numBits ((alphabet.length : Int) - 1))
  | .oid => 16 * 8 * 20 + 16
  | .relOid => 16 * 8 * 20 + 16
  | .real _ => (5 + 8) * 8
  | .seq fs => maskBits fs + maxFields fs
  | .seqOf lo hi t => sizeableMax lo hi (maxBits t)
  | .choice alts => choiceBits alts.length + maxAlts alts
  | .ref t => maxBits t
/-- The sum over all components. -/
def maxFields : Fields → Nat
  | .nil => 0
  | .cons _ t rest => maxBits t + maxFields rest
/-- The maximum over all alternatives. -/
def maxAlts : Alts → Nat
  | .nil => 0
  | .cons t rest => max (maxBits t) (maxAlts rest)
end

mutual
/-- `uperMinSizeInBits` of a type: the same lines as `maxBits`. -/
def minBits : Ty → Nat
  | .int _ r => intMinBits r
  | .intExt _ _ _ => 1 + intMinBits .full
  | .bool => 1
  | .null => 0
  | .enum items _ _ => numBits ((items.length : Int) - 1)
  | .octets lo hi => sizeableMin lo hi 8
  | .bits lo hi _ _ => sizeableMin lo hi 1
  | .str alphabet lo hi => sizeableMin lo hi (numBits ((alphabet.length : Int) - 1))
  | .oid => 16
  | .relOid => 16
  | .real _ => 8
  | .seq fs => maskBits fs + minFields fs
  | .seqOf lo hi t => sizeableMin lo hi (minBits t)
  | .choice alts => choiceBits alts.length + minAlts alts
  | .ref t => minBits t
/-- The sum over the mandatory components, FrontEndAst/AcnCreateFromAntlr.fs:1342. -/
def minFields : Fields → Nat
  | .nil => 0
  | .cons .mandatory t rest => minBits t + minFields rest
  | .cons _ _ rest => minFields rest
/-- The minimum over all alternatives. -/
def minAlts : Alts → Nat
  | .nil => 0
  | .cons t .nil => minBits t
  | .cons t rest => min (minBits t) (minAlts rest)
end

/-- `REQUIRED_BYTES_FOR_ENCODING`, BackendAst/DAstUPer.fs:108: the number of bits over eight, rounded up. Simplification: the
compiler divides floating point numbers, which is exact below `2 ^ 53`. -/
def requiredBytes (t : Ty) : Nat := (maxBits t + 7) / 8

end Asn1
