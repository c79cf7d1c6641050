import Verif.Model.AcnGen
import Verif.Model.Sizes
/-!
# The sizes the compiler announces for ACN

`<Type>_REQUIRED_BITS_FOR_ACN_ENCODING`, `<Type>_REQUIRED_BYTES_FOR_ACN_ENCODING` and the minimum size of a type.
-/
namespace Asn1

/-- `getAlignmentSize`, FrontEndAst/AcnEncodingClasses.fs:11-16. -/
def alignBits : Align → Nat
  | .byte => 7
  | .word => 15
  | .dword => 31

/-- The same for an alignment that may be missing. -/
def alignOptBits : Option Align → Nat
  | none => 0
  | some a => alignBits a

/-- `maxDigitsInInteger`, FrontEndAst/AcnEncodingClasses.fs:35-42, with `integerSizeInBytes = 8`: the digits of 18446744073709551615 and of 9223372036854775807. -/
def maxDigits (unsigned : Bool) : Nat := if unsigned then 20 else 19

/-- `GetIntEncodingClass`, FrontEndAst/AcnEncodingClasses.fs:34-125: the maximum, without the alignment. -/
def aintMax (r : Rng) (enc : IntEnc) : Nat :=
  match enc with
  | .uper => intMaxBits r
  | .const n => n
  | .const8 => 8
  | .big size => 8 * size
  | .little size => 8 * size
  | .bcd n => 4 * n
  | .bcdNull => 4 + maxDigits r.unsigned * 4
  | .ascii n => 8 * n
  | .asciiNull nul => if r.unsigned then nul.length * 8 + maxDigits true * 8 else nul.length * 8 + 8 + 8 + maxDigits false * 8

/-- `GetIntEncodingClass`, FrontEndAst/AcnEncodingClasses.fs:34-125: the minimum. -/
def aintMin (r : Rng) (enc : IntEnc) : Nat :=
  match enc with
  | .uper => intMinBits r
  | .const n => n
  | .const8 => 8
  | .big size => 8 * size
  | .little size => 8 * size
  | .bcd n => 4 * n
  | .bcdNull => 4
  | .ascii n => 8 * n
  | .asciiNull nul => nul.length * 8

/-- `GetBooleanEncodingClass`, FrontEndAst/AcnEncodingClasses.fs:254-259. -/
def aboolSize : BoolEnc → Nat
  | .uper => 1
  | .onePattern _ _ _ n => n
  | .twoPatterns _ _ n => n

/-- INTEGER, BOOLEAN and ENUMERATED (`GetEnumeratedEncodingClass`, FrontEndAst/AcnEncodingClasses.fs:128-136), maximum without alignment. The front end numbers the items of
an ENUMERATED whose values are not encoded, so that both cases have the range of the encoded values. -/
def leafMax : ALeaf → Nat
  | .int _ r enc _ => aintMax r enc
  | .bool e => aboolSize e
  | .enum items _ enc => aintMax (enumRng items) enc

/-- The same, minimum. -/
def leafMin : ALeaf → Nat
  | .int _ r enc _ => aintMin r enc
  | .bool e => aboolSize e
  | .enum items _ enc => aintMin (enumRng items) enc

/-- `GetOctetBitSeqofEncodingClass` without a size property, FrontEndAst/AcnEncodingClasses.fs:218-227, maximum. `ncount` is whether the sizes of the type without WITH COMPONENTS
differ. -/
def embeddedMax (ncount : Bool) (lo hi k : Nat) : Nat := if ncount then hi * k + numBits ((hi : Int) - lo) else hi * k

/-- The same, minimum: the code multiplies with the maximum `k` of an element (lines 223 and 226). -/
def embeddedMin (ncount : Bool) (lo hi k : Nat) : Nat := if ncount then lo * k + numBits ((hi : Int) - lo) else lo * k

/-- A type without ACN properties, maximum: FrontEndAst/AcnEncodingClasses.fs:218-240 for OCTET STRING and BIT STRING, 199 for strings, 49 for INTEGER, 152 for REAL; OBJECT
IDENTIFIER FrontEndAst/AcnCreateFromAntlr.fs:350-369; the other types as in uPER. -/
def primMax : Ty → Nat
  | .octets lo hi => embeddedMax (decide (lo ≠ hi)) lo hi 8
  | .bits lo hi alo ahi => embeddedMax (decide (lo ≠ hi)) alo ahi 1
  | t => maxBits t

/-- The same, minimum. -/
def primMin : Ty → Nat
  | .octets lo hi => embeddedMin (decide (lo ≠ hi)) lo hi 8
  | .bits lo hi alo ahi => embeddedMin (decide (lo ≠ hi)) alo ahi 1
  | t => minBits t

/-- `acnBitMaskSize`, FrontEndAst/AcnCreateFromAntlr.fs:1345-1351. -/
def amaskBits : AFields → Nat
  | .nil => 0
  | .asn1 (.optional .bit _) _ rest => 1 + amaskBits rest
  | .asn1 _ _ rest => amaskBits rest
  | .acn _ _ _ rest => amaskBits rest
  | .acnNull _ _ rest => amaskBits rest

mutual
/-- `acnMaxSizeInBits` of a type. NULL: `GetNullEncodingClass`, FrontEndAst/AcnEncodingClasses.fs:246-252; REAL 149-169; strings `GetStringEncodingClass` 182-207; OCTET STRING,
BIT STRING, SEQUENCE OF with an external size 228-232; SEQUENCE FrontEndAst/AcnCreateFromAntlr.fs:1358-1359; CHOICE `GetChoiceEncodingClass`,
FrontEndAst/AcnEncodingClasses.fs:262-277; references FrontEndAst/AcnCreateFromAntlr.fs:1585 (without CONTAINING). The alignment is added at the end of each of these functions. -/
def acnMaxBits : ATy → Nat
  | .prim t => primMax t
  | .leaf l => leafMax l
  | .nullPat _ n => n
  | .real64 _ _ => 64
  | .real32 _ _ => 32
  | .octets _ hi _ _ => hi * 8
  | .bits _ hi _ _ => hi * 1
  | .strAscii _ lo hi => numBits ((hi : Int) - lo) + hi * 8
  | .strNull _ _ hi nul => hi * 8 + nul.length * 8
  | .strExt _ _ hi _ => hi * 8
  | .strIdx alphabet _ hi _ => hi * numBits ((alphabet.length : Int) - 1)
  | .seq fs => amaskBits fs + acnMaxFields fs
  | .seqOf lo hi none t => embeddedMax (decide (lo ≠ hi)) lo hi (acnMaxBits t)
  | .seqOf _ hi (some _) t => hi * acnMaxBits t
  | .choice byDet alts => (if byDet then 0 else choiceBits alts.length) + acnMaxAlts alts
  | .ref _ t => acnMaxBits t
  | .align a t => acnMaxBits t + alignBits a
/-- The sum over all components and inserted fields. -/
def acnMaxFields : AFields → Nat
  | .nil => 0
  | .asn1 _ t rest => acnMaxBits t + acnMaxFields rest
  | .acn _ a l rest => leafMax l + alignOptBits a + acnMaxFields rest
  | .acnNull _ n rest => n + acnMaxFields rest
/-- The maximum over all alternatives. -/
def acnMaxAlts : AAlts → Nat
  | .nil => 0
  | .cons _ t rest => max (acnMaxBits t) (acnMaxAlts rest)
end

mutual
/-- `acnMinSizeInBits` of a type: the same lines; SEQUENCE FrontEndAst/AcnCreateFromAntlr.fs:1352-1357 and 1360. -/
def acnMinBits : ATy → Nat
  | .prim t => primMin t
  | .leaf l => leafMin l
  | .nullPat _ n => n
  | .real64 _ _ => 64
  | .real32 _ _ => 32
  | .octets lo _ _ _ => lo * 8
  | .bits lo _ _ _ => lo * 1
  | .strAscii _ lo hi => numBits ((hi : Int) - lo) + lo * 8
  | .strNull _ lo _ nul => lo * 8 + nul.length * 8
  | .strExt _ lo _ _ => lo * 8
  | .strIdx alphabet lo _ _ => lo * numBits ((alphabet.length : Int) - 1)
  | .seq fs => amaskBits fs + acnMinFields fs
  | .seqOf lo hi none t => embeddedMin (decide (lo ≠ hi)) lo hi (acnMaxBits t)
  | .seqOf lo _ (some _) t => lo * acnMinBits t
  | .choice byDet alts => (if byDet then 0 else choiceBits alts.length) + acnMinAlts alts
  | .ref _ t => acnMinBits t
  | .align _ t => acnMinBits t
/-- The sum over the components that are not OPTIONAL (among them those that a WITH COMPONENTS makes absent) and the inserted fields. -/
def acnMinFields : AFields → Nat
  | .nil => 0
  | .asn1 (.optional _ _) _ rest => acnMinFields rest
  | .asn1 _ t rest => acnMinBits t + acnMinFields rest
  | .acn _ _ l rest => leafMin l + acnMinFields rest
  | .acnNull _ n rest => n + acnMinFields rest
/-- The minimum over all alternatives. -/
def acnMinAlts : AAlts → Nat
  | .nil => 0
  | .cons _ t .nil => acnMinBits t
  | .cons _ t rest => min (acnMinBits t) (acnMinAlts rest)
end

/-- `REQUIRED_BYTES_FOR_ACN_ENCODING`, BackendAst/Acn/AcnFunctionWrapper.fs:49: the number of bits over eight, rounded up. Simplification: the compiler divides floating point
numbers, which is exact below `2 ^ 53`. -/
def acnRequiredBytes (t : ATy) : Nat := (acnMaxBits t + 7) / 8

end Asn1
