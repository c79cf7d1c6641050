import Verif.Spec.Uper
/-!
# Specification: the types whose decoder withstands arbitrary and truncated input

The conditions are about the type alone. Each excludes a form of type for which the emitted decoder is shown to fail
(see `Props/Gen.lean`).
-/
namespace Asn1

mutual
/-- Types whose decoder never leaves the buffer and never overflows, whatever the input is. Excluded:
a lower bound below zero without upper bound (the runtime adds it to what it read without a check; below an extension
marker any lower bound but zero); character strings and SEQUENCE OF with a *fixed* size of 65536 or more (the emitted
loops go on after a failure); an ENUMERATED without items; REAL (C58 shows what happens for some
headers). -/
def Guarded : Ty → Prop
  | .int _ r => ∀ a, r = .posInf a → 0 ≤ a
  | .intExt root _ _ => ∀ a, root = .posInf a → a = 0
  | .bool => True
  | .null => True
  | .enum items _ _ => 1 ≤ items.length
  | .octets _ _ => True
  | .bits _ _ _ _ => True
  | .str _ lo hi => ¬ (lo = hi ∧ 65536 ≤ hi)
  | .oid => True
  | .relOid => True
  | .real _ => False
  | .seq fs => GuardedFields fs
  | .seqOf lo hi t => ¬ (lo = hi ∧ 65536 ≤ hi) ∧ Guarded t
  | .choice alts => GuardedAlts alts
  | .ref t => Guarded t
def GuardedFields : Fields → Prop
  | .nil => True
  | .cons _ t rest => Guarded t ∧ GuardedFields rest
def GuardedAlts : Alts → Prop
  | .nil => True
  | .cons t rest => Guarded t ∧ GuardedAlts rest
end

mutual
/-- Types whose decoder refuses every truncated encoding. Excluded: an OCTET STRING of a variable size below 65536
that may be empty (the emitted code forgets that the length could not be read); with `strict` every OCTET STRING of
a variable size below 65536; fixed sizes as above. -/
def Tight (strict : Bool) : Ty → Prop
  | .int _ _ => True
  | .intExt _ _ _ => True
  | .bool => True
  | .null => True
  | .enum _ _ _ => True
  | .octets lo hi => lo = hi ∨ 65536 ≤ hi ∨ (strict = false ∧ 1 ≤ lo)
  | .bits _ _ _ _ => True
  | .str _ lo hi => ¬ (lo = hi ∧ 65536 ≤ hi)
  | .oid => True
  | .relOid => True
  | .real _ => True
  | .seq fs => TightFields strict fs
  | .seqOf lo hi t => ¬ (lo = hi ∧ 65536 ≤ hi) ∧ Tight strict t
  | .choice alts => TightAlts strict alts
  | .ref t => Tight strict t
def TightFields (strict : Bool) : Fields → Prop
  | .nil => True
  | .cons _ t rest => Tight strict t ∧ TightFields strict rest
def TightAlts (strict : Bool) : Alts → Prop
  | .nil => True
  | .cons t rest => Tight strict t ∧ TightAlts strict rest
end

mutual
/-- Types for which the compiler follows X.691. Excluded: an ENUMERATED whose items are not declared in ascending
order, unless the table is searched; a fixed size of 65536 or more that is a multiple of 16384; REAL. -/
def Conforming : Ty → Prop
  | .int _ _ => True
  | .intExt _ _ _ => True
  | .bool => True
  | .null => True
  | .enum items _ table => table ≠ none ∨ items.Pairwise (· < ·)
  | .octets lo hi => ¬ (lo = hi ∧ 65536 ≤ hi ∧ hi % 16384 = 0)
  | .bits lo hi _ _ => ¬ (lo = hi ∧ 65536 ≤ hi ∧ hi % 16384 = 0)
  | .str _ lo hi => ¬ (lo = hi ∧ 65536 ≤ hi ∧ hi % 16384 = 0)
  | .oid => True
  | .relOid => True
  | .real _ => False
  | .seq fs => ConformingFields fs
  | .seqOf lo hi t => ¬ (lo = hi ∧ 65536 ≤ hi ∧ hi % 16384 = 0) ∧ Conforming t
  | .choice alts => ConformingAlts alts
  | .ref t => Conforming t
def ConformingFields : Fields → Prop
  | .nil => True
  | .cons _ t rest => Conforming t ∧ ConformingFields rest
def ConformingAlts : Alts → Prop
  | .nil => True
  | .cons t rest => Conforming t ∧ ConformingAlts rest
end

mutual
/-- Types without the one integer that the runtime decodes but cannot encode, `-2^63` (C11), except in a range with
both bounds. -/
def NoMin : Ty → Prop
  | .int _ r => (∃ a b, r = .concrete a b) ∨ ¬ r.contains (-(2 ^ 63))
  | .intExt root inRoot more => ((∃ a b, root = .concrete a b) ∨ inRoot (-(2 ^ 63)) = false) ∧
    ∀ f, more = some f → f (-(2 ^ 63)) = false
  | .bool => True
  | .null => True
  | .enum _ _ _ => True
  | .octets _ _ => True
  | .bits _ _ _ _ => True
  | .str _ _ _ => True
  | .oid => True
  | .relOid => True
  | .real _ => True
  | .seq fs => NoMinFields fs
  | .seqOf _ _ t => NoMin t
  | .choice alts => NoMinAlts alts
  | .ref t => NoMin t
def NoMinFields : Fields → Prop
  | .nil => True
  | .cons _ t rest => NoMin t ∧ NoMinFields rest
def NoMinAlts : Alts → Prop
  | .nil => True
  | .cons t rest => NoMin t ∧ NoMinAlts rest
end

end Asn1
