import Verif.Spec.Names
/-!
# Specification: capital and small letters in names of ASN.1

X.680 12.2 and 12.3: the names of modules and types begin with a capital letter, those of components with a small one.
-/
namespace Asn1

/-- Begins with a capital letter. -/
def Capital (n : CName) : Prop := ∃ c cs, n = c :: cs ∧ 'A' ≤ c ∧ c ≤ 'Z'

/-- Begins with a small letter. -/
def Small (n : CName) : Prop := ∃ c cs, n = c :: cs ∧ 'a' ≤ c ∧ c ≤ 'z'

end Asn1
