import Verif.Spec.Bits
/-!
# Specification vocabulary: decimal digits
-/
namespace Asn1

/-- The `n` low decimal digits of `v`, most significant first, with leading zeros. -/
def decDigits : (n v : Nat) → List Nat
  | 0, _ => []
  | n + 1, v => v / 10 ^ n % 10 :: decDigits n v

/-- Number of decimal digits of `v` without leading zeros (0 for 0). -/
def decLen (v : Nat) : Nat := if _h : v = 0 then 0 else decLen (v / 10) + 1
termination_by v
decreasing_by omega

/-- Number of characters of `v` printed in decimal ("0" for 0). -/
def printLen (v : Nat) : Nat := if v = 0 then 1 else decLen v

/-- Binary coded decimal: four bits per digit. -/
def bcdCode (n v : Nat) : List Bool := (decDigits n v).flatMap (bitsMsb 4)

/-- The characters '0' .. '9' of the digits. -/
def digitChars (n v : Nat) : List (BitVec 8) := (decDigits n v).map fun d => BitVec.ofNat 8 (48 + d)

/-- The sign character: '-' for negative values, else '+'. -/
def signChar (v : Int) : BitVec 8 := if v < 0 then 45#8 else 43#8

/-- In `str` followed by the terminator `term`, the terminator does not begin before the end of `str`. -/
def NoEarly (term str : List (BitVec 8)) : Prop := ∀ i, i < str.length → ¬ term <+: (str ++ term).drop i

end Asn1
