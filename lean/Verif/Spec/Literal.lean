import Verif.Spec.Notation
import Verif.Spec.Real
/-!
# Literals of ASN.1 text

X.680, 12.8 to 12.14 and 21: what the characters of a literal stand for.
-/
namespace Asn1

/-- White space inside `'…'B` and `'…'H`. -/
def blankChars : List Char := [' ', '\t', '\r', '\n']

/-- X.680, 12.10: the characters between the apostrophes of `'…'B` and the bits that they stand for. -/
inductive BText : List Char → List Bool → Prop
  | nil : BText [] []
  | blank {c : Char} {cs : List Char} {l : List Bool} : c ∈ blankChars → BText cs l → BText (c :: cs) l
  | zero {cs : List Char} {l : List Bool} : BText cs l → BText ('0' :: cs) (false :: l)
  | one {cs : List Char} {l : List Bool} : BText cs l → BText ('1' :: cs) (true :: l)

/-- X.680, 12.12: the hexadecimal digits. -/
def hexChars : List (Char × Fin 16) :=
  [('0', 0), ('1', 1), ('2', 2), ('3', 3), ('4', 4), ('5', 5), ('6', 6), ('7', 7), ('8', 8), ('9', 9), ('A', 10), ('B', 11),
   ('C', 12), ('D', 13), ('E', 14), ('F', 15)]

/-- X.680, 12.12: the characters between the apostrophes of `'…'H` and the digits that they stand for. -/
inductive HText : List Char → List (Fin 16) → Prop
  | nil : HText [] []
  | blank {c : Char} {cs : List Char} {l : List (Fin 16)} : c ∈ blankChars → HText cs l → HText (c :: cs) l
  | digit {c : Char} {x : Fin 16} {cs : List Char} {l : List (Fin 16)} : (c, x) ∈ hexChars → HText cs l → HText (c :: cs) (x :: l)

/-- The decimal digits. -/
def decimalChars : List (Char × Nat) :=
  [('0', 0), ('1', 1), ('2', 2), ('3', 3), ('4', 4), ('5', 5), ('6', 6), ('7', 7), ('8', 8), ('9', 9)]

/-- The digits stand for the number: each one for itself times the power of ten of its place. -/
inductive Decimal : List Char → Nat → Prop
  | nil : Decimal [] 0
  | digit {c : Char} {x : Nat} {cs : List Char} {n : Nat} : (c, x) ∈ decimalChars → Decimal cs n →
      Decimal (c :: cs) (x * 10 ^ cs.length + n)

/-- X.680, 12.8 and 19.9: an integer with or without a minus sign. -/
inductive IntText : List Char → Int → Prop
  | pos {cs : List Char} {n : Nat} : cs ≠ [] → Decimal cs n → IntText cs n
  | neg {cs : List Char} {n : Nat} : cs ≠ [] → Decimal cs n → IntText ('-' :: cs) (-n)

/-- The integers that the compiler supports, for a word size of 8 (`wide`) or 4 octets. -/
def Supported (wide : Bool) (i : Int) : Prop :=
  if wide then -(2 ^ 63) ≤ i ∧ i < 2 ^ 64 else -(2 ^ 31) ≤ i ∧ i < 2 ^ 32

/-- The lines of a character string one after the other, without the blanks at the breaks (X.680, 12.14.1). -/
def joinLines (l : List Char) : List (List Char) → List Char
  | [] => l
  | m :: ls => (l.reverse.dropWhile (· ∈ [' ', '\t'])).reverse ++ joinLines (m.dropWhile (· ∈ [' ', '\t'])) ls

/-- Two quotation marks stand for one (X.680, 12.14.1). -/
inductive Unquoted : List Char → List Char → Prop
  | nil : Unquoted [] []
  | char {c : Char} {cs l : List Char} : c ≠ '"' → Unquoted cs l → Unquoted (c :: cs) (c :: l)
  | quote {cs l : List Char} : Unquoted cs l → Unquoted ('"' :: '"' :: cs) ('"' :: l)

/-- The text of a character string of the given lines. -/
def stringText (l : List Char) (ls : List (List Char)) : List Char := '"' :: ((l :: ls).intersperse ['\n']).flatten ++ ['"']

/-- X.680, 12.14: the characters that the string of the given lines stands for. -/
def CText (l : List Char) (ls : List (List Char)) (v : List Char) : Prop := Unquoted (joinLines l ls) v

/-- `pow` raises to a power without an error wherever the result is a double. (`Math.Pow` is in a library.) -/
def PowExact (pow : Nat → Int → BitVec 64) : Prop :=
  ∀ (b : Nat) (e : Int), 0 < b → (∃ d, IsFinite d ∧ doubleValue d = (b : ℚ) ^ e) →
    IsFinite (pow b e) ∧ doubleValue (pow b e) = (b : ℚ) ^ e

end Asn1
