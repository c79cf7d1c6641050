import Verif.Model.Names
/-!
# Specification: names in C code
-/
namespace Asn1

/-- The keywords of C (ISO/IEC 9899:1999, 6.4.1), without those that begin with an underscore and a capital letter. -/
def c99Keywords : List CName :=
  ["auto", "break", "case", "char", "const", "continue", "default", "do", "double", "else", "enum", "extern", "float", "for", "goto", "if", "inline",
   "int", "long", "register", "restrict", "return", "short", "signed", "sizeof", "static", "struct", "switch", "typedef", "union", "unsigned", "void",
   "volatile", "while"].map String.toList

/-- The keywords of the first C standard. -/
def c89Keywords : List CName := c99Keywords.filter fun k => k ≠ "inline".toList ∧ k ≠ "restrict".toList

/-- A letter. -/
def IsLetter (c : Char) : Prop := ('a' ≤ c ∧ c ≤ 'z') ∨ ('A' ≤ c ∧ c ≤ 'Z')

/-- A character that may stand in a C identifier. -/
def IsIdChar (c : Char) : Prop := IsLetter c ∨ ('0' ≤ c ∧ c ≤ '9') ∨ c = '_'

/-- An identifier of C that begins with a letter. -/
def IsCIdentifier : CName → Prop
  | [] => False
  | c :: cs => IsLetter c ∧ ∀ x ∈ cs, IsIdChar x

/-- A name of ASN.1: letters, digits and hyphens, a letter first. -/
def IsAsn1Name : CName → Prop
  | [] => False
  | c :: cs => IsLetter c ∧ ∀ x ∈ cs, IsLetter x ∨ ('0' ≤ x ∧ x ≤ '9') ∨ x = '-'

instance (c : Char) : Decidable (IsLetter c) := by unfold IsLetter; infer_instance
instance (c : Char) : Decidable (IsIdChar c) := by unfold IsIdChar; infer_instance
instance : (n : CName) → Decidable (IsCIdentifier n)
  | [] => .isFalse id
  | c :: cs => inferInstanceAs (Decidable (IsLetter c ∧ ∀ x ∈ cs, IsIdChar x))
instance : (n : CName) → Decidable (IsAsn1Name n)
  | [] => .isFalse id
  | c :: cs => inferInstanceAs (Decidable (IsLetter c ∧ ∀ x ∈ cs, IsLetter x ∨ ('0' ≤ x ∧ x ≤ '9') ∨ x = '-'))

/-- If the name ends in an underscore and digits, these are at most eight. -/
def ShortNumber (n : CName) : Prop := ∀ r l, n = r ++ '_' :: l → (∀ c ∈ l, c.isDigit = true) → l.length ≤ 8

/-- The enumerants after renaming, one for one: the same type, and the old name is the end of the new one. -/
def SameEnumerants : List Enumerant → List Enumerant → Prop
  | [], [] => True
  | e :: es, e' :: es' => e'.key = e.key ∧ e.name <:+ e'.name ∧ SameEnumerants es es'
  | _, _ => False

end Asn1
