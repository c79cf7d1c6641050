import Verif.Spec.Literal
import Verif.Model.Notation
/-!
# Literals in the front end

FrontEndAst/CreateAsn1AstFromAntlrTree.fs:143-184 and 259-263, CommonTypes/FsUtils.fs:285-297, 316-324 and 587-607: from the
text of a token to a value. Text is a list of characters. `none` stands for an error message. Not modelled: the lexer, which
decides what is one token; numbers with a decimal point (`System.Double.Parse` of .NET).
-/
namespace Asn1

/-- `GetActualString`, CreateAsn1AstFromAntlrTree.fs:146-148: without the first and the last two characters and without white
space. -/
def actualString (text : List Char) : List Char :=
  let s := text.drop 1
  (s.take (s.length - 2)).filter fun c => !(c == '\r' || c == '\n' || c == '\t' || c == ' ')

/-- `BitStringLiteral`, CreateAsn1AstFromAntlrTree.fs:184, with the meaning of the characters in
CommonTypes/FsUtils.fs:588: all but 0 are 1. -/
def bitLiteral (text : List Char) : List Bool := (actualString text).map fun c => !(c == '0')

/-- `getAsTupples`, CommonTypes/FsUtils.fs:316-324. -/
def getTuples (empty : Char) : List Char → List (Char × Char)
  | [] => []
  | [a] => [(a, empty)]
  | a :: b :: rest => (a, b) :: getTuples empty rest

/-- A digit for `System.Byte.Parse` with `AllowHexSpecifier`. -/
def parseHexChar (c : Char) : Option Nat :=
  if 48 ≤ c.toNat ∧ c.toNat ≤ 57 then some (c.toNat - 48)
  else if 65 ≤ c.toNat ∧ c.toNat ≤ 70 then some (c.toNat - 55)
  else if 97 ≤ c.toNat ∧ c.toNat ≤ 102 then some (c.toNat - 87)
  else none

/-- `System.Byte.Parse(x1 + x2, AllowHexSpecifier)`, CreateAsn1AstFromAntlrTree.fs:262. -/
def parseHexByte (p : Char × Char) : Option Byte := do
  let a ← parseHexChar p.1
  let b ← parseHexChar p.2
  some (BitVec.ofNat 8 (16 * a + b))

/-- `OctectStringLiteral`, CreateAsn1AstFromAntlrTree.fs:259-263. -/
def octetLiteral (text : List Char) : Option (List Byte) := (getTuples '0' (actualString text)).mapM parseHexByte

/-- `BitsToNibbles`, CommonTypes/FsUtils.fs:589-599. -/
def bitsToNibbles : List Bool → List (Fin 16)
  | [] => []
  | [a] => [Fin.ofNat 16 (a.toNat * 8)]
  | [a, b] => [Fin.ofNat 16 (a.toNat * 8 + b.toNat * 4)]
  | [a, b, c] => [Fin.ofNat 16 (a.toNat * 8 + b.toNat * 4 + c.toNat * 2)]
  | a :: b :: c :: d :: rest => Fin.ofNat 16 (a.toNat * 8 + b.toNat * 4 + c.toNat * 2 + d.toNat) :: bitsToNibbles rest

/-- `bitStringValueToByteArray`, CommonTypes/FsUtils.fs:587-607. `NibblesToBytes` (600-606) is what `hexOctets` does. -/
def bitsToOctets (l : List Bool) : List Byte := hexOctets (bitsToNibbles l)

/-- A digit for `BigInteger.Parse`. -/
def parseDigit (c : Char) : Option Nat := if 48 ≤ c.toNat ∧ c.toNat ≤ 57 then some (c.toNat - 48) else none

/-- The digits for `BigInteger.Parse`, from the left. -/
def parseDigits : Nat → List Char → Option Nat
  | acc, [] => some acc
  | acc, c :: cs => do
    let x ← parseDigit c
    parseDigits (acc * 10 + x) cs

/-- `BigInteger.Parse`, as far as tokens of the kind INT go (Antlr/asn1.g:831). -/
def parseBigInt : List Char → Option Int
  | [] => none
  | c :: cs =>
    if c = '-' then if cs = [] then none else (parseDigits 0 cs).map fun n => -(n : Int)
    else if c = '+' then if cs = [] then none else (parseDigits 0 cs).map fun n => (n : Int)
    else (parseDigits 0 (c :: cs)).map fun n => (n : Int)

/-- `BigInt`, CommonTypes/FsUtils.fs:287-295. -/
def intLiteral (wide : Bool) (text : List Char) : Option Int := do
  let ret ← parseBigInt text
  let mn : Int := if wide then -(2 ^ 63) else -(2 ^ 31)
  let mxu : Int := if wide then 2 ^ 64 - 1 else 2 ^ 32 - 1
  if ret < mn ∨ ret > mxu then none else some ret

/-- `StringLiteral`, CreateAsn1AstFromAntlrTree.fs:179-181. -/
def stringLiteral (text : List Char) : List Char := (text.drop 1).take (text.length - 2)

/-- `NUMERIC_VALUE2`, CreateAsn1AstFromAntlrTree.fs:158-174: `{mantissa m, base b, exponent e}`. `pow` stands for `Math.Pow`.
Simplification: the exponent is handed to it as an integer, not as the double nearest to it. -/
def realLiteral (pow : Nat → Int → Dbl) (m b e : Int) : Option Dbl :=
  if b = 2 then some (dblMul (dblOfInt m) (pow 2 e))
  else if b = 10 then some (dblMul (dblOfInt m) (pow 10 e))
  else none

/-- The best that `Math.Pow` could do (CreateAsn1AstFromAntlrTree.fs:171): rounded to the nearest double. -/
def roundPow (b : Nat) (e : Int) : Dbl :=
  if 0 ≤ e then dblMake false (roundMag (b ^ e.toNat) 1 0) else dblMake false (roundMag 1 (b ^ (-e).toNat) 0)

end Asn1
