import Verif.Spec.Xer
import Verif.Spec.Bits
import Verif.Model.XerGen
/-!
# Specification: the XML text of a value of a type
-/
namespace Asn1

/-- An element whose parts stand in lines of their own; without a tag the contents alone. -/
def block (w : Bool) (level : Int) (tag contents : List Byte) : List Byte :=
  if tag = [] then contents else line w level (startTag tag) ++ contents ++ line w level (endTag tag)

/-- The tag of an element: the one that is asked for, or the given standard one. -/
def tagOr (tag : Option (List Byte)) (standard : List Char) : List Byte :=
  match tag with
  | some t => t
  | none => text standard

mutual
/-- The XML text of a value. -/
def xText (w : Bool) : XTy → Option (List Byte) → XVal → List Byte
  | .int l _, tag, .int v => line w l (element (tagOr tag ['I', 'N', 'T', 'E', 'G', 'E', 'R']) (decimalInt v))
  | .uint l _, tag, .int v => line w l (element (tagOr tag ['I', 'N', 'T', 'E', 'G', 'E', 'R']) (decimalInt v))
  | .bool l, tag, .bool b => line w l (wrapped (tagOr tag []) (emptyTag (boolWord b)))
  | .null l, tag, .null => line w l (emptyTag (tagOr tag ['N', 'U', 'L', 'L']))
  | .enum l labels, tag, .enum i =>
    let label := labels.getD i []
    if tagOr tag [] = [] then line w l (emptyTag label) else lineNL w l (wrapped (tagOr tag []) (emptyTag label))
  | .str l numeric _ _, tag, .str c =>
    line w l (element (tagOr tag (if numeric then ['N', 'u', 'm', 'e', 'r', 'i', 'c', 'S', 't', 'r', 'i', 'n', 'g']
      else ['I', 'A', '5', 'S', 't', 'r', 'i', 'n', 'g'])) c)
  | .octets l _ _, tag, .octets n arr =>
    lineNL w l (wrapped (tagOr tag ['O', 'C', 'T', 'E', 'T', '-', 'S', 'T', 'R', 'I', 'N', 'G']) (hexText (arr.take n)))
  | .bits l _ _, tag, .bits n arr =>
    lineNL w l (wrapped (tagOr tag ['B', 'I', 'T', '-', 'S', 'T', 'R', 'I', 'N', 'G']) (bitText ((bytesBits arr).take n)))
  | .seqOf l _ _ childTag t, tag, .seqOf vs =>
    block w l (tagOr tag ['S', 'E', 'Q', 'U', 'E', 'N', 'C', 'E', '-', 'O', 'F']) (vs.flatMap (xText w t childTag))
  | .seq l fs, tag, .seq vs => block w l (tagOr tag ['S', 'E', 'Q', 'U', 'E', 'N', 'C', 'E']) (xTextFields w fs vs)
  | .choice l alts, tag, .choice i v => block w l (tagOr tag []) (xTextAlt w alts i v)
  | .ref name t, tag, v => xText w t (some (refTag name t tag)) v
  | _, _, _ => []
/-- The components that exist, one after the other, under their names. -/
def xTextFields (w : Bool) : XFields → List (Bool × XVal) → List Byte
  | .cons name _ t rest, (e, v) :: vs => (if e then xText w t (some name) v else []) ++ xTextFields w rest vs
  | _, _ => []
/-- The alternative under its name. -/
def xTextAlt (w : Bool) : XAlts → Nat → XVal → List Byte
  | .cons name t _, 0, v => xText w t (some name) v
  | .cons _ _ rest, i + 1, v => xTextAlt w rest i v
  | .nil, _, _ => []
end

mutual
/-- `v` is a value of the type, as a C structure holds it: in range, sizes inside the constraint, arrays of the declared size with zeros behind
the contents, an existing value for every mandatory component, the default value where a component with DEFAULT does not exist; text without
`<` (see C63). -/
def XHas : XTy → XVal → Prop
  | .int _ check, .int v => -(2 ^ 63) ≤ v ∧ v < 2 ^ 63 ∧ ∀ f, check = some f → f v = true
  | .uint _ check, .int v => 0 ≤ v ∧ v < 2 ^ 64 ∧ ∀ f, check = some f → f v = true
  | .bool _, .bool _ => True
  | .null _, .null => True
  | .enum _ labels, .enum i => i < labels.length
  | .str _ _ max _, .str c => PlainText c ∧ c.length ≤ max
  | .octets _ lo hi, .octets n arr => lo ≤ n ∧ n ≤ hi ∧ arr.length = hi ∧ ∀ b ∈ arr.drop n, b = 0#8
  | .bits _ lo hi, .bits n arr => lo ≤ n ∧ n ≤ hi ∧ arr.length = (hi + 7) / 8 ∧ ∀ b ∈ (bytesBits arr).drop n, b = false
  | .seqOf _ lo hi _ t, .seqOf vs => lo ≤ vs.length ∧ vs.length ≤ hi ∧ ∀ v ∈ vs, XHas t v
  | .seq _ fs, .seq vs => XHasFields fs vs
  | .choice _ alts, .choice i v => XHasAlt alts i v
  | .ref _ t, v => XHas t v
  | _, _ => False
/-- Components. -/
def XHasFields : XFields → List (Bool × XVal) → Prop
  | .nil, [] => True
  | .cons _ o t rest, (e, v) :: vs =>
    (if e = true then XHas t v else
      match o with
      | .mandatory => False
      | .optional => v = .unset
      | .default d => v = d) ∧ XHasFields rest vs
  | _, _ => False
/-- Alternatives. -/
def XHasAlt : XAlts → Nat → XVal → Prop
  | .cons _ t _, 0, v => XHas t v
  | .cons _ _ rest, i + 1, v => XHasAlt rest i v
  | .nil, _, _ => False
end

/-- The names of the components. -/
def XFields.names : XFields → List (List Byte)
  | .nil => []
  | .cons name _ _ rest => name :: rest.names

/-- The names of the alternatives. -/
def XAlts.names : XAlts → List (List Byte)
  | .nil => []
  | .cons name _ rest => name :: rest.names

mutual
/-- A type the decoder can read what the encoder writes of: names of 1 to 99 name characters, distinct inside a type; sizes inside the fixed
buffers of the decoder (see C63); `sizeof` of a string the size of its array. The tag may be absent or empty only where that is of no harm. -/
def XOk : XTy → Option (List Byte) → Prop
  | .int .., tag | .uint .., tag | .null _, tag => ∀ t, tag = some t → GoodTag t
  | .bool _, tag => ∀ t, tag = some t → t = [] ∨ GoodTag t
  | .enum _ labels, tag => (∀ t, tag = some t → t = [] ∨ GoodTag t) ∧ labels.Nodup ∧ ∀ l ∈ labels, GoodTag l
  | .str _ _ max sizeOf, tag => (∀ t, tag = some t → GoodTag t) ∧ sizeOf = max + 1
  | .octets _ _ hi, tag => (∀ t, tag = some t → GoodTag t) ∧ hi ≤ 511
  | .bits _ _ hi, tag => (∀ t, tag = some t → GoodTag t) ∧ hi ≤ 2047
  | .seqOf _ _ _ childTag t, tag => (∀ t, tag = some t → GoodTag t) ∧ XOk t childTag
  | .seq _ fs, tag => (∀ t, tag = some t → GoodTag t) ∧ fs.names.Nodup ∧ XOkFields fs
  | .choice _ alts, tag => (∀ t, tag = some t → t = [] ∨ GoodTag t) ∧ alts.names.Nodup ∧ XOkAlts alts
  | .ref name t, tag => XOk t (some (refTag name t tag))
/-- Components. -/
def XOkFields : XFields → Prop
  | .nil => True
  | .cons name _ t rest => GoodTag name ∧ XOk t (some name) ∧ XOkFields rest
/-- Alternatives. -/
def XOkAlts : XAlts → Prop
  | .nil => True
  | .cons name t rest => GoodTag name ∧ XOk t (some name) ∧ XOkAlts rest
end

mutual
/-- A type whose size is computed with enough room: no item of an ENUMERATED is more than twice as long as another one; a reference without a tag
is one to a CHOICE. -/
def XSized : XTy → Option (List Byte) → Prop
  | .enum _ labels, _ => ∀ a ∈ labels, ∀ b ∈ labels, a.length ≤ 2 * b.length
  | .seqOf _ _ _ childTag t, _ => XSized t childTag
  | .seq _ fs, _ => XSizedFields fs
  | .choice _ alts, _ => XSizedAlts alts
  | .ref _ t, tag => (tag = none → t.isChoice = true) ∧ XSized t tag
  | _, _ => True
/-- Components. -/
def XSizedFields : XFields → Prop
  | .nil => True
  | .cons name _ t rest => XSized t (some name) ∧ XSizedFields rest
/-- Alternatives. -/
def XSizedAlts : XAlts → Prop
  | .nil => True
  | .cons name t rest => XSized t (some name) ∧ XSizedAlts rest
end

mutual
/-- A type whose decoder keeps inside its arrays: `sizeof` of a string at most the size of its array; a BIT STRING with room for whatever
the decoder can read (256 octets); names without 0. -/
def XSafeTy : XTy → Option (List Byte) → Prop
  | .int .., tag => ∀ t, tag = some t → NoNul t
  | .str _ _ max sizeOf, _ => sizeOf ≤ max + 1
  | .bits _ _ hi, _ => 2041 ≤ hi
  | .seqOf _ _ _ childTag t, _ => XSafeTy t childTag
  | .seq _ fs, _ => XSafeFields fs
  | .choice _ alts, _ => XSafeAlts alts
  | .ref name t, tag => XSafeTy t (some (refTag name t tag))
  | _, _ => True
/-- Components. -/
def XSafeFields : XFields → Prop
  | .nil => True
  | .cons name _ t rest => XSafeTy t (some name) ∧ XSafeFields rest
/-- Alternatives. -/
def XSafeAlts : XAlts → Prop
  | .nil => True
  | .cons name t rest => XSafeTy t (some name) ∧ XSafeAlts rest
end

mutual
/-- A type whose decoder looks at everything it should: made of INTEGER, BOOLEAN, NULL, strings (`sizeof` the size of the array),
SEQUENCE, SEQUENCE OF without a lower bound, CHOICE without a tag. -/
def XChecked : XTy → Option (List Byte) → Prop
  | .int .., tag => ∀ t, tag = some t → NoNul t
  | .uint .., _ | .bool _, _ | .null _, _ => True
  | .str _ _ max sizeOf, tag => sizeOf ≤ max + 1 ∧ ∀ t, tag = some t → NoNul t
  | .seqOf _ lo hi childTag t, _ => lo = 0 ∧ 0 < hi ∧ XChecked t childTag
  | .seq _ fs, _ => XCheckedFields fs
  | .choice _ alts, tag => tag = none ∧ XCheckedAlts alts
  | .ref name t, tag => XChecked t (some (refTag name t tag))
  | _, _ => False
/-- Components. -/
def XCheckedFields : XFields → Prop
  | .nil => True
  | .cons name _ t rest => XChecked t (some name) ∧ XCheckedFields rest
/-- Alternatives. -/
def XCheckedAlts : XAlts → Prop
  | .nil => True
  | .cons name t rest => XChecked t (some name) ∧ XCheckedAlts rest
end

end Asn1
