import Verif.Spec.XerGen
/-!
# Specification: XML files with any layout

The text of a value is cut into parts; between the parts a person or a program may put white space as they like.
-/
namespace Asn1

/-- The parts of an element: start tag, contents, end tag; without a tag the contents alone. -/
def blockParts (tag : List Byte) (contents : List (List Byte)) : List (List Byte) :=
  if tag = [] then contents else startTag tag :: (contents ++ [endTag tag])

mutual
/-- The parts of the XML text of a value: tags of elements that contain elements, and the innermost elements as a whole. -/
def xParts : XTy → Option (List Byte) → XVal → List (List Byte)
  | .int _ _, tag, .int v => [element (tagOr tag ['I', 'N', 'T', 'E', 'G', 'E', 'R']) (decimalInt v)]
  | .uint _ _, tag, .int v => [element (tagOr tag ['I', 'N', 'T', 'E', 'G', 'E', 'R']) (decimalInt v)]
  | .bool _, tag, .bool b => [wrapped (tagOr tag []) (emptyTag (boolWord b))]
  | .null _, tag, .null => [emptyTag (tagOr tag ['N', 'U', 'L', 'L'])]
  | .enum _ labels, tag, .enum i => [wrapped (tagOr tag []) (emptyTag (labels.getD i []))]
  | .str _ numeric _ _, tag, .str c =>
    [element (tagOr tag (if numeric then ['N', 'u', 'm', 'e', 'r', 'i', 'c', 'S', 't', 'r', 'i', 'n', 'g']
      else ['I', 'A', '5', 'S', 't', 'r', 'i', 'n', 'g'])) c]
  | .octets _ _ _, tag, .octets n arr =>
    [wrapped (tagOr tag ['O', 'C', 'T', 'E', 'T', '-', 'S', 'T', 'R', 'I', 'N', 'G']) (hexText (arr.take n))]
  | .bits _ _ _, tag, .bits n arr =>
    [wrapped (tagOr tag ['B', 'I', 'T', '-', 'S', 'T', 'R', 'I', 'N', 'G']) (bitText ((bytesBits arr).take n))]
  | .seqOf _ _ _ childTag t, tag, .seqOf vs =>
    blockParts (tagOr tag ['S', 'E', 'Q', 'U', 'E', 'N', 'C', 'E', '-', 'O', 'F']) (vs.flatMap (xParts t childTag))
  | .seq _ fs, tag, .seq vs => blockParts (tagOr tag ['S', 'E', 'Q', 'U', 'E', 'N', 'C', 'E']) (xPartsFields fs vs)
  | .choice _ alts, tag, .choice i v => blockParts (tagOr tag []) (xPartsAlt alts i v)
  | .ref name t, tag, v => xParts t (some (refTag name t tag)) v
  | _, _, _ => []
/-- The components that exist, one after the other, under their names. -/
def xPartsFields : XFields → List (Bool × XVal) → List (List Byte)
  | .cons name _ t rest, (e, v) :: vs => (if e then xParts t (some name) v else []) ++ xPartsFields rest vs
  | _, _ => []
/-- The alternative under its name. -/
def xPartsAlt : XAlts → Nat → XVal → List (List Byte)
  | .cons name t _, 0, v => xParts t (some name) v
  | .cons _ _ rest, i + 1, v => xPartsAlt rest i v
  | .nil, _, _ => []
end

/-- `l` consists of the parts, with any white space before, between and behind them. -/
def LaidOut : List (List Byte) → List Byte → Prop
  | [], l => IsSpaces l
  | p :: ps, l => ∃ sp r, IsSpaces sp ∧ LaidOut ps r ∧ l = sp ++ p ++ r

/-- A comment `<!--…-->` without `->` inside. -/
def IsPlainComment (l : List Byte) : Prop :=
  ∃ d, l = text ['<', '!'] ++ d ++ text ['>'] ∧ text ['-', '-'] <+: d ∧ text ['-', '-'] <:+ d ∧ ¬ text ['-', '>'] <:+: d

/-- White space and comments; `sp` is the white space alone. -/
inductive IsGap : List Byte → List Byte → Prop
  | nil : IsGap [] []
  | space {b : Byte} {l sp : List Byte} : IsSpaces [b] → IsGap l sp → IsGap (b :: l) (b :: sp)
  | comment {c l sp : List Byte} : IsPlainComment c → IsGap l sp → IsGap (c ++ l) sp

/-- `l` consists of the parts, with white space (at most 4096 characters) and comments before, between and behind them. -/
def LaidOutFile : List (List Byte) → List Byte → Prop
  | [], l => ∃ sp, IsGap l sp ∧ sp.length ≤ 4096
  | p :: ps, l => ∃ g sp r, IsGap g sp ∧ sp.length ≤ 4096 ∧ LaidOutFile ps r ∧ l = g ++ p ++ r

/-- An XML file: white space, possibly a declaration `<?xml … ?>`, and the parts. -/
def XmlFile (ps : List (List Byte)) (file : List Byte) : Prop :=
  ∃ w h l, IsSpaces w ∧ (h = [] ∨ IsDeclaration h) ∧ LaidOutFile ps l ∧ file = w ++ h ++ l

mutual
/-- All strings of the type have at most 4096 characters. -/
def XShort : XTy → Prop
  | .str _ _ max _ => max ≤ 4096
  | .seqOf _ _ _ _ t => XShort t
  | .seq _ fs => XShortFields fs
  | .choice _ alts => XShortAlts alts
  | .ref _ t => XShort t
  | _ => True
def XShortFields : XFields → Prop
  | .nil => True
  | .cons _ _ t rest => XShort t ∧ XShortFields rest
def XShortAlts : XAlts → Prop
  | .nil => True
  | .cons _ t rest => XShort t ∧ XShortAlts rest
end

mutual
/-- The type is nested at most 2000 levels deep. -/
def XShallow : XTy → Prop
  | .int l _ | .uint l _ | .bool l | .null l | .enum l _ | .str l _ _ _ | .octets l _ _ | .bits l _ _ => l ≤ 2000
  | .seqOf l _ _ _ t => l ≤ 2000 ∧ XShallow t
  | .seq l fs => l ≤ 2000 ∧ XShallowFields fs
  | .choice l alts => l ≤ 2000 ∧ XShallowAlts alts
  | .ref _ t => XShallow t
def XShallowFields : XFields → Prop
  | .nil => True
  | .cons _ _ t rest => XShallow t ∧ XShallowFields rest
def XShallowAlts : XAlts → Prop
  | .nil => True
  | .cons _ t rest => XShallow t ∧ XShallowAlts rest
end

end Asn1
