import Verif.Spec.ObjectId
/-!
# OBJECT IDENTIFIER values in the front end

FrontEndAst/CreateAsn1AstFromAntlrTree.fs:55-94 and 185-236, FrontEndAst/ValuesMapping.fs:113-134. `none` stands for an error
message. A function of the code that calls itself on what a name refers to has a number that counts down these calls.
Left out: labels and locations.
-/
namespace Asn1

/-- `RegisterObjIDKeyword`, CreateAsn1AstFromAntlrTree.fs:55-56. -/
inductive Keyword where
  | leaf (names : List String) (val : Int) (subs : List Keyword)

/-- `letters`, CreateAsn1AstFromAntlrTree.fs:58. -/
def keywordLetters : List Keyword :=
  ["a", "b", "c", "d", "e", "f", "g", "h", "i", "j", "k", "l", "m", "n", "o", "p", "q", "r", "s", "t", "u", "v", "w",
    "x", "y", "z"].zipIdx.map fun p => .leaf [p.1] ((p.2 : Int) + 1) []

/-- CreateAsn1AstFromAntlrTree.fs:60-66. -/
def keywordsItu : List Keyword :=
  [.leaf ["recommendation"] 0 keywordLetters, .leaf ["question"] 1 [], .leaf ["administration"] 2 [],
   .leaf ["network-operator"] 3 [], .leaf ["identified-organization"] 4 []]

/-- CreateAsn1AstFromAntlrTree.fs:67-71. -/
def keywordsIso : List Keyword :=
  [.leaf ["standard"] 0 [], .leaf ["member-body"] 2 [], .leaf ["identified-organization"] 3 []]

/-- `registeredObjectIdentifierKeywords`, CreateAsn1AstFromAntlrTree.fs:57-73. -/
def keywordRoots : List Keyword :=
  [.leaf ["itu-t", "ccitt"] 0 keywordsItu, .leaf ["iso"] 1 keywordsIso, .leaf ["joint-iso-itu-t", "joint-iso-ccitt"] 2 []]

/-- `List.tryFind`, CreateAsn1AstFromAntlrTree.fs:92, 94. -/
def findKeyword (l : List Keyword) (nm : String) : Option Keyword :=
  l.find? fun k => match k with
    | .leaf names _ _ => names.contains nm

/-- `isRegisterObjIDKeyword2`, CreateAsn1AstFromAntlrTree.fs:89-94. -/
def isKeyword (parent : Option Keyword) (nm : String) : Option Keyword :=
  match parent with
  | none => findKeyword keywordRoots nm
  | some (.leaf _ _ subs) => findKeyword subs nm

/-- `ObjectIdentifierValueComponent`, CommonTypes/CommonTypes.fs:370-375. -/
inductive OAst where
  | integer (n : Int)
  | namedInt (n : Int)
  | namedDef (md v : String)
  | keyword (n : Int)
  | defined (md nm : String)

/-- `regKeyWord`, CreateAsn1AstFromAntlrTree.fs:212-218. -/
def regKeyword (root : Bool) (parent : Option Keyword) (nm : String) : Option Keyword :=
  match root, parent with
  | true, _ => isKeyword parent nm
  | false, some _ => isKeyword parent nm
  | false, none => none

/-- `handleObjectIdComponent`, CreateAsn1AstFromAntlrTree.fs:186-226: the component and the keyword that the next one is
looked up under. `Module.value` is a tree of another type and ends in a bug message (224). -/
def createComp (root : Bool) (parent : Option Keyword) : OComp → Option (OAst × Option Keyword)
  | .num n => if 0 ≤ n then some (.integer n, none) else none
  | .nameNum _ n => if 0 ≤ n then some (.namedInt n, none) else none
  | .nameRef _ md v => some (.namedDef md v, none)
  | .name md nm => match regKeyword root parent nm with
    | some (.leaf names k subs) => some (.keyword k, some (.leaf names k subs))
    | none => some (.defined md nm, none)
  | .ext _ _ => none

/-- The fold over the components, CreateAsn1AstFromAntlrTree.fs:227-236. -/
def createComps : Bool → Option Keyword → List OComp → Option (List OAst)
  | _, _, [] => some []
  | root, parent, c :: cs => do
    let p ← createComp root parent c
    let rest ← createComps false p.2 cs
    some (p.1 :: rest)

/-- `GetActualValue`, FrontEndAst/Asn1Ast.fs:324-333. -/
def actualValue (E : OEnv) : Nat → String → String → Option OVal
  | 0, _, _ => none
  | n + 1, md, nm => match E.lookup (md, nm) with
    | some (.alias md' nm') => actualValue E n md' nm'
    | v => v

/-- `mapComponents`, FrontEndAst/ValuesMapping.fs:114-132, and the numbers in it (`ObjectIdentifierValue.Values`,
FrontEndAst/DAstUtilFunctions.fs:830-835). The components that a name refers to were made when the file was read. -/
def mapComps (E : OEnv) : Nat → List OAst → Option (List Int)
  | 0, _ => none
  | n + 1, cs => (cs.mapM fun (c : OAst) => match c with
      | .integer i => some [i]
      | .namedInt i => some [i]
      | .keyword i => some [i]
      | .namedDef md v => match actualValue E n md v with
        | some (.int i) => some [i]
        | _ => none
      | .defined md nm => match actualValue E n md nm with
        | some (.oid _ cs') => match createComps true none cs' with
          | some ast => mapComps E n ast
          | none => none
        | _ => none).map List.flatten

/-- Both steps: the numbers of an OBJECT IDENTIFIER or RELATIVE-OID value (CreateAsn1AstFromAntlrTree.fs:185-236,
ValuesMapping.fs:113-134). The type of the value plays no part. -/
def oidNumbers (E : OEnv) (n : Nat) (cs : List OComp) : Option (List Int) := do
  let ast ← createComps true none cs
  mapComps E n ast

end Asn1
