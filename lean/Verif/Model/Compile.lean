import Verif.Model.Notation
import Verif.Model.Object
/-!
# From a type as written to the type that the back end works with

`mergeType`, FrontEndAst/AcnCreateFromAntlr.fs:1045-1617, without an ACN file: the constraints of a type are translated, the
sizes, the alphabet and the C integer are computed from them, and the marks PRESENT and ABSENT of WITH COMPONENTS change the
components of a SEQUENCE.
-/
namespace Asn1

/-- The constraints translated, in the order in which they are written. -/
def mapAll (t : NTy) (cs : List XC) : Option (List AC) := cs.mapM (mapCon t)

/-- `getSizeMinAndMaxValue`, FrontEndAst/uPER.fs:264-267: an error when the size is not limited. The numbers are of type `uint32`. -/
def sizeMinMax : Option Rng → Option (Nat × Nat)
  | some (.concrete a b) => if 0 ≤ a ∧ 0 ≤ b then some (a.toNat, b.toNat) else none
  | _ => none

/-- The effective size: `getSrtingSizeUperRange`, `getOctetStringUperRange`, … with `getSizeMinAndMaxValue`,
FrontEndAst/AcnCreateFromAntlr.fs:430-434, 497-501, 550-555, 1171-1175. -/
def octetsSize (acs : List AC) : Option (Nat × Nat) := do sizeMinMax (sizeRange List.length (← AC.cons octetLeaf acs))
def bitsSize (acs : List AC) : Option (Nat × Nat) := do sizeMinMax (sizeRange List.length (← AC.cons bitLeaf acs))
def strSize (acs : List AC) : Option (Nat × Nat) := do sizeMinMax (strSizeRange (← AC.cons strLeaf acs))
def seqOfSize (acs : List AC) : Option (Nat × Nat) := do sizeMinMax (sizeRange List.length (← AC.cons elemLeaf (sizeCons acs)))

/-- The constraints that WITH COMPONENT puts on the elements: `childWithCons`, FrontEndAst/AcnCreateFromAntlr.fs:1146. Only a
constraint that is WITH COMPONENT itself counts, not one that contains it. -/
def elemCons : List XC → List XC
  | [] => []
  | .component c :: rest => c :: elemCons rest
  | _ :: rest => elemCons rest

/-- What a WITH COMPONENTS says about the component. -/
def XCs.about (nm : String) : XCs → List (Mark × Option XC)
  | .nil => []
  | .bare n m rest => if n = nm then (m, none) :: rest.about nm else rest.about nm
  | .cons n m c rest => if n = nm then (m, some c) :: rest.about nm else rest.about nm

/-- What all WITH COMPONENTS say about the component: `childNamedConstraints`, FrontEndAst/AcnCreateFromAntlr.fs:1199 and 1209. -/
def aboutPart (nm : String) : List XC → List (Mark × Option XC)
  | [] => []
  | .components ncs :: rest => ncs.about nm ++ aboutPart nm rest
  | _ :: rest => aboutPart nm rest

/-- The first mark that is none of `NoMark`: `asn1OptionalityFromWithComponents`, FrontEndAst/AcnCreateFromAntlr.fs:1211-1219, of which
only the first matters. -/
def firstMark : List (Mark × Option XC) → Option Mark
  | [] => none
  | (.noMark, _) :: rest => firstMark rest
  | (m, _) :: _ => some m

/-- The optionality that replaces a written one. -/
def Mark.toCOpt : Mark → COpt
  | .present => .present
  | .absent => .absent
  | _ => .optional

/-- `newOptionality`, FrontEndAst/AcnCreateFromAntlr.fs:1221-1241. `none`: an error is raised. -/
def childOpt (t : NTy) : NOpt → Option Mark → Option COpt
  | .mandatory, none => some .mandatory
  | .mandatory, some _ => none
  | .absent, m => some ((m.map Mark.toCOpt).getD .absent)
  | .present, m => some ((m.map Mark.toCOpt).getD .present)
  | .optional, some .present => some .present
  | .optional, some .absent => some .absent
  | .optional, _ => some .optional
  | .default _, some .present => some .present
  | .default _, some .absent => some .absent
  | .default v, _ => (mapVal t v).map .default

/-- All constraints of a type: its own ones, then those of the references that lead to it, the innermost first
(`t.Constraints@refTypeCons` with `restCons`, FrontEndAst/AcnCreateFromAntlr.fs:1517 and 1569). -/
def NTy.chain : NTy → List XC
  | .int cs => cs
  | .real cs => cs
  | .bool cs => cs
  | .null cs => cs
  | .enum _ cs => cs
  | .octets cs => cs
  | .bits cs => cs
  | .str cs => cs
  | .oid cs => cs
  | .seq _ cs => cs
  | .seqOf _ cs => cs
  | .choice _ cs => cs
  | .ref _ _ t cs => t.chain ++ cs

/-- What is computed from the constraints of a type and of the references to it together: the effective size; an error if there is no range of
an INTEGER or no alphabet of a string (FrontEndAst/AcnCreateFromAntlr.fs:244-248, 430-434). -/
def sizeOfKind (acs : List AC) : NTy → Option (Option (Nat × Nat))
  | .int _ => (intRangeOf acs).map fun _ => none
  | .octets _ => (octetsSize acs).map some
  | .bits _ => (bitsSize acs).map some
  | .str _ => do
    let sz ← strSize acs
    let _ ← strChars acs
    some (some sz)
  | .seqOf _ _ => (seqOfSize acs).map some
  | _ => some none

/-- The effective size of a type that is referred to with constraints, from the constraints of the type and of the references. -/
def refSize (t : NTy) : Option (Option (Nat × Nat)) := do sizeOfKind (← mapAll t t.chain) t.actual

/-- The alternatives that are marked PRESENT, FrontEndAst/AcnCreateFromAntlr.fs:1388-1413 and 1478-1482. -/
def presentAlts (cs : List XC) : NAlts → Nat
  | .nil => 0
  | .cons nm _ rest => (if (aboutPart nm cs).any (fun p => p.1 == .present) &&
      ((aboutPart nm cs).find? fun p => p.1 == .present || p.1 == .absent).map (·.1) == some .present then 1 else 0) + presentAlts cs rest

mutual
/-- `mergeType`, FrontEndAst/AcnCreateFromAntlr.fs:1045-1617, without ACN. `w`: the constraints from a WITH COMPONENT or WITH
COMPONENTS outside (`withCons`), which only matter for the marks of components. `none`: an error is raised, or something that is not modelled:
extension markers in constraints of INTEGERs and in SIZE and FROM; constraints on NULL (the code forgets them); single values
of a SEQUENCE OF, and WITH COMPONENT inside other constraints; references in a part on which a WITH COMPONENTS outside puts constraints.
Simplifications: no NumericString, no RELATIVE-OID, no time types; the errors that a constraint from outside leads to are left out
(lines 1082-1178: `wcons`). -/
def compile (slim : Bool) : List XC → NTy → Option CTy
  | _, .int cs => do
    let acs ← mapAll (.int cs) cs
    let r ← intRangeOf acs
    some (.int (intClassOf slim r) acs)
  | _, .real cs => do some (.real (← mapAll (.real cs) cs))
  | _, .bool cs => do some (.bool (← mapAll (.bool cs) cs))
  | _, .null cs => if cs.isEmpty then some .null else none
  | _, .enum items cs => do some (.enum (items.map (·.2)) (← mapAll (.enum items cs) cs))
  | _, .octets cs => do
    let acs ← mapAll (.octets cs) cs
    let sz ← octetsSize acs
    some (.octets sz.1 sz.2 acs)
  | _, .bits cs => do
    let acs ← mapAll (.bits cs) cs
    let sz ← bitsSize acs
    some (.bits sz.1 sz.2 acs)
  | _, .str cs => do
    let acs ← mapAll (.str cs) cs
    let sz ← strSize acs
    let al ← strChars acs
    some (.str sz.1 sz.2 al acs)
  | _, .oid cs => do some (.oid false (← mapAll (.oid cs) cs))
  | w, .seq fs cs => do
    let acs ← mapAll (.seq fs cs) cs
    let cfs ← compileFields slim (cs ++ w) fs
    some (.seq cfs acs)
  | w, .seqOf t cs => do
    let acs ← mapAll (.seqOf t cs) cs
    let ct ← compile slim (elemCons (cs ++ w)) t
    let sz ← seqOfSize acs
    some (.seqOf sz.1 sz.2 ct acs)
  | _, .choice alts cs => do
    let acs ← mapAll (.choice alts cs) cs
    let calts ← compileAlts slim cs alts
    if presentAlts cs alts ≤ 1 then some (.choice calts acs) else none
  | w, .ref md tas t cs => do
    let acs ← mapAll (.ref md tas t cs) cs
    let ct ← compile slim [] t
    let sz ← (if cs.isEmpty then some none else refSize (.ref md tas t cs))
    if w.isEmpty then some (.ref ct sz acs) else none
/-- The components of a SEQUENCE, FrontEndAst/AcnCreateFromAntlr.fs:1209-1302; `all`: all constraints of the SEQUENCE. -/
def compileFields (slim : Bool) : List XC → NFields → Option CFields
  | _, .nil => some .nil
  | all, .cons nm o t rest => do
    let co ← childOpt t o (firstMark (aboutPart nm all))
    let ct ← compile slim ((aboutPart nm all).filterMap (·.2)) t
    let r ← compileFields slim all rest
    some (.cons co ct r)
/-- The alternatives of a CHOICE, FrontEndAst/AcnCreateFromAntlr.fs:1386-1458; `own`: the constraints of the CHOICE, without those from outside (1379). -/
def compileAlts (slim : Bool) : List XC → NAlts → Option CAlts
  | _, .nil => some .nil
  | own, .cons nm t rest => do
    let ct ← compile slim ((aboutPart nm own).filterMap (·.2)) t
    let r ← compileAlts slim own rest
    some (.cons ct r)
end

end Asn1
