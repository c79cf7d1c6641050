import Verif.Model.Gen
import Verif.Model.Valid
/-!
# The generated encoders and decoders on C objects

The functions of `Model/Gen` work on values. Here is what the generated functions do with an object in memory: the type as
the uPER back end sees it (computed from the constraints), what the encoder reads from the object, and the two functions
`<type>_Encode` and `<type>_Decode` with their calls of `<type>_IsConstraintValid`.
-/
namespace Asn1

/-! ## From the constraints to the type of the back end -/

/-- The constraint as one of the kind of the type (FrontEndAst/Asn1AcnAst.fs:95-258 has one type of constraints per kind; here
`AC` is one type for all). `none`: a leaf of another kind, or an extension marker (not modelled here). -/
def AC.con {L : Type} (leaf : AC → Option L) : AC → Option (Con L)
  | .union c d => do
    let x ← c.con leaf
    let y ← d.con leaf
    some (.union x y)
  | .inter c d => do
    let x ← c.con leaf
    let y ← d.con leaf
    some (.inter x y)
  | .allExcept c => do
    let x ← c.con leaf
    some (.allExcept x)
  | .except c d => do
    let x ← c.con leaf
    let y ← d.con leaf
    some (.except x y)
  | .root _ => none
  | .root2 _ _ => none
  | .range l => (leaf (.range l)).map .leaf
  | .realRange l => (leaf (.realRange l)).map .leaf
  | .boolean b => (leaf (.boolean b)).map .leaf
  | .item v => (leaf (.item v)).map .leaf
  | .octetsVal v => (leaf (.octetsVal v)).map .leaf
  | .bitsVal v => (leaf (.bitsVal v)).map .leaf
  | .strVal v => (leaf (.strVal v)).map .leaf
  | .oidVal v => (leaf (.oidVal v)).map .leaf
  | .size c => (leaf (.size c)).map .leaf
  | .alphabet c => (leaf (.alphabet c)).map .leaf
  | .value a => (leaf (.value a)).map .leaf
  | .component c => (leaf (.component c)).map .leaf
  | .components n => (leaf (.components n)).map .leaf

/-- All constraints of a list. -/
def AC.cons {L : Type} (leaf : AC → Option L) : List AC → Option (List (Con L))
  | [] => some []
  | c :: rest => do
    let x ← c.con leaf
    let xs ← AC.cons leaf rest
    some (x :: xs)

/-- The leaves of the kinds of constraints: FrontEndAst/Asn1AcnAst.fs:102-105 (INTEGER: 121, REAL: 125), 135-136 (OCTET STRING
and BIT STRING), 156-158 (strings), 81 (ENUMERATED), 219-227 (SEQUENCE OF; single values are not modelled here). -/
def intLeaf : AC → Option RLeaf
  | .range l => some l
  | _ => none
def realLeaf : AC → Option RealLeaf
  | .realRange l => some l
  | _ => none
def itemLeaf : AC → Option Int
  | .item v => some v
  | _ => none
def octetLeaf : AC → Option (SizeLeaf (List Byte))
  | .octetsVal v => some (.single v)
  | .size c => some (.size c)
  | _ => none
def bitLeaf : AC → Option (SizeLeaf (List Bool))
  | .bitsVal v => some (.single v)
  | .size c => some (.size c)
  | _ => none
def strLeaf : AC → Option StrLeaf
  | .strVal v => some (.single (v.map BitVec.toNat))
  | .size c => some (.size c)
  | .alphabet c => some (.alphabet c)
  | _ => none
def elemLeaf : AC → Option (SizeLeaf (List AV))
  | .size c => some (.size c)
  | _ => none

/-- A WITH COMPONENT constraint says nothing about the size: its range is `Full`, FrontEndAst/uPER.fs:93-103. -/
def sizeCons : List AC → List AC
  | [] => []
  | .component _ :: rest => sizeCons rest
  | c :: rest => c :: sizeCons rest

/-- Is the constraint satisfied: `isValidValueGeneric` and `isValidValueRanged`, FrontEndAst/Asn1Fold.fs:548-577, over
leaves that can be tested. -/
def Con.holds {L V : Type} (leaf : L → V → Bool) : Con L → V → Bool
  | .union c d, v => c.holds leaf v || d.holds leaf v
  | .inter c d, v => c.holds leaf v && d.holds leaf v
  | .allExcept c, v => !c.holds leaf v
  | .except c d, v => c.holds leaf v && !d.holds leaf v
  | .root c, v => c.holds leaf v
  | .root2 c d, v => c.holds leaf v || d.holds leaf v
  | .leaf l, v => leaf l v

/-- The comparisons of doubles that the generated test of a REAL makes, BackendAst/DastValidate2.fs:272-293. -/
def RealLeaf.holds : RealLeaf → Dbl → Bool
  | .single w, d => dblEq d w
  | .range v1 v2 i j, d => (if i then dblLe v1 d else dblLt v1 d) && (if j then dblLe d v2 else dblLt d v2)
  | .valMax v1 i, d => if i then dblLe v1 d else dblLt v1 d
  | .minVal v2 j, d => if j then dblLe d v2 else dblLt d v2

/-- The number of bits of the C type: `uint8_t`, …, `int64_t` (by `IntegerClass`,
StgC/header_c.stg:71-80). -/
def IntClass.bits (c : IntClass) : Nat :=
  let m := if c.positive then c.max else 2 * c.max + 1
  if m < 2 ^ 8 then 8 else if m < 2 ^ 16 then 16 else if m < 2 ^ 32 then 32 else 64

/-- `uperRange` of an INTEGER, FrontEndAst/AcnCreateFromAntlr.fs:246. -/
def intRangeOf (cons : List AC) : Option Rng := (AC.cons intLeaf cons).bind intRange

/-- The items that the constraints allow (`validItems`, FrontEndAst/AcnCreateFromAntlr.fs:795; the order does not matter
here). -/
def validItems (items : List Int) (cons : List AC) : List Int :=
  match AC.cons itemLeaf cons with
  | some cs => items.filter fun v => cs.all fun c => c.holds (fun w v => v == w) v
  | none => items

/-- The test of a REAL. -/
def realHolds (cons : List AC) (d : Dbl) : Bool :=
  match AC.cons realLeaf cons with
  | some cs => cs.all fun c => c.holds RealLeaf.holds d
  | none => true

/-- The octets of a BIT STRING literal, an OBJECT IDENTIFIER with its array filled up: how a value of a type is held by the
functions of `Model/Gen`. An absent component with a DEFAULT holds the default (StgC/uper_c.stg:429-436), any other
absent component nothing. -/
def Oid.ofArcs (l : List U64) : Oid := ⟨l.length, l ++ List.replicate (20 - l.length) 0#64⟩

mutual
/-- A value of the type, as `Model/Gen` holds it. -/
def toVal : CTy → AV → Val
  | .int _ _, .int v => .int v
  | .bool _, .bool b => .bool b
  | .enum _ _, .enum v => .enum v
  | .octets _ _ _, .octets l => .octets l
  | .bits _ _ _, .bits l => .bits l.length (packBits l)
  | .str _ _ _ _, .str l => .str l
  | .oid _ _, .oid l => .oid (Oid.ofArcs l)
  | .real _, .real d => .real d
  | .seq fs _, .seq l => .seq (toValFields fs l)
  | .seqOf _ _ t _, .seqOf l => .seqOf (l.map (toVal t))
  | .choice alts _, .choice i v => .choice i (toValAlt alts i v)
  | .ref t _ _, a => toVal t a
  | _, _ => .null
/-- The components. -/
def toValFields : CFields → List (Option AV) → List (Bool × Val)
  | .cons _ t rest, some x :: xs => (true, toVal t x) :: toValFields rest xs
  | .cons (.default d) t rest, none :: xs => (false, toVal t d) :: toValFields rest xs
  | .cons _ _ rest, none :: xs => (false, .null) :: toValFields rest xs
  | _, _ => []
/-- The chosen alternative. -/
def toValAlt : CAlts → Nat → AV → Val
  | .nil, _, _ => .null
  | .cons t _, 0, v => toVal t v
  | .cons _ rest, i + 1, v => toValAlt rest i v
end

/-- The optionality, for the uPER back end. -/
def COpt.toOpt (t : CTy) : COpt → Opt
  | .mandatory => .mandatory
  | .optional => .optional
  | .default d => .default (toVal t d)
  | .absent => .absent
  | .present => .present

/-- The effective alphabet of an IA5String: `uperCharSet`, FrontEndAst/AcnCreateFromAntlr.fs:1109 and 432. -/
def strChars (acs : List AC) : Option (List Byte) := do
  some ((← strAlphabet ia5Chars (← AC.cons strLeaf acs)).map (BitVec.ofNat 8))

/-- The effective size, when constraints of references change it. -/
def effLo (sz : Option (Nat × Nat)) (lo : Nat) : Nat := match sz with
  | some p => p.1
  | none => lo
def effHi (sz : Option (Nat × Nat)) (hi : Nat) : Nat := match sz with
  | some p => p.2
  | none => hi

/-- `uperEquivalence`, FrontEndAst/TypesEquivalence.fs:5-40, of a type and of the type with more constraints: a BOOLEAN, NULL or REAL
is always the same. (SEQUENCE and CHOICE types with more constraints are not modelled here.) -/
def CTy.sameWithMore (acs : List AC) (t : CTy) : Bool :=
  acs.isEmpty || match t.layout with
    | .bool _ => true
    | .null => true
    | .real _ => true
    | _ => false

mutual
/-- The type as the uPER back end looks at it: ranges, sizes and alphabets instead of constraints
(FrontEndAst/AcnCreateFromAntlr.fs:246, 331, 432, 795, 1171 call the functions of FrontEndAst/uPER.fs). A reference
calls the function of the referenced type if the constraints do not make a difference, otherwise the code of the referenced type is generated
again, with ranges and sizes from all constraints (BackendAst/DAstUPer.fs:926-960; the constraints of the type come before those of the reference,
FrontEndAst/AcnCreateFromAntlr.fs:1517). `sz`, `ex`: the effective size and the constraints of the references that lead here. The C integer remains that
of the referenced type. Not modelled: references to SEQUENCE and CHOICE types with constraints; extension markers. -/
def uperIn (sz : Option (Nat × Nat)) (ex : List AC) : CTy → Ty
  | .int cls cons => .int cls.bits ((intRangeOf (cons ++ ex)).getD .full)
  | .bool _ => .bool
  | .null => .null
  | .enum items cons => .enum items (validItems items (cons ++ ex)) none
  | .octets lo hi _ => .octets (effLo sz lo) (effHi sz hi)
  | .bits lo hi _ => .bits (effLo sz lo) (effHi sz hi) (effLo sz lo) (effHi sz hi)
  | .str lo hi a cons => .str (if ex.isEmpty then a else (strChars (cons ++ ex)).getD a) (effLo sz lo) (effHi sz hi)
  | .oid rel _ => if rel then .relOid else .oid
  | .real cons => .real (realHolds (cons ++ ex))
  | .seq fs _ => .seq (uperFields fs)
  | .seqOf lo hi t _ => .seqOf (effLo sz lo) (effHi sz hi) (uperIn none [] t)
  | .choice alts _ => .choice (uperAlts alts)
  | .ref t size cons => if t.sameWithMore (cons ++ ex) then .ref (uperIn (sz.or size) (cons ++ ex) t) else uperIn (sz.or size) (cons ++ ex) t
/-- The components. -/
def uperFields : CFields → Fields
  | .nil => .nil
  | .cons o t rest => .cons (o.toOpt t) (uperIn none [] t) (uperFields rest)
/-- The alternatives. -/
def uperAlts : CAlts → Alts
  | .nil => .nil
  | .cons t rest => .cons (uperIn none [] t) (uperAlts rest)
end

/-- The type as the uPER back end looks at it. -/
def uperTy (t : CTy) : Ty := uperIn none [] t

/-! ## What the encoder reads -/

mutual
/-- What the encoder finds in the object. Of an OCTET STRING and a SEQUENCE OF the first `nCount` elements
(StgC/uper_c.stg:504-515, 482-493), the fixed number when the effective size is fixed; of a BIT STRING `nCount` and the whole array, with
whatever follows the last bit (530-539); of a string the characters before the zero (`strlen`, 456-471); of an OBJECT
IDENTIFIER the whole structure; of a SEQUENCE the `exist` bits and all components, also absent ones; of a CHOICE the
union as the alternative that `kind` names (358-366). `sz`: the effective size from the references that lead here. -/
def objIn (sz : Option (Nat × Nat)) : CTy → CVal → Val
  | .int _ _, .int v => .int v
  | .bool _, .bool b => .bool b
  | .enum _ _, .enum v => .enum v
  | .octets lo hi _, .octets n arr => .octets (arr.take (if effLo sz lo = effHi sz hi then effHi sz hi else n.toNat))
  | .bits lo hi _, .bits n arr => .bits (if effLo sz lo = effHi sz hi then effHi sz hi else n.toNat) arr
  | .str _ _ _ _, .str arr => .str (arr.takeWhile (· ≠ 0#8))
  | .oid _ _, .oid o => .oid o
  | .real _, .real d => .real d
  | .seq fs _, .seq l => .seq (objFields fs l)
  | .seqOf lo hi t _, .seqOf n arr => .seqOf ((arr.take (if effLo sz lo = effHi sz hi then effHi sz hi else n.toNat)).map (objIn none t))
  | .choice alts _, .choice k u => .choice (k.toNat - 1) (objAlt alts (k.toNat - 1) u)
  | .ref t size _, v => objIn (sz.or size) t v
  | _, _ => .null
/-- The components; a mandatory one has no bit in `exist`. -/
def objFields : CFields → List (Bool × CVal) → List (Bool × Val)
  | .cons .mandatory t rest, (_, v) :: vs => (true, objIn none t v) :: objFields rest vs
  | .cons _ t rest, (e, v) :: vs => (e, objIn none t v) :: objFields rest vs
  | _, _ => []
/-- The union. -/
def objAlt : CAlts → Nat → CVal → Val
  | .nil, _, _ => .null
  | .cons t _, 0, v => objIn none t v
  | .cons _ rest, i + 1, v => objAlt rest i v
end

/-- What the encoder finds in the object. -/
def objVal (t : CTy) (v : CVal) : Val := objIn none t v

/-! ## The generated functions -/

/-- `<type>_Encode(pVal, pBitStrm, pErrCode, bCheckConstraints)`, StgC/uper_c.stg:37-69. Result: the returned flag and `*pErrCode`.
Simplification: the body leaves `*pErrCode` alone when it succeeds, and its error codes are not told apart (`some []`). -/
def encodeObject (t : CTy) (v : CVal) (bCheckConstraints : Bool) : M (Bool × ErrCode) := do
  let p ← (if bCheckConstraints then isConstraintValid t v none else pure (true, none))
  if p.1 && p.2.isNone then do
    let ret ← encTy (uperTy t) (objVal t v)
    pure (ret, if ret then none else some [])
  else pure p

end Asn1
