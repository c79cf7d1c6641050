import Verif.Model.Valid
/-!
# Value notation and constraint notation in the front end

Values and constraints as written in an ASN.1 file (FrontEndAst/Asn1Ast.fs), the checks that the compiler makes on them
(FrontEndAst/CheckAsn1.fs) and their translation into the typed values and constraints that the back end works on
(FrontEndAst/ValuesMapping.fs, FrontEndAst/ConstraintsMapping.fs).

Simplifications: a reference to a type or value carries what it refers to (names that refer to themselves in a circle make
the compiler run forever). Not modelled: time types. INCLUDES and `MIN..MAX` are
removed before the translation, see `Model/Written`.
-/
namespace Asn1

/-! ## Notation -/

mutual
/-- `Asn1Value`, FrontEndAst/Asn1Ast.fs:34-47. A string is the concatenation of its parts. An OBJECT IDENTIFIER value is the list of its arcs: names in it are not modelled.
`ident`: a name for which there is no value assignment. `ref`: a name with a value assignment; `gov` is the type of the
assignment, when that is a reference. -/
inductive VN where
  | int (v : Int)
  | real (d : Dbl)
  | bool (b : Bool)
  | null
  | str (l : List Byte)
  | bits (l : List Bool)
  | octets (l : List Byte)
  | oid (l : List U64)
  | seqOf (l : VNs)
  | seq (l : VNFields)
  | choice (nm : String) (v : VN)
  | ident (md nm : String)
  | ref (md nm : String) (gov : Option (String × String)) (v : VN)
/-- The elements of a SEQUENCE OF value. -/
inductive VNs where
  | nil
  | cons (v : VN) (rest : VNs)
/-- The components of a SEQUENCE value. -/
inductive VNFields where
  | nil
  | cons (nm : String) (v : VN) (rest : VNFields)
end

mutual
/-- `Asn1Constraint`, FrontEndAst/Asn1Ast.fs:59-75. -/
inductive XC where
  | single (v : VN)
  | range (v1 v2 : VN) (minIsIn maxIsIn : Bool)
  | valMax (v1 : VN) (minIsIn : Bool)
  | minVal (v2 : VN) (maxIsIn : Bool)
  | size (c : XC)
  | alphabet (c : XC)
  | union (c d : XC)
  | inter (c d : XC)
  | allExcept (c : XC)
  | except (c d : XC)
  | root (c : XC)
  | root2 (c d : XC)
  | component (c : XC)
  | components (ncs : XCs)
/-- `NamedConstraint list`, FrontEndAst/Asn1Ast.fs:77-81. `bare`: without a constraint. -/
inductive XCs where
  | nil
  | bare (nm : String) (mark : Mark) (rest : XCs)
  | cons (nm : String) (mark : Mark) (c : XC) (rest : XCs)
end

/-- `Asn1Optionality option`, FrontEndAst/Asn1Ast.fs:111-118. -/
inductive NOpt where
  | mandatory
  | optional
  | default (v : VN)
  | absent
  | present

mutual
/-- `Asn1Type`, FrontEndAst/Asn1Ast.fs:124-153, with the constraints. IA5String and NumericString are not told apart, nor are
OBJECT IDENTIFIER and RELATIVE-OID. -/
inductive NTy where
  | int (cons : List XC)
  | real (cons : List XC)
  | bool (cons : List XC)
  | null (cons : List XC)
  | enum (items : List (String × Int)) (cons : List XC)
  | octets (cons : List XC)
  | bits (cons : List XC)
  | str (cons : List XC)
  | oid (cons : List XC)
  | seq (fs : NFields) (cons : List XC)
  | seqOf (t : NTy) (cons : List XC)
  | choice (alts : NAlts) (cons : List XC)
  | ref (md tas : String) (t : NTy) (cons : List XC)
/-- The components. -/
inductive NFields where
  | nil
  | cons (nm : String) (o : NOpt) (t : NTy) (rest : NFields)
/-- The alternatives. -/
inductive NAlts where
  | nil
  | cons (nm : String) (t : NTy) (rest : NAlts)
end

/-! ## Literals -/

/-- The pairs of digits, `getAsTupples`, CommonTypes/FsUtils.fs:316-324, of a literal `'…'H`, as octets:
FrontEndAst/CreateAsn1AstFromAntlrTree.fs:259-263. A missing last digit is 0. -/
def hexOctets : List (Fin 16) → List Byte
  | [] => []
  | [x] => [BitVec.ofNat 8 (16 * x.val)]
  | x :: y :: rest => BitVec.ofNat 8 (16 * x.val + y.val) :: hexOctets rest

/-- The literal `'…'H`. -/
def hexLiteral (digits : List (Fin 16)) : VN := .octets (hexOctets digits)

/-- `handleNibble`, CommonTypes/FsUtils.fs:611-629. -/
def nibbleBits (n : Nat) : List Bool := [decide (8 ≤ n % 16), decide (4 ≤ n % 8), decide (2 ≤ n % 4), decide (1 ≤ n % 2)]

/-- `byteArrayToBitStringValue`, CommonTypes/FsUtils.fs:609-632. -/
def octetsToBits (l : List Byte) : List Bool := l.flatMap fun o => nibbleBits (o.toNat / 16) ++ nibbleBits (o.toNat % 16)

/-- `(double)n`, rounded to the nearest number. -/
def dblOfInt (n : Int) : Dbl := if n = 0 then 0#64 else dblMake (decide (n < 0)) (roundMag n.natAbs 1 0)

/-- `BigInteger d` of .NET: towards zero; an exception is raised for infinity and NaN. -/
def dblTrunc (d : Dbl) : Option Int :=
  if dblIsNan d || dblIsInf d then none
  else
    let m : Int := dblMant d * 2 ^ (dblPow d).toNat / 2 ^ (-dblPow d).toNat
    some (if dblSign d then -m else m)

/-! ## References -/

/-- The value of a chain of references: `getActualBaseValue`, FrontEndAst/ValuesMapping.fs:19-28, `GetBaseValue`,
FrontEndAst/Asn1Ast.fs:324-327, applied until it ends. `none`: there is no such value (an error is raised). -/
def VN.base : VN → Option VN
  | .ref _ _ _ v => v.base
  | .ident _ _ => none
  | v => some v

/-- The name of a reference. -/
def VN.name : VN → Option String
  | .ref _ nm _ _ => some nm
  | .ident _ nm => some nm
  | _ => none

/-- The number of the item with this name. -/
def itemNamed (items : List (String × Int)) (nm : String) : Option Int := (items.find? fun p => p.1 == nm).map (·.2)

/-- The item that a name denotes in an ENUMERATED type, and if there is no such item, the value it refers to:
FrontEndAst/ValuesMapping.fs:80-91. -/
def VN.item (items : List (String × Int)) : VN → Option Int
  | .ident _ nm => itemNamed items nm
  | .ref _ nm _ v => match itemNamed items nm with
    | some x => some x
    | none => v.item items
  | _ => none

/-- The first component with this name (`Seq.tryFind`). -/
def VNFields.find (nm : String) : VNFields → Option VN
  | .nil => none
  | .cons n v rest => if n == nm then some v else rest.find nm

/-- The names of the components of a value. -/
def VNFields.names : VNFields → List String
  | .nil => []
  | .cons n _ rest => n :: rest.names

/-- The names of the components of a type. -/
def NFields.names : NFields → List String
  | .nil => []
  | .cons n _ _ rest => n :: rest.names

/-- The number of the first alternative with this name. -/
def NAlts.index (nm : String) : NAlts → Option Nat
  | .nil => none
  | .cons n _ rest => if n == nm then some 0 else (rest.index nm).map (· + 1)

/-- The number of the first component with this name. -/
def NFields.index (nm : String) : NFields → Option Nat
  | .nil => none
  | .cons n _ _ rest => if n == nm then some 0 else (rest.index nm).map (· + 1)

/-! ## Translation of values -/

/-- Translate every element. -/
def VNs.mapM (f : VN → Option AV) : VNs → Option (List AV)
  | .nil => some []
  | .cons v rest => do
    let x ← f v
    let xs ← rest.mapM f
    some (x :: xs)

/-- `List.map`, as far as errors are concerned. -/
def VNFields.all (f : String → VN → Bool) : VNFields → Bool
  | .nil => true
  | .cons n v rest => f n v && rest.all f

mutual
/-- `mapValue`, FrontEndAst/ValuesMapping.fs:31-147, followed by `getBaseValue`, FrontEndAst/ConstraintsMapping.fs:7-10. `none`: an
error is raised. The components of a SEQUENCE are put in the order of the type; the users of the result look them up by
name (`Seq.tryFind`). Simplification: NULL and OBJECT IDENTIFIER values are taken only for their types; the code takes
them for any type, but the check of FrontEndAst/CheckAsn1.fs comes before. -/
def mapVal : NTy → VN → Option AV
  | .int _, v => match v.base with
    | some (.int x) => some (.int x)
    | _ => none
  | .real _, v => match v.base with
    | some (.int x) => some (.real (dblOfInt x))
    | some (.real d) => some (.real d)
    | _ => none
  | .bool _, v => match v.base with
    | some (.bool b) => some (.bool b)
    | _ => none
  | .null _, v => match v.base with
    | some .null => some .null
    | _ => none
  | .enum items _, v => (v.item items).map .enum
  | .octets _, v => match v.base with
    | some (.octets l) => some (.octets l)
    | some (.bits l) => some (.octets (packBits l))
    | _ => none
  | .bits _, v => match v.base with
    | some (.bits l) => some (.bits l)
    | some (.octets l) => some (.bits (octetsToBits l))
    | _ => none
  | .str _, v => match v.base with
    | some (.str l) => some (.str l)
    | _ => none
  | .oid _, v => match v.base with
    | some (.oid l) => some (.oid l)
    | _ => none
  | .seqOf t _, v => match v.base with
    | some (.seqOf l) => (l.mapM (mapVal t)).map .seqOf
    | _ => none
  | .seq fs _, v => match v.base with
    | some (.seq l) => if l.all (mapField fs) then (mapFields fs l).map .seq else none
    | _ => none
  | .choice alts _, v => match v.base with
    | some (.choice nm w) => (mapAlt alts nm w).map fun p => .choice p.1 p.2
    | _ => none
  | .ref _ _ t _, v => mapVal t v
/-- The components, FrontEndAst/ValuesMapping.fs:98-111. -/
def mapFields : NFields → VNFields → Option (List (Option AV))
  | .nil, _ => some []
  | .cons nm _ t rest, l => do
    let x ← match l.find nm with
      | some w => (mapVal t w).map some
      | none => some none
    let xs ← mapFields rest l
    some (x :: xs)
/-- A component of the value: it is looked up by name, FrontEndAst/ValuesMapping.fs:98-109. -/
def mapField : NFields → String → VN → Bool
  | .nil, _, _ => false
  | .cons n _ t rest, nm, w => if n == nm then (mapVal t w).isSome else mapField rest nm w
/-- The alternative, FrontEndAst/ValuesMapping.fs:112-120. -/
def mapAlt : NAlts → String → VN → Option (Nat × AV)
  | .nil, _, _ => none
  | .cons n t rest, nm, w =>
    if n == nm then (mapVal t w).map fun x => (0, x)
    else (mapAlt rest nm w).map fun p => (p.1 + 1, p.2)
end

/-! ## Is it a value of the type -/

/-- `&&` where the evaluation of an operand can raise an error. -/
def andB : Option Bool → Option Bool → Option Bool
  | some true, b => b
  | a, _ => a

/-- `Seq.forall` over the elements. -/
def VNs.allB (f : VN → Option Bool) : VNs → Option Bool
  | .nil => some true
  | .cons v rest => andB (f v) (rest.allB f)

/-- `Seq.forall` over named components. -/
def VNFields.allB (f : String → VN → Option Bool) : VNFields → Option Bool
  | .nil => some true
  | .cons n v rest => andB (f n v) (rest.allB f)

/-- `Seq.forall` over constraints. -/
def allB {α : Type} (f : α → Option Bool) : List α → Option Bool
  | [] => some true
  | c :: rest => andB (f c) (allB f rest)

/-- `typesMatch`, FrontEndAst/CheckAsn1.fs:64-72: the type of the value assignment is the one expected, when both are named. -/
def governs : Option (String × String) → Option (String × String) → Bool
  | some a, some b => a == b
  | _, _ => true

/-- Follow references, with `typesMatch` at each: FrontEndAst/CheckAsn1.fs:56-76 and 115-118. `none`: an error is raised. -/
def VN.baseFor (tn : Option (String × String)) : VN → Option VN
  | .ref _ _ g v => if governs tn g then v.baseFor tn else none
  | .ident _ _ => none
  | v => some v

/-- ENUMERATED, FrontEndAst/CheckAsn1.fs:90-95. -/
def VN.isItem (tn : Option (String × String)) (items : List (String × Int)) : VN → Option Bool
  | .ident _ nm => if (itemNamed items nm).isSome then some true else none
  | .ref _ nm g v =>
    if (itemNamed items nm).isSome then some true
    else if governs tn g then v.isItem tn items else none
  | _ => some false

/-- May the value be left out, FrontEndAst/CheckAsn1.fs:102-106. -/
def NOpt.mayBeMissing : NOpt → Bool
  | .optional => true
  | .default _ => true
  | .absent => true
  | _ => false

mutual
/-- `TypeValueMatch`, FrontEndAst/CheckAsn1.fs:56-121. `tn`: the reference by which the type is given (the outermost one:
`GetActualType` follows all of them at once). `none`: an error is raised. -/
def typeMatch : Option (String × String) → NTy → VN → Option Bool
  | tn, .int _, v => (v.baseFor tn).map fun w => match w with
    | .int _ => true
    | _ => false
  | tn, .real _, v => (v.baseFor tn).map fun w => match w with
    | .int _ => true
    | .real _ => true
    | _ => false
  | tn, .bool _, v => (v.baseFor tn).map fun w => match w with
    | .bool _ => true
    | _ => false
  | tn, .null _, v => (v.baseFor tn).map fun w => match w with
    | .null => true
    | _ => false
  | tn, .enum items _, v => v.isItem tn items
  | tn, .octets _, v => (v.baseFor tn).map fun w => match w with
    | .octets _ => true
    | .bits _ => true
    | _ => false
  | tn, .bits _, v => (v.baseFor tn).map fun w => match w with
    | .octets _ => true
    | .bits _ => true
    | _ => false
  | tn, .str _, v => (v.baseFor tn).map fun w => match w with
    | .str _ => true
    | _ => false
  | tn, .oid _, v => (v.baseFor tn).map fun w => match w with
    | .oid _ => true
    | _ => false
  | tn, .seqOf t _, v => match v.baseFor tn with
    | some (.seqOf l) => l.allB (typeMatch none t)
    | some _ => some false
    | none => none
  | tn, .seq fs _, v => match v.baseFor tn with
    | some (.seq l) => andB (matchFields fs l) (some (l.names.all fs.names.contains))
    | some _ => some false
    | none => none
  | tn, .choice alts _, v => match v.baseFor tn with
    | some (.choice nm w) => matchAlt alts nm w
    | some _ => some false
    | none => none
  | tn, .ref md tas t _, v => typeMatch (tn <|> some (md, tas)) t v
/-- The components, FrontEndAst/CheckAsn1.fs:98-110. -/
def matchFields : NFields → VNFields → Option Bool
  | .nil, _ => some true
  | .cons nm o t rest, l =>
    andB (match l.find nm with
      | some w => typeMatch none t w
      | none => some o.mayBeMissing) (matchFields rest l)
/-- The alternative, FrontEndAst/CheckAsn1.fs:111-115. -/
def matchAlt : NAlts → String → VN → Option Bool
  | .nil, _, _ => some false
  | .cons n t rest, nm, w => if n == nm then typeMatch none t w else matchAlt rest nm w
end

/-- `CheckValueType`, FrontEndAst/CheckAsn1.fs:341-377: an error is raised unless the value is one of the type. -/
def checkValueType (t : NTy) (v : VN) : Bool := typeMatch none t v == some true

/-! ## Does the value satisfy the constraints -/

/-- What `AreAsn1ValuesEqual` compares when the other operand is no reference, FrontEndAst/CheckAsn1.fs:142-144: the value
referred to, but in the ENUMERATED case the reference itself. -/
def VN.other (isEnum : Bool) (v : VN) : Option VN := if isEnum then some v else v.base

mutual
/-- `AreAsn1ValuesEqual`, FrontEndAst/CheckAsn1.fs:125-144. Two references are compared by name (the comparison of the modules
compares a module with itself); OBJECT IDENTIFIER values are never equal. -/
def VN.eq (isEnum : Bool) : VN → VN → Option Bool
  | .ref _ n _ t, w => match w.name with
    | some m => some (n == m)
    | none => if isEnum then some false else t.eq isEnum w
  | .ident _ n, w => match w.name with
    | some m => some (n == m)
    | none => if isEnum then some false else none
  | .int x, w => (w.other isEnum).bind fun u => match u with
    | .int y => some (x == y)
    | .real d => (dblTrunc d).map (x == ·)
    | _ => some false
  | .real x, w => (w.other isEnum).bind fun u => match u with
    | .int y => (dblTrunc x).map (· == y)
    | .real d => some (dblEq x d)
    | _ => some false
  | .bool x, w => (w.other isEnum).map fun u => match u with
    | .bool y => x == y
    | _ => false
  | .null, w => (w.other isEnum).map fun u => match u with
    | .null => true
    | _ => false
  | .str x, w => (w.other isEnum).map fun u => match u with
    | .str y => x == y
    | _ => false
  | .bits x, w => (w.other isEnum).map fun u => match u with
    | .bits y => x == y
    | .octets y => packBits x == y
    | _ => false
  | .octets x, w => (w.other isEnum).map fun u => match u with
    | .bits y => x == packBits y
    | .octets y => x == y
    | _ => false
  | .oid _, w => (w.other isEnum).map fun _ => false
  | .seqOf x, w => match w.other isEnum with
    | some (.seqOf y) => x.eq isEnum y
    | some _ => some false
    | none => none
  | .seq x, w => match w.other isEnum with
    | some (.seq y) => x.eq isEnum y
    | some _ => some false
    | none => none
  | .choice n x, w => match w.other isEnum with
    | some (.choice m y) => if n == m then x.eq isEnum y else some false
    | some _ => some false
    | none => none
/-- The elements. Simplification: the lengths are compared at the end instead of at the beginning. -/
def VNs.eq (isEnum : Bool) : VNs → VNs → Option Bool
  | .nil, .nil => some true
  | .cons v vs, .cons w ws => andB (v.eq isEnum w) (vs.eq isEnum ws)
  | _, _ => some false
/-- The components, in the order written. -/
def VNFields.eq (isEnum : Bool) : VNFields → VNFields → Option Bool
  | .nil, .nil => some true
  | .cons n v vs, .cons m w ws => if n == m then andB (v.eq isEnum w) (vs.eq isEnum ws) else some false
  | _, _ => some false
end

/-- Comparison of strings. -/
def cmpBytes : List Byte → List Byte → Int
  | [], [] => 0
  | [], _ :: _ => -1
  | _ :: _, [] => 1
  | x :: xs, y :: ys => if x.toNat < y.toNat then -1 else if y.toNat < x.toNat then 1 else cmpBytes xs ys

/-- `comparePrimitiveValues` for INTEGER. -/
def cmpInt (a b : Int) : Int := if a = b then 0 else if b < a then 1 else -1

/-- `comparePrimitiveValues` for doubles. -/
def cmpDbl (a b : Dbl) : Int := if dblEq a b then 0 else if dblLt b a then 1 else -1

/-- `CompareAsn1Value`, FrontEndAst/CheckAsn1.fs:147-160. -/
def VN.cmp (v w : VN) : Option Int :=
  match v.base, w.base with
  | some (.int a), some (.int b) => some (cmpInt a b)
  | some (.int a), some (.real b) => (dblTrunc b).map (cmpInt a)
  | some (.real a), some (.int b) => (dblTrunc a).map fun a => cmpInt a b
  | some (.real a), some (.real b) => some (cmpDbl a b)
  | some (.str a), some (.str b) => some (cmpBytes a b)
  | _, _ => none

/-- `CompareAsn1Value v w <= 0` or `< 0`. -/
def VN.upTo (isIn : Bool) (v w : VN) : Option Bool := (v.cmp w).map fun c => if isIn then decide (c ≤ 0) else decide (c < 0)

/-- `TYPE_BIT_OR_OCT_STR`, FrontEndAst/CheckAsn1.fs:162-164. -/
inductive BitOrOct where
  | oct
  | bit
deriving DecidableEq

/-- The number of elements. -/
def VNs.length : VNs → Nat
  | .nil => 0
  | .cons _ rest => rest.length + 1

/-- The number that the SIZE constraint is about, FrontEndAst/CheckAsn1.fs:191-209. The outer `none`: an error is raised; the
inner: the answer is false. -/
def VN.sizeFor (bo : Option BitOrOct) (v : VN) : Option (Option Nat) :=
  match v.base with
  | some (.str l) => some (some l.length)
  | some (.bits l) => match bo with
    | some .bit => some (some l.length)
    | some .oct => some (if l.length % 8 = 0 then some (l.length / 8) else none)
    | none => some none
  | some (.octets l) => match bo with
    | some .bit => some (some (8 * l.length))
    | some .oct => some (some l.length)
    | none => some none
  | some (.seqOf l) => some (some (l.length))
  | _ => none

mutual
/-- `IsValueAllowed`, FrontEndAst/CheckAsn1.fs:174-289. `none`: an error is raised. -/
def isAllowed (isEnum : Bool) (bo : Option BitOrOct) : XC → VN → Option Bool
  | .single v1, v => v1.eq isEnum v
  | .range v1 v2 i j, v => andB (v1.upTo i v) (v.upTo j v2)
  | .valMax v1 i, v => v1.upTo i v
  | .minVal v2 j, v => v.upTo j v2
  | .size c, v => match v.sizeFor bo with
    | some (some n) => isAllowed isEnum bo c (.int n)
    | some none => some false
    | none => none
  | .alphabet c, v => match v.base with
    | some (.str s) => match c with
      | .single (.str w) => some (s.all w.contains)
      | .single _ => some false
      | c => allB (fun ch => isAllowed isEnum bo c (.str [ch])) s
    | _ => none
  | .union c d, v => do
    let x ← isAllowed isEnum bo c v
    let y ← isAllowed isEnum bo d v
    some (x || y)
  | .inter c d, v => andB (isAllowed isEnum bo c v) (isAllowed isEnum bo d v)
  | .allExcept c, v => (isAllowed isEnum bo c v).map (!·)
  | .except c d, v => andB (isAllowed isEnum bo c v) ((isAllowed isEnum bo d v).map (!·))
  | .root c, v => isAllowed isEnum bo c v
  | .root2 c d, v => match isAllowed isEnum bo c v with
    | some false => isAllowed isEnum bo d v
    | x => x
  | .component c, v => match v.base with
    | some (.seqOf l) => l.allB (isAllowed isEnum bo c)
    | _ => none
  | .components ncs, v => match v.base with
    | some (.seq l) => componentsAllowed isEnum bo ncs l
    | some (.choice nm w) => alternativeAllowed isEnum bo ncs nm w
    | _ => none
/-- SEQUENCE, FrontEndAst/CheckAsn1.fs:261-277. -/
def componentsAllowed (isEnum : Bool) (bo : Option BitOrOct) : XCs → VNFields → Option Bool
  | .nil, _ => some true
  | .bare nm m rest, l => andB (match m, l.find nm with
      | .present, none => some false
      | .absent, some _ => some false
      | _, _ => some true) (componentsAllowed isEnum bo rest l)
  | .cons nm m c rest, l => andB (match m, l.find nm with
      | .noMark, none => some true
      | .noMark, some w => isAllowed isEnum bo c w
      | .present, none => some false
      | .present, some w => isAllowed isEnum bo c w
      | .absent, none => some true
      | .absent, some _ => some false
      | .optional, some w => isAllowed isEnum bo c w
      | .optional, none => some false) (componentsAllowed isEnum bo rest l)
/-- CHOICE, FrontEndAst/CheckAsn1.fs:278-286: the first entry for the chosen alternative. -/
def alternativeAllowed (isEnum : Bool) (bo : Option BitOrOct) : XCs → String → VN → Option Bool
  | .nil, _, _ => some true
  | .bare n m rest, nm, w => if n == nm then some (decide (m ≠ .absent)) else alternativeAllowed isEnum bo rest nm w
  | .cons n m c rest, nm, w =>
    if n == nm then (if m = .absent then some false else isAllowed isEnum bo c w)
    else alternativeAllowed isEnum bo rest nm w
end

mutual
/-- `CheckIfVariableViolatesTypeConstraints`, FrontEndAst/CheckAsn1.fs:291-322: true when the value conforms. `acc`: the
constraints of the references to the type (`GetBaseTypeConsIncluded`, FrontEndAst/Asn1Ast.fs:310-317). The parts of a
value are looked at only when the value is written out, not when it is referred to. -/
def conforms : NTy → List XC → VN → Option Bool
  | .ref _ _ t cons, acc, v => conforms t (cons ++ acc) v
  | .enum items cons, acc, v => match v.name with
    | some nm => allB (fun c => isAllowed (items.any fun p => p.1 == nm) none c v) (cons ++ acc)
    | none => allB (fun c => isAllowed false none c v) (cons ++ acc)
  | .octets cons, acc, v => allB (fun c => isAllowed false (some .oct) c v) (cons ++ acc)
  | .bits cons, acc, v => allB (fun c => isAllowed false (some .bit) c v) (cons ++ acc)
  | .seqOf t cons, acc, v => andB (allB (fun c => isAllowed false none c v) (cons ++ acc)) (match v with
    | .seqOf l => l.allB (conforms t [])
    | _ => some true)
  | .seq fs cons, acc, v => andB (allB (fun c => isAllowed false none c v) (cons ++ acc)) (match v with
    | .seq l => l.allB (conformsField fs)
    | _ => some true)
  | .choice alts cons, acc, v => andB (allB (fun c => isAllowed false none c v) (cons ++ acc)) (match v with
    | .choice nm w => conformsAlt alts nm w
    | _ => some true)
  | .int cons, acc, v => allB (fun c => isAllowed false none c v) (cons ++ acc)
  | .real cons, acc, v => allB (fun c => isAllowed false none c v) (cons ++ acc)
  | .bool cons, acc, v => allB (fun c => isAllowed false none c v) (cons ++ acc)
  | .null cons, acc, v => allB (fun c => isAllowed false none c v) (cons ++ acc)
  | .str cons, acc, v => allB (fun c => isAllowed false none c v) (cons ++ acc)
  | .oid cons, acc, v => allB (fun c => isAllowed false none c v) (cons ++ acc)
/-- The component with the name, FrontEndAst/CheckAsn1.fs:308-314. -/
def conformsField : NFields → String → VN → Option Bool
  | .nil, _, _ => some false
  | .cons n _ t rest, nm, w => if n == nm then conforms t [] w else conformsField rest nm w
/-- The alternative with the name, FrontEndAst/CheckAsn1.fs:315-320. -/
def conformsAlt : NAlts → String → VN → Option Bool
  | .nil, _, _ => some false
  | .cons n t rest, nm, w => if n == nm then conforms t [] w else conformsAlt rest nm w
end

/-- A DEFAULT value is accepted: `CheckValueType` and `CheckIfVariableViolatesTypeConstraints`, FrontEndAst/CheckAsn1.fs:530-546. -/
def acceptsDefault (t : NTy) (v : VN) : Bool := checkValueType t v && conforms t [] v == some true

/-! ## Translation of constraints -/

/-- `getRangeTypeConstraint`, FrontEndAst/ConstraintsMapping.fs:203-235, for integers. -/
def mapRange (get : VN → Option Int) : XC → Option (Con RLeaf)
  | .single v => (get v).map fun x => .leaf (.single x)
  | .range v1 v2 i j => do
    let x ← get v1
    let y ← get v2
    some (.leaf (.range x y i j))
  | .valMax v1 i => (get v1).map fun x => .leaf (.valMax x i)
  | .minVal v2 j => (get v2).map fun y => .leaf (.minVal y j)
  | .union c d => do
    let x ← mapRange get c
    let y ← mapRange get d
    some (.union x y)
  | .inter c d => do
    let x ← mapRange get c
    let y ← mapRange get d
    some (.inter x y)
  | .allExcept c => (mapRange get c).map .allExcept
  | .except c d => do
    let x ← mapRange get c
    let y ← mapRange get d
    some (.except x y)
  | .root c => (mapRange get c).map .root
  | .root2 c d => do
    let x ← mapRange get c
    let y ← mapRange get d
    some (.root2 x y)
  | _ => none

/-- `posIntValGetter`, FrontEndAst/ConstraintsMapping.fs:58-73. -/
def posIntOf (v : VN) : Option Int :=
  match v.base with
  | some (.int x) => if 0 ≤ x ∧ x < 2 ^ 32 then some x else none
  | _ => none

/-- `charGetter`, FrontEndAst/ConstraintsMapping.fs:75-89. -/
def charOf (v : VN) : Option Nat :=
  match v.base with
  | some (.str [c]) => some c.toNat
  | _ => none

/-- `strGetter`, FrontEndAst/ConstraintsMapping.fs:91-105. -/
def strOf (v : VN) : Option (List Byte) :=
  match v.base with
  | some (.str l) => some l
  | _ => none

/-- `getRangeTypeConstraint`, FrontEndAst/ConstraintsMapping.fs:203-235, for the characters of FROM (284-286). -/
def mapAlpha : XC → Option (Con AlphaLeaf)
  | .single v => (strOf v).map fun l => .leaf (.chars (l.map BitVec.toNat))
  | .range v1 v2 i j => do
    let x ← charOf v1
    let y ← charOf v2
    some (.leaf (.range x y i j))
  | .valMax v1 i => (charOf v1).map fun x => .leaf (.valMax x i)
  | .minVal v2 j => (charOf v2).map fun y => .leaf (.minVal y j)
  | .union c d => do
    let x ← mapAlpha c
    let y ← mapAlpha d
    some (.union x y)
  | .inter c d => do
    let x ← mapAlpha c
    let y ← mapAlpha d
    some (.inter x y)
  | .allExcept c => (mapAlpha c).map .allExcept
  | .except c d => do
    let x ← mapAlpha c
    let y ← mapAlpha d
    some (.except x y)
  | .root c => (mapAlpha c).map .root
  | .root2 c d => do
    let x ← mapAlpha c
    let y ← mapAlpha d
    some (.root2 x y)
  | _ => none

/-- `GetActualType`, FrontEndAst/Asn1Ast.fs:288-294. -/
def NTy.actual : NTy → NTy
  | .ref _ _ t _ => t.actual
  | t => t

/-- The value of a single value constraint: the getters of FrontEndAst/ConstraintsMapping.fs:46-165. -/
def singleCon (t : NTy) (v : VN) : Option AC :=
  match t.actual, mapVal t v with
  | .int _, some (.int x) => some (.range (.single x))
  | .real _, some (.real d) => some (.realRange (.single d))
  | .bool _, some (.bool b) => some (.boolean b)
  | .enum _ _, some (.enum x) => some (.item x)
  | .octets _, some (.octets l) => some (.octetsVal l)
  | .bits _, some (.bits l) => some (.bitsVal l)
  | .str _, some (.str l) => some (.strVal l)
  | .oid _, some (.oid l) => some (.oidVal l)
  | .seq _ _, some a => some (.value a)
  | .seqOf _ _, some a => some (.value a)
  | .choice _ _, some a => some (.value a)
  | _, _ => none

/-- `getValueAsBigInteger`, FrontEndAst/ConstraintsMapping.fs:46-50. -/
def intOf (t : NTy) (v : VN) : Option Int :=
  match mapVal t v with
  | some (.int x) => some x
  | _ => none

/-- `getValueAsDouble`, FrontEndAst/ConstraintsMapping.fs:52-56. -/
def dblOf (t : NTy) (v : VN) : Option Dbl :=
  match mapVal t v with
  | some (.real d) => some d
  | _ => none

/-- Is there a SIZE constraint for the type: FrontEndAst/ConstraintsMapping.fs:244-246, 281-283, 353-355. -/
def NTy.sizeable : NTy → Bool
  | .octets _ => true
  | .bits _ => true
  | .str _ => true
  | .seqOf _ _ => true
  | _ => false

/-- The component with the name. -/
def NFields.typeOf (nm : String) : NFields → Option NTy
  | .nil => none
  | .cons n _ t rest => if n == nm then some t else rest.typeOf nm

/-- The alternative with the name. -/
def NAlts.typeOf (nm : String) : NAlts → Option NTy
  | .nil => none
  | .cons n t rest => if n == nm then some t else rest.typeOf nm

/-- The parts of a SEQUENCE or CHOICE type: number and type by name. -/
def NTy.part (t : NTy) (nm : String) : Option (Nat × NTy) :=
  match t with
  | .seq fs _ => do some (← fs.index nm, ← fs.typeOf nm)
  | .choice alts _ => do some (← alts.index nm, ← alts.typeOf nm)
  | _ => none

mutual
/-- `getAnyConstraint`, FrontEndAst/ConstraintsMapping.fs:327-434, with the functions it calls: 168-312. `none`: an error is raised.
Simplification: a constraint on NULL, which the code forgets, is not translated. -/
def mapCon (t : NTy) : XC → Option AC
  | .single v => singleCon t v
  | .range v1 v2 i j => match t.actual with
    | .int _ => do some (.range (.range (← intOf t v1) (← intOf t v2) i j))
    | .real _ => do some (.realRange (.range (← dblOf t v1) (← dblOf t v2) i j))
    | _ => none
  | .valMax v1 i => match t.actual with
    | .int _ => do some (.range (.valMax (← intOf t v1) i))
    | .real _ => do some (.realRange (.valMax (← dblOf t v1) i))
    | _ => none
  | .minVal v2 j => match t.actual with
    | .int _ => do some (.range (.minVal (← intOf t v2) j))
    | .real _ => do some (.realRange (.minVal (← dblOf t v2) j))
    | _ => none
  | .size c => if t.actual.sizeable then (mapRange posIntOf c).map .size else none
  | .alphabet c => match t.actual with
    | .str _ => (mapAlpha c).map .alphabet
    | _ => none
  | .union c d => do
    let x ← mapCon t c
    let y ← mapCon t d
    some (.union x y)
  | .inter c d => do
    let x ← mapCon t c
    let y ← mapCon t d
    some (.inter x y)
  | .allExcept c => (mapCon t c).map .allExcept
  | .except c d => do
    let x ← mapCon t c
    let y ← mapCon t d
    some (.except x y)
  | .root c => (mapCon t c).map .root
  | .root2 c d => do
    let x ← mapCon t c
    let y ← mapCon t d
    some (.root2 x y)
  | .component c => match t.actual with
    | .seqOf e _ => (mapCon e c).map .component
    | _ => none
  | .components ncs => match t.actual with
    | .seq fs cons => (mapCons (.seq fs cons) ncs).map .components
    | .choice alts cons => (mapCons (.choice alts cons) ncs).map .components
    | _ => none
/-- WITH COMPONENTS, FrontEndAst/ConstraintsMapping.fs:417-424. -/
def mapCons (t : NTy) : XCs → Option NCs
  | .nil => some .nil
  | .bare nm m rest => do
    let p ← t.part nm
    let r ← mapCons t rest
    some (.bare p.1 m r)
  | .cons nm m c rest => do
    let p ← t.part nm
    let x ← mapCon p.2 c
    let r ← mapCons t rest
    some (.cons p.1 m x r)
end

end Asn1
