import Verif.Model.Valid
/-!
# The generated functions `<type>_Initialize`, and the assignment of a declared value (DEFAULT)

BackendAst/DAstInitialize.fs, StgC/init_c.stg. The functions store into an object that already exists: what they do not
store keeps its old content. All of this is the C backend without `-ig` (`generateConstInitGlobals`).

Not modelled: constraints that WITH COMPONENT and WITH COMPONENTS impose on the parts of a type. The front end hands
them down to the parts (FrontEndAst/AcnCreateFromAntlr.fs:1147, 1191-1240), where they take part in the choice of the initial value;
the theorems are about types without them. Not modelled either: time types.
-/
namespace Asn1

/-! ## Which values are allowed -/

/-- `foldGenericConstraint` and `foldRangeTypeConstraint` with the Boolean operations, FrontEndAst/Asn1Fold.fs:535-574. -/
def acEval (leaf : AC → Bool) : AC → Bool
  | .union c d => acEval leaf c || acEval leaf d
  | .inter c d => acEval leaf c && acEval leaf d
  | .allExcept c => !acEval leaf c
  | .except c d => acEval leaf c && !acEval leaf d
  | .root c => acEval leaf c
  | .root2 c d => acEval leaf c || acEval leaf d
  | c => leaf c

/-- The leaves of `evalRangeCon` for INTEGER, FrontEndAst/Asn1Fold.fs:552-574. -/
def intLeafEval (v : Int) : AC → Bool
  | .range (.single w) => decide (w = v)
  | .range (.range v1 v2 i j) =>
    (if i then decide (v1 ≤ v) else decide (v1 < v)) && (if j then decide (v ≤ v2) else decide (v < v2))
  | .range (.valMax v1 i) => if i then decide (v1 ≤ v) else decide (v1 < v)
  | .range (.minVal v2 j) => if j then decide (v ≤ v2) else decide (v < v2)
  | _ => false

/-- The leaves of `evalRangeCon` for REAL, FrontEndAst/Asn1Fold.fs:552-574. -/
def realLeafEval (d : Dbl) : AC → Bool
  | .realRange (.single w) => dblEq w d
  | .realRange (.range v1 v2 i j) =>
    (if i then dblLe v1 d else dblLt v1 d) && (if j then dblLe d v2 else dblLt d v2)
  | .realRange (.valMax v1 i) => if i then dblLe v1 d else dblLt v1 d
  | .realRange (.minVal v2 j) => if j then dblLe d v2 else dblLt d v2
  | _ => false

/-- The leaf of `evalGenericCon` for BOOLEAN, FrontEndAst/Asn1Fold.fs:543. -/
def boolLeafEval (b : Bool) : AC → Bool
  | .boolean x => decide (x = b)
  | _ => false

/-- The leaf of `evalGenericCon` for ENUMERATED, FrontEndAst/Asn1Fold.fs:543, BackendAst/EncodeDecodeTestCase.fs:402-406. Simplification: items
are compared by number, not by name. -/
def itemLeafEval (v : Int) : AC → Bool
  | .item x => decide (x = v)
  | _ => false

/-- `isValidValueRanged` and `isValidValueGeneric`, FrontEndAst/Asn1Fold.fs:548-549 and 576-577. -/
def allEval (leaf : AC → Bool) (cons : List AC) : Bool := cons.all (acEval leaf)

/-! ## Candidates -/

/-- `r.args.IntMin` and `r.args.IntMax`, CommonTypes/CommonTypes.fs:1039-1061, for 8 bytes. -/
def IntClass.wordMin (cls : IntClass) : Int := if cls.positive then 0 else -(2 ^ 63)
def IntClass.wordMax (cls : IntClass) : Int := if cls.positive then 2 ^ 64 - 1 else 2 ^ 63 - 1

/-- `foldRangeCon` on the set operations, BackendAst/EncodeDecodeTestCase.fs:330-337. -/
def acCandidates {α : Type} (leaf : AC → List α) : AC → List α
  | .union c d => acCandidates leaf c ++ acCandidates leaf d
  | .inter c d => acCandidates leaf c ++ acCandidates leaf d
  | .allExcept _ => []
  | .except c _ => acCandidates leaf c
  | .root c => acCandidates leaf c
  | .root2 c d => acCandidates leaf c ++ acCandidates leaf d
  | c => leaf c

/-- `getNext` and `getPrev`, BackendAst/EncodeDecodeTestCase.fs:366-367. -/
def IntClass.next (cls : IntClass) (a : Int) : Int := if a < cls.wordMax then a + 1 else cls.wordMax
def IntClass.prev (cls : IntClass) (a : Int) : Int := if a > cls.wordMin then a - 1 else cls.wordMin

/-- The leaves of `foldRangeCon` for INTEGER, BackendAst/EncodeDecodeTestCase.fs:338-342. -/
def intLeafCandidates (cls : IntClass) : AC → List Int
  | .range (.single w) => [w]
  | .range (.range v1 v2 i j) => [if i then v1 else cls.next v1, if j then v2 else cls.prev v2]
  | .range (.valMax v1 i) => [if i then v1 else cls.next v1, cls.wordMax]
  | .range (.minVal v2 j) => [cls.wordMin, if j then v2 else cls.prev v2]
  | _ => []

/-- `Double.MinValue` and `Double.MaxValue`, BackendAst/EncodeDecodeTestCase.fs:377-386. Simplification: 8 byte numbers. -/
def dblMin : Dbl := 0xFFEFFFFFFFFFFFFF#64
def dblMax : Dbl := 0x7FEFFFFFFFFFFFFF#64

/-- The leaves of `foldRangeCon` for REAL, where `getNext` and `getPrev` change nothing: BackendAst/EncodeDecodeTestCase.fs:338-342 and 392. -/
def realLeafCandidates : AC → List Dbl
  | .realRange (.single w) => [w]
  | .realRange (.range v1 v2 _ _) => [v1, v2]
  | .realRange (.valMax v1 _) => [v1, dblMax]
  | .realRange (.minVal v2 _) => [dblMin, v2]
  | _ => []

/-- The value that an assignment `x = <literal>` leaves in an integer variable: reduced to the C type. -/
def storeInt (cls : IntClass) (v : Int) : Int := (v - cls.min) % (cls.max - cls.min + 1) + cls.min

/-- `createIntegerInitFunc`, BackendAst/DAstInitialize.fs:236-247, with `IntegerAutomaticTestCaseValues`,
BackendAst/EncodeDecodeTestCase.fs:361-373: 0 if allowed, else the first allowed candidate, else 0. -/
def initInt (cls : IntClass) (cons : List AC) : Int :=
  if allEval (intLeafEval 0) cons then storeInt cls 0
  else match (cons.flatMap (acCandidates (intLeafCandidates cls))).find? fun v => allEval (intLeafEval v) cons with
    | some x => storeInt cls x
    | none => storeInt cls 0

/-- `createRealInitFunc`, BackendAst/DAstInitialize.fs:285-293, with `RealAutomaticTestCaseValues`,
BackendAst/EncodeDecodeTestCase.fs:375-394. Simplification: the printed literal denotes the double that the compiler holds. -/
def initReal (cons : List AC) : Dbl :=
  if allEval (realLeafEval 0#64) cons then 0#64
  else match (cons.flatMap (acCandidates realLeafCandidates)).find? fun d => allEval (realLeafEval d) cons with
    | some x => x
    | none => 0#64

/-- `createBooleanInitFunc`, BackendAst/DAstInitialize.fs:602-606. -/
def initBool (cons : List AC) : Bool := !allEval (boolLeafEval false) cons

/-- `createEnumeratedInitFunc`, BackendAst/DAstInitialize.fs:699-710, with `EnumeratedAutomaticTestCaseValues2`,
BackendAst/EncodeDecodeTestCase.fs:402-406: the first allowed item; without one the compiler stops. -/
def initEnum (items : List Int) (cons : List AC) : Option Int := items.find? fun v => allEval (itemLeafEval v) cons

/-- `firstPrintableAsciiCode` and `sFirstNonNullChar`, BackendAst/DAstInitialize.fs:339-345. -/
def initChar (alphabet : List Byte) : Byte :=
  match alphabet.find? fun c => decide (32 ≤ c.toNat ∧ c.toNat ≤ 126) with
  | some c => c
  | none => 0#8

/-- `getValueFromSizeableConstraint`, BackendAst/DastFold.fs:68-79: all single values, those in exceptions included. -/
def acValues {α : Type} (leaf : AC → List α) : AC → List α
  | .union c d => acValues leaf c ++ acValues leaf d
  | .inter c d => acValues leaf c ++ acValues leaf d
  | .allExcept c => acValues leaf c
  | .except c d => acValues leaf c ++ acValues leaf d
  | .root c => acValues leaf c
  | .root2 c d => acValues leaf c ++ acValues leaf d
  | c => leaf c

/-- The single values of an OCTET STRING, BackendAst/DastFold.fs:76. -/
def octetsLeafValues : AC → List (List Byte)
  | .octetsVal w => [w]
  | _ => []

/-- The single values of a BIT STRING, BackendAst/DastFold.fs:76. -/
def bitsLeafValues : AC → List (List Bool)
  | .bitsVal w => [w]
  | _ => []

/-! ## Stores -/

/-- `memset(arr, c, n)`: undefined past the end. -/
def memSet {α : Type} (arr : List α) (c : α) (n : Nat) : M (List α) :=
  if n ≤ arr.length then pure (List.replicate n c ++ arr.drop n) else mUb

/-- `arr[0] = …; arr[1] = …; …`: undefined past the end. -/
def putAll {α : Type} (arr vals : List α) : M (List α) :=
  if vals.length ≤ arr.length then pure (vals ++ arr.drop vals.length) else mUb

/-- `strcpy(arr, literal)`: the characters up to the first zero of the literal, and a zero. -/
def strCpy (arr lit : List Byte) : M (List Byte) :=
  putAll arr (lit.takeWhile (· ≠ 0#8) ++ [0#8])

/-- `PrintBitOrOctetStringValueAsCompoundLiteral`, StgC/variables_c.stg:60-62: what is not listed is zero. Undefined: more
octets than the array has (the C compiler refuses them). -/
def literalArr (hi : Nat) (bytes : List Byte) : M (List Byte) :=
  if bytes.length ≤ hi then pure (bytes ++ List.replicate (hi - bytes.length) 0#8) else mUb

/-- `while (i < n) { item(i); i++; }`, `initTestCaseSizeSequenceOf`, StgC/init_c.stg:181-188: the first `n` elements. -/
def initElems (f : CVal → M CVal) : Nat → List CVal → M (List CVal)
  | 0, rest => pure rest
  | _ + 1, [] => mUb
  | n + 1, x :: xs => do
    let y ← f x
    let ys ← initElems f n xs
    pure (y :: ys)

/-! ## Declared values -/

/-- `convertStringValue2TargetLangStringLiteral`, BackendAst/DAstVariables.fs:37-51, with StgC/variables_c.stg:13-34, as the C
compiler reads it: a quotation mark is doubled, which in C ends the literal and begins another one. Simplification: a backslash
begins an escape sequence in C; such values are left undefined. -/
def cLiteralOf (v : List Byte) : M (List Byte) :=
  if 0x5C#8 ∈ v then mUb else pure (v.filter (· ≠ 0x22#8))

/-- The elements of a declared SEQUENCE OF value, BackendAst/DAstInitialize.fs:729-744. -/
def initElemsBy (f : AV → CVal → M CVal) : List AV → List CVal → M (List CVal)
  | [], rest => pure rest
  | _ :: _, [] => mUb
  | x :: xs, v :: vs => do
    let w ← f x v
    let ws ← initElemsBy f xs vs
    pure (w :: ws)

mutual
/-- `initByAsn1Value`: the statements that store a declared value into an object of the type. `sz`: the effective size that
constrained references impose. `junk`: what the memory of a union holds, read as an alternative that was not stored before.
INTEGER BackendAst/DAstInitialize.fs:228-234, REAL 269-275, strings 325-333, OCTET STRING 385-394, NULL 468-470, BIT STRING
485-494, BOOLEAN 586-592, OBJECT IDENTIFIER 615-621, ENUMERATED 691-697, SEQUENCE OF 728-747, SEQUENCE 876-897, CHOICE 1100-1124, references 1253-1286;
the statements: StgC/init_c.stg:23-31, 83-85, 115-123, 165-173, 193-200, 215-218. -/
def initByValue (junk : CTy → CVal) : CTy → Option (Nat × Nat) → AV → CVal → M CVal
  | .int cls _, _, .int v, .int _ => pure (.int (storeInt cls v))
  | .bool _, _, .bool b, .bool _ => pure (.bool b)
  | .null, _, .null, .null => pure .null
  | .enum _ _, _, .enum v, .enum _ => pure (.enum v)
  | .octets lo hi _, sz, .octets l, .octets n arr => do
    let arr' ← putAll arr l
    let (a, b) := sz.getD (lo, hi)
    pure (.octets (if a = b then n else l.length) arr')
  | .octets lo hi _, sz, .bits l, .octets n arr => do
    let arr' ← putAll arr (packBits l)
    let (a, b) := sz.getD (lo, hi)
    pure (.octets (if a = b then n else (packBits l).length) arr')
  | .bits lo hi _, sz, .bits l, .bits n arr => do
    let arr' ← putAll arr (packBits l)
    let (a, b) := sz.getD (lo, hi)
    pure (.bits (if a = b then n else (packBits l).length) arr')
  | .bits lo hi _, sz, .octets l, .bits n arr => do
    let arr' ← putAll arr l
    let (a, b) := sz.getD (lo, hi)
    pure (.bits (if a = b then n else l.length) arr')
  | .str _ _ _ _, _, .str l, .str arr => do
    let lit ← cLiteralOf l
    pure (.str (← strCpy arr lit))
  | .oid _ _, _, .oid l, .oid o => do
    let vs ← putAll o.values l
    pure (.oid ⟨l.length, vs⟩)
  | .real _, _, .real d, .real _ => pure (.real d)
  | .seq fs _, _, .seq l, .seq m => do pure (.seq (← initFieldsByValue junk fs l m))
  | .seqOf lo hi t _, sz, .seqOf l, .seqOf n arr => do
    let arr' ← initElemsBy (initByValue junk t none) l arr
    let (a, b) := sz.getD (lo, hi)
    pure (.seqOf (if a = b then n else l.length) arr')
  | .choice alts _, _, .choice i x, .choice _ _ => do pure (.choice (i + 1) (← initAltByValue junk alts i x))
  | .ref t sz' _, sz, a, v => initByValue junk t (sz <|> sz') a v
  | _, _, _, _ => mUb
/-- The components, BackendAst/DAstInitialize.fs:877-896, `initSequence_optionalChild`, StgC/init_c.stg:193-196. -/
def initFieldsByValue (junk : CTy → CVal) : CFields → List (Option AV) → List (Bool × CVal) → M (List (Bool × CVal))
  | .nil, [], [] => pure []
  | .cons o t rest, some x :: xs, (e, v) :: vs => do
    let w ← initByValue junk t none x v
    let ws ← initFieldsByValue junk rest xs vs
    pure ((if o.hasBit then true else e, w) :: ws)
  | .cons o _ rest, none :: xs, (e, v) :: vs => do
    let ws ← initFieldsByValue junk rest xs vs
    pure ((if o.hasBit then false else e, v) :: ws)
  | _, _, _ => mUb
/-- The alternative, BackendAst/DAstInitialize.fs:1103-1121. -/
def initAltByValue (junk : CTy → CVal) : CAlts → Nat → AV → M CVal
  | .nil, _, _ => mUb
  | .cons t _, 0, x => initByValue junk t none x (junk t)
  | .cons _ rest, i + 1, x => initAltByValue junk rest i x
end

/-! ## Initialize -/

mutual
/-- `initTas`: the statements that initialise an object of the type. `acc`: the constraints of references to the type, `sz`
the effective size that they impose; whether there is a count depends on the type that is referred to (`getBaseType`,
BackendAst/DAstInitialize.fs:434-440, 537-543, 840-846; FrontEndAst/Asn1AcnAstUtilFunctions.fs:676-685). Simplification: the alphabet is that of the type referred to.
INTEGER BackendAst/DAstInitialize.fs:236-247, REAL 285-293, strings 339-375, OCTET STRING 401-447, NULL 473-478, BIT STRING 496-548, BOOLEAN
602-606, OBJECT IDENTIFIER 630-632, ENUMERATED 699-710, SEQUENCE OF 826-849, SEQUENCE 978-1062, CHOICE 1179-1228, references 1253-1286;
the statements: StgC/init_c.stg:23-31, 83-91, 113, 125-155, 181-188, 205-218. -/
def initT (junk : CTy → CVal) : CTy → List AC → Option (Nat × Nat) → CVal → M CVal
  | .int cls cons, acc, _, .int _ => pure (.int (initInt cls (cons ++ acc)))
  | .bool cons, acc, _, .bool _ => pure (.bool (initBool (cons ++ acc)))
  | .null, _, _, .null => pure .null
  | .enum items cons, acc, _, .enum _ => match initEnum items (cons ++ acc) with
    | some v => pure (.enum v)
    | none => mUb
  | .octets lo hi cons, acc, sz, .octets n arr =>
    let (a, b) := sz.getD (lo, hi)
    match (cons ++ acc).flatMap (acValues octetsLeafValues) with
    | [] => do
      let arr' ← memSet arr 0#8 b
      pure (.octets (if lo = hi then n else a) arr')
    | w :: _ => do
      let arr' ← literalArr hi w
      pure (.octets (if a = b then 0 else w.length) arr')
  | .bits lo hi cons, acc, sz, .bits n arr =>
    let (a, b) := sz.getD (lo, hi)
    match (cons ++ acc).flatMap (acValues bitsLeafValues) with
    | [] => do
      let arr' ← memSet arr 0#8 ((b + 7) / 8)
      pure (.bits (if lo = hi then n else a) arr')
    | w :: _ => do
      let arr' ← literalArr ((hi + 7) / 8) (packBits w)
      pure (.bits (if a = b then 0 else a) arr')
  | .str lo hi alphabet _, _, sz, .str arr => do
    let (_, b) := sz.getD (lo, hi)
    let arr' ← memSet arr (initChar alphabet) b
    if b < arr'.length then pure (.str (arr'.set b 0#8)) else mUb
  | .oid _ _, _, _, .oid o => pure (.oid ⟨0, o.values⟩)
  | .real cons, acc, _, .real _ => pure (.real (initReal (cons ++ acc)))
  | .seq fs _, _, _, .seq m => do pure (.seq (← initFields junk fs m))
  | .seqOf lo hi t _, _, sz, .seqOf n arr => do
    let (a, b) := sz.getD (lo, hi)
    let arr' ← initElems (initT junk t [] none) b arr
    pure (.seqOf (if lo = hi then n else a) arr')
  | .choice alts _, _, _, .choice k u => initFirst junk alts k u
  | .ref t sz' refCons, acc, sz, v => initT junk t (refCons ++ acc) (sz <|> sz') v
  | _, _, _, _ => mUb
/-- The components, BackendAst/DAstInitialize.fs:980-1018, `initTestCase_sequence_child` and `initTestCase_sequence_child_opt`,
StgC/init_c.stg:205-212. -/
def initFields (junk : CTy → CVal) : CFields → List (Bool × CVal) → M (List (Bool × CVal))
  | .nil, [] => pure []
  | .cons o t rest, (e, v) :: vs => do
    let x ← match o with
      | .mandatory => do pure (e, ← initT junk t [] none v)
      | .optional => do pure (true, ← initT junk t [] none v)
      | .default d => do pure (true, ← initByValue junk t none d v)
      | .absent => pure (false, v)
      | .present => do pure (true, ← initT junk t [] none v)
    let ws ← initFields junk rest vs
    pure (x :: ws)
  | _, _ => mUb
/-- The first alternative; without one nothing is stored: BackendAst/DAstInitialize.fs:1179-1228, `initChoice`, StgC/init_c.stg:215-218. -/
def initFirst (junk : CTy → CVal) : CAlts → Int → CVal → M CVal
  | .nil, k, u => pure (.choice k u)
  | .cons t _, _, _ => do pure (.choice 1 (← initT junk t [] none (junk t)))
end

/-- `void <type>_Initialize(<type>* pVal)`: `initTypeAssignment`, StgC/init_c.stg:11-20, BackendAst/DAstInitialize.fs:172-219. -/
def initializeC (junk : CTy → CVal) (t : CTy) (v : CVal) : M CVal := initT junk t [] none v

end Asn1
