import Verif.Model.Init
import Verif.Model.Object
import Verif.Model.Equal
import Verif.Model.Sizes
/-!
# The automatic test cases

BackendAst/DAstInitialize.fs, BackendAst/EncodeDecodeTestCase.fs, BackendAst/DastTestCaseCreation.fs, StgC/init_c.stg,
StgC/test_cases_c.stg. With `-atc` the compiler prints a test program: for every type a list of test cases, each of which stores a value into
a `static` object and calls the function `<type>_enc_dec` with it. All of this is the C backend and uPER.

Not modelled: constraints that WITH COMPONENT and WITH COMPONENTS impose on the parts of a type, time types, `-slim`, the files, the report.
-/
namespace Asn1

/-- The statements of a test case: they store into an object. -/
abbrev Store := CVal → M CVal

/-- The same for a component with its `exist` bit. -/
abbrev FieldStore := Bool × CVal → M (Bool × CVal)

/-- `Seq.distinct`: the first occurrences. -/
def seqDistinct {α : Type} [DecidableEq α] : List α → List α
  | [] => []
  | x :: xs => x :: (seqDistinct xs).filter (· ≠ x)

/-- `IntegerAutomaticTestCaseValues`, BackendAst/EncodeDecodeTestCase.fs:361-373 (`getIntSimplifiedConstraints` changes nothing,
BackendAst/DastValidate2.fs:556-557). -/
def testInts (cls : IntClass) : List AC → List Int
  | [] => seqDistinct [cls.wordMin, 0, cls.wordMax]
  | cons => (seqDistinct (cons.flatMap (acCandidates (intLeafCandidates cls)))).filter fun v => allEval (intLeafEval v) cons

/-- `RealAutomaticTestCaseValues`, BackendAst/EncodeDecodeTestCase.fs:375-394. Simplifications: 8 byte numbers and uPER; `distinct` on
the bits of the numbers. -/
def testReals : List AC → List Dbl
  | [] => [dblMin, 0#64, dblMax]
  | cons => (seqDistinct (cons.flatMap (acCandidates realLeafCandidates))).filter fun d => allEval (realLeafEval d) cons

/-- `BooleanAutomaticTestCaseValues`, BackendAst/EncodeDecodeTestCase.fs:408-412. -/
def testBools (cons : List AC) : List Bool := [true, false].filter fun b => allEval (boolLeafEval b) cons

/-- `EnumeratedAutomaticTestCaseValues2`, BackendAst/EncodeDecodeTestCase.fs:402-406. -/
def testItems (items : List Int) (cons : List AC) : List Int := items.filter fun v => allEval (itemLeafEval v) cons

/-- The leaf of `foldGenericCon` for OBJECT IDENTIFIER, BackendAst/EncodeDecodeTestCase.fs:315-325. -/
def oidLeafValues : AC → List (List U64)
  | .oidVal w => [w]
  | _ => []

/-- `ObjectIdentifierAutomaticTestCaseValues`, BackendAst/EncodeDecodeTestCase.fs:415-419: the values are not checked against the
constraints. `objectIdentifierMaxLength` is 20. -/
def testOids (cons : List AC) : List (List U64) :=
  match cons.flatMap (acCandidates oidLeafValues) with
  | [] => [[0#64, 1#64], (List.range 20).map fun i => BitVec.ofNat 64 i]
  | sv => sv

/-- `fragmentationCases`, BackendAst/DAstInitialize.fs:308-318. -/
def fragSizes (max : Nat) : List Nat :=
  [65536, min 65685 max, 49153, 49302, 32769, 32918, 16385, 16534]

/-- The sizes of the test cases of strings, OCTET STRING and BIT STRING: BackendAst/DAstInitialize.fs:355-364, 419-429, 519-529. -/
def testSizes (a b : Nat) : List Nat :=
  if a = b then [a] else a :: b :: if 65536 < b then fragSizes b else []

/-- `i = 0; while (i < n) { arr[i] = f(i); i = i + 1; }`: undefined past the end. -/
def putFirst {α : Type} (arr : List α) (n : Nat) (f : Nat → α) : M (List α) :=
  if n ≤ arr.length then pure ((List.range n).map f ++ arr.drop n) else mUb

/-- The character number `i` of a test case, `initTestCaseIA5String`, StgC/init_c.stg:87-111: undefined without an alphabet (a
remainder modulo 0). -/
def testChar (alphabet : List Byte) (i : Nat) : Byte :=
  if alphabet.length < 128 then alphabet.getD (i % alphabet.length) 0#8 else BitVec.ofNat 8 (65 + i % 26)

/-- `initTestCaseIA5String`, StgC/init_c.stg:87-111, BackendAst/DAstInitialize.fs:346-354. -/
def strCase (alphabet : List Byte) (b n : Nat) : Store
  | .str arr => do
    let arr' ← memSet arr 0#8 (b + 1)
    if alphabet = [] ∧ 0 < n then mUb
    pure (.str (← putFirst arr' n (testChar alphabet)))
  | _ => mUb

/-- `initTestCaseOctetString`, StgC/init_c.stg:125-139, BackendAst/DAstInitialize.fs:409-418. `fixed`: the effective size is fixed. -/
def octetsCase (fixed : Bool) (n : Nat) : Store
  | .octets c arr => do
    let arr' ← putFirst arr n fun i => BitVec.ofNat 8 i
    pure (.octets (if fixed then c else n) arr')
  | _ => mUb

/-- A single value of an OCTET STRING, BackendAst/DAstInitialize.fs:450-457. -/
def octetsLit (hi a b : Nat) (w : List Byte) : Store
  | .octets _ _ => do
    let arr' ← literalArr hi w
    pure (.octets (if a = b then 0 else w.length) arr')
  | _ => mUb

/-- `initTestCaseBitString`, StgC/init_c.stg:141-155, BackendAst/DAstInitialize.fs:509-518. -/
def bitsCase (fixed : Bool) (n : Nat) : Store
  | .bits c arr => do
    let arr' ← putFirst arr ((n + 7) / 8) fun _ => 0x55#8
    pure (.bits (if fixed then c else n) arr')
  | _ => mUb

/-- A single value of a BIT STRING, BackendAst/DAstInitialize.fs:553-561. -/
def bitsLit (hi a b : Nat) (w : List Bool) : Store
  | .bits _ _ => do
    let arr' ← literalArr ((hi + 7) / 8) (packBits w)
    pure (.bits (if a = b then 0 else a) arr')
  | _ => mUb

/-- The assignment of an object identifier, BackendAst/DAstInitialize.fs:622-628, StgC/init_c.stg:27-31. -/
def oidCase (w : List U64) : Store
  | .oid o => do
    let vs ← putAll o.values w
    pure (.oid ⟨w.length, vs⟩)
  | _ => mUb

/-- Case number `i`, counted from the beginning again when there are no more; without cases nothing is stored. -/
def caseAt {α : Type} (cases : List (α → M α)) (i : Nat) (x : α) : M α :=
  match cases[i % cases.length]? with
  | some f => f x
  | none => pure x

/-- `seqOfCase_aux`, BackendAst/DAstInitialize.fs:793-809: the cases cut into pieces of `n`, the last piece may be shorter. -/
def bundles {α : Type} (n : Nat) (cases : List α) : List (List α) :=
  ((List.range (cases.length / n)).map fun i => (cases.drop (i * n)).take n) ++
    if 0 < cases.length % n then [(cases.drop (cases.length / n * n)).take (cases.length % n)] else []

/-- `while (i < n) { … }`, `initTestCaseSizeSequenceOf` and `initTestCaseSizeSequenceOf_innerItem`, StgC/init_c.stg:176-188: element `i` is
given by case `i % length`. -/
def elemsCase (cases : List Store) : Nat → Nat → List CVal → M (List CVal)
  | _, 0, rest => pure rest
  | _, _ + 1, [] => mUb
  | i, n + 1, x :: xs => do
    let y ← caseAt cases i x
    let ys ← elemsCase cases (i + 1) n xs
    pure (y :: ys)

/-- `seqOfCase`, BackendAst/DAstInitialize.fs:752-790. -/
def seqOfCase (fixed : Bool) (n : Nat) (cases : List Store) : Store
  | .seqOf c arr => do
    let arr' ← elemsCase cases 0 n arr
    pure (.seqOf (if fixed then c else n) arr')
  | _ => mUb

/-- NULL itself, not a reference to it. -/
def CTy.isNull : CTy → Bool
  | .null => true
  | _ => false

/-- `handleChild` and the filters before it, BackendAst/DAstInitialize.fs:901-940, StgC/init_c.stg:205-212: from the cases of the type of a
component, those of the component. -/
def fieldCases (o : COpt) (isNull : Bool) (cases : List Store) : List FieldStore :=
  match o with
  | .absent => []
  | .present => cases.map fun f p => do pure (true, ← f p.2)
  | .mandatory => if isNull then [] else cases.map fun f p => do pure (p.1, ← f p.2)
  | _ => if isNull then [] else cases.flatMap fun f =>
    [fun p => do pure (true, ← f p.2), fun p => pure (false, p.2)]

/-- The statements of case number `i` of a SEQUENCE, BackendAst/DAstInitialize.fs:953-972. -/
def seqCase (i : Nat) : List (List FieldStore) → List (Bool × CVal) → M (List (Bool × CVal))
  | [], [] => pure []
  | l :: ls, x :: xs => do
    let y ← caseAt l i x
    let ys ← seqCase i ls xs
    pure (y :: ys)
  | _, _ => mUb

/-- The number of cases of a SEQUENCE, BackendAst/DAstInitialize.fs:942-951: the largest number of a component. -/
def maxLen {α : Type} : List (List α) → Nat
  | [] => 0
  | l :: ls => max l.length (maxLen ls)

mutual
/-- `automaticTestCases`. `acc`: the constraints of references to the type, `sz` the effective size that they impose. `junk`: what
the memory of a union holds, read as an alternative. INTEGER BackendAst/DAstInitialize.fs:236-265, REAL 277-284, strings 346-364, OCTET STRING
401-457, NULL 472-477, BIT STRING 498-561, BOOLEAN 594-600, OBJECT IDENTIFIER 622-628, ENUMERATED 699-708, SEQUENCE OF 751-823, SEQUENCE 899-975,
CHOICE 1127-1176, references 1230-1287. Simplifications: the alphabet is that of the type referred to; there are no alternatives that a
constraint excludes. -/
def testCases (junk : CTy → CVal) : CTy → List AC → Option (Nat × Nat) → List Store
  | .int cls cons, acc, _ => (testInts cls (cons ++ acc)).map fun x v => match v with
    | .int _ => pure (.int (storeInt cls x))
    | _ => mUb
  | .bool cons, acc, _ => (testBools (cons ++ acc)).map fun x v => match v with
    | .bool _ => pure (.bool x)
    | _ => mUb
  | .null, _, _ => [fun v => match v with
    | .null => pure .null
    | _ => mUb]
  | .enum items cons, acc, _ => (testItems items (cons ++ acc)).map fun x v => match v with
    | .enum _ => pure (.enum x)
    | _ => mUb
  | .octets lo hi cons, acc, sz =>
    let (a, b) := sz.getD (lo, hi)
    match (cons ++ acc).flatMap (acValues octetsLeafValues) with
    | [] => (testSizes a b).map (octetsCase (decide (a = b)))
    | ws => ws.map (octetsLit hi a b)
  | .bits lo hi cons, acc, sz =>
    let (a, b) := sz.getD (lo, hi)
    match (cons ++ acc).flatMap (acValues bitsLeafValues) with
    | [] => (testSizes a b).map (bitsCase (decide (a = b)))
    | ws => ws.map (bitsLit hi a b)
  | .str lo hi alphabet _, _, sz =>
    let (a, b) := sz.getD (lo, hi)
    (testSizes a b).map (strCase alphabet b)
  | .oid _ cons, acc, _ => (testOids (cons ++ acc)).map oidCase
  | .real cons, acc, _ => (testReals (cons ++ acc)).map fun x v => match v with
    | .real _ => pure (.real x)
    | _ => mUb
  | .seq fs _, _, _ =>
    let ls := fieldsCases junk fs
    (List.range (maxLen ls)).map fun i v => match v with
      | .seq m => do pure (.seq (← seqCase i ls m))
      | _ => mUb
  | .seqOf lo hi t _, _, sz =>
    let (a, b) := sz.getD (lo, hi)
    let cases := testCases junk t [] none
    (if a = b then [a] else b :: a :: if 65536 < b then fragSizes b else []).flatMap fun n =>
      if 0 < n then (bundles n cases).map (seqOfCase (decide (a = b)) n) else []
  | .choice alts _, _, _ => altsCases junk alts 0
  | .ref t sz' refCons, acc, sz => testCases junk t (refCons ++ acc) (sz <|> sz')
/-- The components, BackendAst/DAstInitialize.fs:901-951. -/
def fieldsCases (junk : CTy → CVal) : CFields → List (List FieldStore)
  | .nil => []
  | .cons o t rest => fieldCases o t.isNull (testCases junk t [] none) :: fieldsCases junk rest
/-- The alternatives, from number `i` on: BackendAst/DAstInitialize.fs:1128-1175, StgC/init_c.stg:221-225. -/
def altsCases (junk : CTy → CVal) : CAlts → Nat → List Store
  | .nil, _ => []
  | .cons t rest, i => ((testCases junk t [] none).map fun f v => match v with
      | .choice _ _ => do pure (.choice ((i : Int) + 1) (← f (junk t)))
      | _ => mUb) ++ altsCases junk rest (i + 1)
end

/-- `BitStream_AttachBuffer(&bitStrm, encBuff, count)` with the buffer that the stream already has,
asn1crt/asn1crt_encoding.c:80-88. -/
def attachSame (count : Nat) : M Unit := fun s => .ok ((), { s with count := count, currentByte := 0, currentBit := 0 })

/-- `<type>_enc_dec` after `BitStream_Init`: `PrintCodec_body`, `Codec_Encode`, `Codec_Decode`, `Codec_validate_output`,
`Codec_compare_input_with_output`, `JoinItems`, StgC/test_cases_c.stg:72-101, 119-127, 142-154; BackendAst/EncodeDecodeTestCase.fs:47-305. The result
and `*pErrCode`. `store` gives the object `decodedPDU` that the decoder leaves for the value that it has read. Not modelled: the
file that is written. -/
def encDec (t : CTy) (v : CVal) (store : Val → CVal) : M (Bool × Nat) := do
  let (ret, err) ← encodeObject t v true
  if !ret then pure (ret, if ret && err.isNone then 0 else 1) else
    attachSame (requiredBytes (uperTy t))
    let (ret, x) ← decodeType (uperTy t)
    if !ret then pure (ret, 2) else
      let (ret, err) ← isConstraintValid t (store x) none
      if !ret then pure (ret, if ret && err.isNone then 0 else 3) else
        let ret ← cEqual t v (store x)
        pure (ret, if ret then 0 else 4)

end Asn1
