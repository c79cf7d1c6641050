import Verif.Model.CVal
/-!
# The generated functions `<type>_IsConstraintValid`: BackendAst/DastValidate2.fs, StgC/isvalid_c.stg

The compiler turns every constraint into a `ValidationCodeBlock`: a constant, a C expression, or C statements that
leave their result in the variable `ret`. Statements may read `ret` as well: loops run while it is true, and the test
of an absent component leaves it as it is.
-/
namespace Asn1

/-- `ValidationCodeBlock`, FrontEndAst/DAst.fs and BackendAst/DastValidate2.fs:48-52, as a function of the object it
tests: an expression has a truth value, statements map the old `ret` to the new one. -/
inductive VC where
  | tt
  | ff
  | expr (e : CVal → M Bool)
  | stat (f : CVal → Bool → M Bool)

/-- What is generated for a type that the compiler rejects (`SemanticError`): nothing. The model calls it undefined. -/
def VC.error : VC := .stat fun _ _ => mUb

/-- `ValidationCodeBlock_OR`, BackendAst/DastValidate2.fs:55-68; `ExpOr`, StgC/isvalid_c.stg:116, and lines 130-150. -/
def VC.or : VC → VC → VC
  | .tt, _ => .tt
  | _, .tt => .tt
  | .ff, b => b
  | a, .ff => a
  | .expr e1, .expr e2 => .expr fun v => do if ← e1 v then pure true else e2 v
  | .expr e1, .stat f2 => .stat fun v _ => do if ← e1 v then pure true else f2 v false
  | .stat f1, .expr e2 => .stat fun v r => do if ← f1 v r then pure true else e2 v
  | .stat f1, .stat f2 => .stat fun v r => do if ← f1 v r then pure true else f2 v false

/-- `ValidationCodeBlock_AND`, BackendAst/DastValidate2.fs:70-82; `ExpAnd`, StgC/isvalid_c.stg:117, and lines 152-171. -/
def VC.and : VC → VC → VC
  | .tt, b => b
  | a, .tt => a
  | .ff, _ => .ff
  | _, .ff => .ff
  | .expr e1, .expr e2 => .expr fun v => do if ← e1 v then e2 v else pure false
  | .expr e1, .stat f2 => .stat fun v _ => do if ← e1 v then f2 v true else pure false
  | .stat f1, .expr e2 => .stat fun v r => do if ← f1 v r then e2 v else pure false
  | .stat f1, .stat f2 => .stat fun v r => do if ← f1 v r then f2 v true else pure false

/-- `ValidationCodeBlock_Not`, BackendAst/DastValidate2.fs:105-113; StgC/isvalid_c.stg:121 and 173-176. -/
def VC.not : VC → VC
  | .tt => .ff
  | .ff => .tt
  | .expr e => .expr fun v => do pure !(← e v)
  | .stat f => .stat fun v r => do pure !(← f v r)

/-- `ValidationCodeBlock_Except`, BackendAst/DastValidate2.fs:128-144; StgC/isvalid_c.stg:178-199. -/
def VC.except : VC → VC → VC
  | _, .tt => .ff
  | .tt, b => b.not
  | .ff, _ => .ff
  | a, .ff => a
  | .expr e1, .expr e2 => .expr fun v => do if ← e1 v then pure !(← e2 v) else pure false
  | .expr e1, .stat f2 => .stat fun v _ => do if ← e1 v then pure !(← f2 v true) else pure false
  | .stat f1, .expr e2 => .stat fun v r => do if ← f1 v r then pure !(← e2 v) else pure false
  | .stat f1, .stat f2 => .stat fun v r => do if ← f1 v r then pure !(← f2 v true) else pure false

/-- The statements for a block: `makeExpressionToStatement0`, StgC/isvalid_c.stg:43-45. -/
def VC.run : VC → CVal → Bool → M Bool
  | .tt, _, r => pure r
  | .ff, _, _ => pure false
  | .expr e, v, _ => e v
  | .stat f, v, r => f v r

/-- `nestItems_ret`, FrontEndAst/DAstUtilFunctions.fs:1021-1034, with `JoinTwoIfFirstOk`, StgC/isvalid_c.stg:15-20:
`s1; if (ret) { s2; if (ret) { … } }`. -/
def nestRun : List VC → CVal → Bool → M Bool
  | [], _, r => pure r
  | x :: xs, v, r => do if ← x.run v r then nestRun xs v true else pure false

/-- `VCBFalse` occurs in the list. -/
def VC.isFf : VC → Bool
  | .ff => true
  | _ => false

/-- Expressions and statements are kept, `VCBTrue` is dropped. -/
def VC.isCode : VC → Bool
  | .expr _ => true
  | .stat _ => true
  | _ => false

/-- `ValidationCodeBlock_Multiple_And`, BackendAst/DastValidate2.fs:84-103. -/
def multiAnd (l : List VC) : VC :=
  if l.any VC.isFf then .ff
  else match l.filter VC.isCode with
    | [] => .tt
    | x :: xs => .stat (nestRun (x :: xs))

/-! ## Leaves -/

/-- A test of a number that is read from the object. -/
def Vcb.lift (get : CVal → M Int) : Vcb → VC
  | .tt => .tt
  | .ff => .ff
  | .expr e => .expr fun v => do pure (e (← get v))

/-- The integer in the object. -/
def getInt : CVal → M Int
  | .int v => pure v
  | _ => mUb

/-- `getSizeFunc`: `nCount` (BackendAst/DastValidate2.fs:351, 364, 527; `Length` of StgC/LangGeneric_c.fs) or
`strlen` (line 237). -/
def getSize : CVal → M Int
  | .octets n _ => pure n
  | .bits n _ => pure n
  | .seqOf n _ => pure n
  | .str a => do pure ((← cStrlen a : Nat) : Int)
  | _ => mUb

/-- The C type of a size: `UInt32.MinValue` and `UInt32.MaxValue`, and literals that are printed as they are
(BackendAst/DastValidate2.fs:183-194). -/
def sizeClass : IntClass := ⟨false, 0, 2 ^ 32 - 1⟩

/-- `foldSizeRangeTypeConstraint`, BackendAst/DastValidate2.fs:183-196. -/
def sizeVC (c : Con RLeaf) : VC := (conVcb sizeClass c).lift getSize

/-- The number of a C character: `char` is signed. -/
def charVal (c : Byte) : Int := c.toInt

/-- The expression for one character: `foldRangeCharCon`, BackendAst/DastValidate2.fs:227-236;
`strchr`, StgC/isvalid_c.stg:232. `strchr` also finds the terminating zero, but zero is not tested. -/
def alphaLeafTest : AlphaLeaf → Byte → Bool
  | .chars v, c => v.any fun ch => decide (BitVec.ofNat 8 ch = c)
  | .range v1 v2 i j, c =>
    (if i then decide ((v1 : Int) ≤ charVal c) else decide ((v1 : Int) < charVal c)) &&
    (if j then decide (charVal c ≤ v2) else decide (charVal c < v2))
  | .valMax v1 i, c => if i then decide ((v1 : Int) ≤ charVal c) else decide ((v1 : Int) < charVal c)
  | .minVal v2 j, c => if j then decide (charVal c ≤ v2) else decide (charVal c < v2)

/-- The operators of the constraint become `||`, `&&` and `!`. -/
def alphaTest : Con AlphaLeaf → Byte → Bool
  | .union c d, ch => alphaTest c ch || alphaTest d ch
  | .inter c d, ch => alphaTest c ch && alphaTest d ch
  | .allExcept c, ch => !alphaTest c ch
  | .except c d, ch => alphaTest c ch && !alphaTest d ch
  | .root c, ch => alphaTest c ch
  | .root2 c d, ch => alphaTest c ch || alphaTest d ch
  | .leaf l, ch => alphaLeafTest l ch

/-- The loop of `Print_AlphabetCheckFunc`, StgC/isvalid_c.stg:210-222. -/
def charsAreValid (p : Byte → Bool) : List Byte → M Bool
  | [] => mUb
  | c :: rest => if c = 0#8 then pure true else if p c then charsAreValid p rest else pure false

/-- `bitStringValueToByteArray`, CommonTypes/FsUtils.fs:587-610: eight bits to an octet, the first bit is the most
significant one, the last octet is filled with zeros. -/
def packBits : List Bool → List Byte
  | [] => []
  | b0 :: b1 :: b2 :: b3 :: b4 :: b5 :: b6 :: b7 :: rest =>
    BitVec.ofNat 8 (128 * b0.toNat + 64 * b1.toNat + 32 * b2.toNat + 16 * b3.toNat + 8 * b4.toNat + 4 * b5.toNat
      + 2 * b6.toNat + b7.toNat) :: packBits rest
  | l => [BitVec.ofNat 8 (128 * (l.getD 0 false).toNat + 64 * (l.getD 1 false).toNat + 32 * (l.getD 2 false).toNat
      + 16 * (l.getD 3 false).toNat + 8 * (l.getD 4 false).toNat + 4 * (l.getD 5 false).toNat
      + 2 * (l.getD 6 false).toNat + (l.getD 7 false).toNat)]

/-- `octet_var_string_equal` and `octet_fix_string_equal`, StgC/isvalid_c.stg:358-364 with BackendAst/DastValidate2.fs:352-359. -/
def octetsValTest (lo hi : Nat) (w : List Byte) : CVal → M Bool
  | .octets n arr =>
    if lo = hi then octetStringEqual lo w.length arr w
    else if 0 ≤ n then octetStringEqual n.toNat w.length arr w else pure false
  | _ => mUb

/-- `bit_var_string_equal` and `bit_fix_string_equal`, StgC/isvalid_c.stg:366-372 with BackendAst/DastValidate2.fs:365-374. -/
def bitsValTest (lo hi : Nat) (w : List Bool) : CVal → M Bool
  | .bits n arr =>
    if lo = hi then bitStringEqual lo w.length arr (packBits w)
    else if 0 ≤ n then bitStringEqual n.toNat w.length arr (packBits w) else pure false
  | _ => mUb

/-- `ObjectIdentifier_equal` with a compound literal, whose other array elements are zero: BackendAst/DastValidate2.fs:303-315; StgC/isvalid_c.stg:375-377. -/
def oidValTest (w : List U64) : CVal → M Bool
  | .oid o => oidEqual o ⟨w.length, w ++ List.replicate (oidMaxLength - w.length) 0#64⟩
  | _ => mUb

/-- `strcmp` with a literal, StgC/isvalid_c.stg:111, BackendAst/DastValidate2.fs:236. -/
def strValTest (w : List Byte) : CVal → M Bool
  | .str arr => cStrEq arr (w ++ [0#8])
  | _ => mUb

/-- The call of the function that checks the alphabet, BackendAst/DastValidate2.fs:239-254. -/
def alphabetTest (c : Con AlphaLeaf) : CVal → M Bool
  | .str arr => charsAreValid (alphaTest c) arr
  | _ => mUb

/-- BackendAst/DastValidate2.fs:299-300 and `foldGenericCon`, 176-180. -/
def boolTest (b : Bool) : CVal → M Bool
  | .bool x => pure (decide (x = b))
  | _ => mUb

/-- BackendAst/DastValidate2.fs:343-348. -/
def itemTest (i : Int) : CVal → M Bool
  | .enum x => pure (decide (x = i))
  | _ => mUb

/-- `realConstraint2ValidationCodeBlock`, BackendAst/DastValidate2.fs:272-296. Simplification: the printed literal
denotes the double that the front end holds. -/
def realLeafTest : RealLeaf → CVal → M Bool
  | .single w, .real d => pure (dblEq d w)
  | .range v1 v2 i j, .real d =>
    pure ((if i then dblLe v1 d else dblLt v1 d) && (if j then dblLe d v2 else dblLt d v2))
  | .valMax v1 i, .real d => pure (if i then dblLe v1 d else dblLt v1 d)
  | .minVal v2 j, .real d => pure (if j then dblLe d v2 else dblLt d v2)
  | _, _ => mUb

/-! ## Components, alternatives, elements -/

/-- The bit `exist.<component>`. -/
def getExist (i : Nat) : CVal → M Bool
  | .seq fs => do pure (← tblGet fs i).1
  | _ => mUb

/-- The component itself. -/
def getComp (i : Nat) : CVal → M CVal
  | .seq fs => do pure (← tblGet fs i).2
  | _ => mUb

/-- `kind`. -/
def getKind : CVal → M Int
  | .choice k _ => pure k
  | _ => mUb

/-- The member of the union. -/
def getAlt : CVal → M CVal
  | .choice _ u => pure u
  | _ => mUb

/-- The block of a component, applied to the component of the object: BackendAst/DastValidate2.fs:413-419. -/
def VC.at (get : CVal → M CVal) : VC → VC
  | .tt => .tt
  | .ff => .ff
  | .expr e => .expr fun v => do e (← get v)
  | .stat f => .stat fun v r => do f (← get v) r

/-- `newChildCheckFnc`, BackendAst/DastValidate2.fs:424-432 and 486-493: `if (<condition>) { … }`. -/
def VC.when (cond : CVal → M Bool) : VC → VC
  | .tt => .tt
  | .ff => .stat fun v r => do if ← cond v then pure false else pure r
  | .expr e => .stat fun v r => do if ← cond v then e v else pure r
  | .stat f => .stat fun v r => do if ← cond v then f v r else pure r

/-- `presentAbsent` of a component of a SEQUENCE, BackendAst/DastValidate2.fs:444-454. -/
def seqMark (i : Nat) : Mark → List VC
  | .noMark | .optional => []
  | .absent => [.expr fun v => do pure !(← getExist i v)]
  | .present => [.expr fun v => getExist i v]

/-- `presentAbsent` of an alternative of a CHOICE, BackendAst/DastValidate2.fs:496-504. -/
def choiceMark (i : Nat) : Mark → List VC
  | .noMark | .optional => []
  | .absent => [.expr fun v => do pure (decide ((← getKind v) ≠ (i : Int) + 1))]
  | .present => [.expr fun v => do pure (decide ((← getKind v) = (i : Int) + 1))]

/-- `for(i = 0; ret && i < n; i++) { … }`, StgC/isvalid_c.stg:201-206: `n` rounds left from index `i`. -/
def validLoop (body : CVal → Bool → M Bool) (arr : List CVal) : (n i : Nat) → (ret : Bool) → M Bool
  | 0, _, r => pure r
  | n + 1, i, r =>
    if r then do
      let x ← tblGet arr i
      let r' ← body x true
      validLoop body arr n (i + 1) r'
    else pure false

/-- The loop over the elements; the number of elements is `nCount` or the fixed size. -/
def forElements (lo hi : Nat) (body : CVal → Bool → M Bool) (v : CVal) (r : Bool) : M Bool :=
  match v with
  | .seqOf n arr => validLoop body arr (if lo = hi then lo else n.toNat) 0 r
  | _ => mUb

/-- WITH COMPONENT, BackendAst/DastValidate2.fs:536-549. -/
def VC.loop (lo hi : Nat) : VC → VC
  | .tt => .tt
  | .ff => .stat (forElements lo hi fun _ _ => pure false)
  | .expr e => .stat (forElements lo hi fun x _ => e x)
  | .stat f => .stat (forElements lo hi f)

/-- A component of a SEQUENCE that has an `exist` bit. -/
def COpt.hasBit : COpt → Bool
  | .mandatory => false
  | _ => true

mutual
/-- `anyConstraint2ValidationCodeBlock` with the functions for each kind of type, BackendAst/DastValidate2.fs:217-551. -/
def acVC : CTy → AC → VC
  | t, .union c d => (acVC t c).or (acVC t d)
  | t, .inter c d => (acVC t c).and (acVC t d)
  | t, .allExcept c => (acVC t c).not
  | t, .except c d => (acVC t c).except (acVC t d)
  | t, .root c => acVC t c
  | t, .root2 c d => (acVC t c).or (acVC t d)
  | t, .range l => match t.actual with
    | .int cls _ => (l.vcb cls).lift getInt
    | _ => .error
  | t, .realRange l => match t.actual with
    | .real _ => .expr (realLeafTest l)
    | _ => .error
  | t, .boolean b => match t.actual with
    | .bool _ => .expr (boolTest b)
    | _ => .error
  | t, .item i => match t.actual with
    | .enum _ _ => .expr (itemTest i)
    | _ => .error
  | t, .octetsVal w => match t.actual with
    | .octets lo hi _ => .expr (octetsValTest lo hi w)
    | _ => .error
  | t, .bitsVal w => match t.actual with
    | .bits lo hi _ => .expr (bitsValTest lo hi w)
    | _ => .error
  | t, .strVal w => match t.actual with
    | .str _ _ _ _ => .expr (strValTest w)
    | _ => .error
  | t, .oidVal w => match t.actual with
    | .oid _ _ => .expr (oidValTest w)
    | _ => .error
  | t, .size c => match t.actual with
    | .octets lo hi _ => if lo = hi then .tt else sizeVC c
    | .bits lo hi _ => if lo = hi then .tt else sizeVC c
    | .seqOf lo hi _ _ => if lo = hi then .tt else sizeVC c
    | .str _ _ _ _ => sizeVC c
    | _ => .error
  | t, .alphabet c => match t.actual with
    | .str _ _ _ _ => .expr (alphabetTest c)
    | _ => .error
  | t, .value _ => match t.actual with
    | .seq _ _ => .tt
    | .seqOf _ _ _ _ => .tt
    | .choice _ _ => .tt
    | _ => .error
  | t, .component c => match t.actual with
    | .seqOf lo hi e _ => (acVC e c).loop lo hi
    | _ => .error
  | t, .components ncs => match t.actual with
    | .seq fs _ => multiAnd (ncVCs fs ncs)
    | .choice alts _ => multiAnd (ncVCsChoice alts ncs)
    | _ => .error
/-- `handleNamedConstraint` of a SEQUENCE, BackendAst/DastValidate2.fs:405-458. -/
def ncVCs : CFields → NCs → List VC
  | _, .nil => []
  | fs, .bare i m rest => seqMark i m ++ ncVCs fs rest
  | fs, .cons i m c rest =>
    match fs.get i with
    | some (o, t) =>
      seqMark i m ++ [if o.hasBit then ((acVC t c).at (getComp i)).when (getExist i) else (acVC t c).at (getComp i)]
        ++ ncVCs fs rest
    | none => [.error]
/-- `handleNamedConstraint` of a CHOICE, BackendAst/DastValidate2.fs:474-507. -/
def ncVCsChoice : CAlts → NCs → List VC
  | _, .nil => []
  | alts, .bare i m rest => choiceMark i m ++ ncVCsChoice alts rest
  | alts, .cons i m c rest =>
    match alts.get i with
    | some t =>
      choiceMark i m ++ [((acVC t c).at getAlt).when (fun v => do pure (decide ((← getKind v) = (i : Int) + 1)))]
        ++ ncVCsChoice alts rest
    | none => [.error]
end

/-! ## Types -/

/-- The constraints of a type, `funcBody` (BackendAst/DastValidate2.fs:640-642) and
`convertMultipleVCBsToStatementAndSetErrorCode` (728-743). -/
def consVC (t : CTy) (cons : List AC) : VC := multiAnd (cons.map (acVC t))

/-- An error code: `none` is 0, `some p` is the code that belongs to the type at the path `p` (BackendAst/DastValidate2.fs:598-599:
the name of the code is made from the path of the type). A component adds its number to the path, the elements of a
SEQUENCE OF and the target of a reference add 0. -/
abbrev ErrCode := Option (List Nat)

/-- A function that tests an object: `ret` and `*pErrCode`. -/
abbrev Check := CVal → ErrCode → M (Bool × ErrCode)

/-- The code for the constraints of a type, with `*pErrCode = ret ? 0 : <code>`: BackendAst/DastValidate2.fs:116-125,
StgC/isvalid_c.stg:47-64. Simplification: for `VCBTrue` there is no code, or code that sets `*pErrCode` to 0 (it depends on
whether the type has a function of its own); the model leaves `*pErrCode` as it is. -/
def checkCons (p : List Nat) (vc : VC) : Check := fun v err =>
  match vc with
  | .tt => pure (true, err)
  | vc => do
    let r ← vc.run v true
    pure (r, if r then none else some p)

/-- `s1; if (ret) { s2 }`. -/
def Check.then (a b : Check) : Check := fun v err => do
  let r ← a v err
  if r.1 then b v r.2 else pure r

/-- The loop over the elements of a SEQUENCE OF, StgC/isvalid_c.stg:350-355. -/
def checkLoop (body : Check) (arr : List CVal) : (n i : Nat) → ErrCode → M (Bool × ErrCode)
  | 0, _, err => pure (true, err)
  | n + 1, i, err => do
    let x ← tblGet arr i
    let r ← body x err
    if r.1 then checkLoop body arr n (i + 1) r.2 else pure r

/-- `createSequenceOfFunction`, BackendAst/DastValidate2.fs:767-785: the number of rounds. -/
def checkElements (lo hi : Nat) (body : Check) : Check := fun v err =>
  match v with
  | .seqOf n arr => checkLoop body arr (if lo = hi then lo else n.toNat) 0 err
  | _ => mUb

/-- `ObjectIdentifier_isValid` or `RelativeOID_isValid`, BackendAst/DastValidate2.fs:685-689. -/
def oidBasicTest (relative : Bool) : CVal → M Bool
  | .oid o => if relative then pure (relOidIsValid o) else oidIsValid o
  | _ => mUb

mutual
/-- `<type>_IsConstraintValid`, BackendAst/DastValidate2.fs:644-1066: `createIntegerFunction` 644-647, REAL 660, BOOLEAN 665,
strings 670-683, OBJECT IDENTIFIER 685-696, ENUMERATED 720-726, SEQUENCE OF 745-789, SEQUENCE 791-861, CHOICE 863-950,
references 951-1066. NULL has no such function. Components are tested before the constraints of a SEQUENCE, the
constraints of a CHOICE and of a SEQUENCE OF before the alternative and the elements, the referenced type before the
constraints of the reference. Whether a component is tested by a call or by code copied in makes no difference: `ret` is
true in both cases. -/
def validT (p : List Nat) : CTy → Check
  | .int cls cons => checkCons p (consVC (.int cls cons) cons)
  | .bool cons => checkCons p (consVC (.bool cons) cons)
  | .null => fun _ err => pure (true, err)
  | .enum items cons => checkCons p (consVC (.enum items cons) cons)
  | .octets lo hi cons => checkCons p (consVC (.octets lo hi cons) cons)
  | .bits lo hi cons => checkCons p (consVC (.bits lo hi cons) cons)
  | .str lo hi a cons => checkCons p (consVC (.str lo hi a cons) cons)
  | .oid rel cons => checkCons p (multiAnd (.expr (oidBasicTest rel) :: cons.map (acVC (.oid rel cons))))
  | .real cons => checkCons p (consVC (.real cons) cons)
  | .seq fs cons => (validFieldsC p 0 fs).then (checkCons p (consVC (.seq fs cons) cons))
  | .seqOf lo hi t cons =>
    (checkCons p (consVC (.seqOf lo hi t cons) cons)).then (checkElements lo hi (validT (p ++ [0]) t))
  | .choice alts cons => (checkCons p (consVC (.choice alts cons) cons)).then (fun v err =>
    match v with
    | .choice k u => if 0 < k then validAltC p 0 alts (k.toNat - 1) u err else pure (false, some p)
    | _ => mUb)
  | .ref t sz refCons => (validT (p ++ [0]) t).then (checkCons p (consVC (.ref t sz refCons) refCons))
/-- The components from number `i` on, BackendAst/DastValidate2.fs:795-849; `Sequence_OptionalChild`, StgC/isvalid_c.stg:274-278. -/
def validFieldsC (p : List Nat) (i : Nat) : CFields → Check
  | .nil => fun _ err => pure (true, err)
  | .cons o t rest => Check.then
      (fun v err => do
        let e ← (if o.hasBit then getExist i v else pure true)
        if e then validT (p ++ [i]) t (← getComp i v) err else pure (true, err))
      (validFieldsC p (i + 1) rest)
/-- The `switch` over the alternatives, StgC/isvalid_c.stg:311-325; `i` counts the alternatives passed. -/
def validAltC (p : List Nat) (i : Nat) : CAlts → Nat → Check
  | .nil, _ => fun _ _ => pure (false, some p)
  | .cons t _, 0 => validT (p ++ [i]) t
  | .cons _ rest, k + 1 => validAltC p (i + 1) rest k
end

/-- The generated function as the user calls it; `*pErrCode` has the value `err` before. -/
def isConstraintValid (t : CTy) (v : CVal) (err : ErrCode) : M (Bool × ErrCode) := validT [] t v err

end Asn1
