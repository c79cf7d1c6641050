import Verif.Model.Core
/-!
# Presence expressions of ACN

`present-when` with an expression: how the compiler checks it, how it prints it as a C condition, and what the C condition
computes. Source positions and messages are left out; an error is `none`.
-/
namespace Asn1

/-- The binary operators of `AcnExpression`, CommonTypes/AcnGenericTypes.fs:66-78. -/
inductive AcnBin where
  | add | sub | mul | div | mod
  | le | lt | ge | gt
  | eq | ne
  | and | or
deriving DecidableEq, Repr

/-- `AcnExpression`, CommonTypes/AcnGenericTypes.fs:58-78. INT tokens have no sign (Antlr/acn.g:530). A REAL constant is the text
that is printed for it. -/
inductive AcnExp where
  | int (v : Nat)
  | const (name : String)
  | real (text : String)
  | bool (b : Bool)
  | field (path : List String)
  | not (e : AcnExp)
  | neg (e : AcnExp)
  | bin (op : AcnBin) (a b : AcnExp)
deriving DecidableEq, Repr

mutual
/-- The types of components, as far as references of expressions look at them. INTEGER: whether the C type is unsigned, and its width. -/
inductive FieldTy where
  | int (unsigned : Bool) (width : Nat)
  | real
  | bool
  | seq (children : SFields)
  | other
/-- The components of a SEQUENCE: name, whether it is inserted by ACN, whether it is OPTIONAL. -/
inductive SFields where
  | nil
  | cons (name : String) (inserted optional : Bool) (ty : FieldTy) (rest : SFields)
end

/-- `seq.children |> Seq.tryFind(fun c -> c.Name = x1)`, FrontEndAst/CheckLongReferences.fs:363, BackendAst/Acn/AcnExpression.fs:41. -/
def SFields.find : SFields → String → Option (Bool × Bool × FieldTy)
  | .nil, _ => none
  | .cons n i o t rest, x => if n = x then some (i, o, t) else rest.find x

/-- `ExpressionType`, CommonTypes/AcnGenericTypes.fs:144-166. -/
inductive ExpType where
  | bool
  | int
  | real
deriving DecidableEq, Repr

/-- `getChildResult` of the check, FrontEndAst/CheckLongReferences.fs:359-378. -/
def fieldType : List String → SFields → Option ExpType
  | [], _ => none
  | x :: xs, seq =>
    match seq.find x with
    | none => none
    | some (inserted, optional, ty) =>
      if inserted then none
      else if optional then none
      else
        match ty with
        | .int _ _ => some .int
        | .real => some .real
        | .bool => some .bool
        | .seq s => if xs.length > 1 then fieldType xs s else none
        | .other => none

/-- `getChildResult` of the printer, BackendAst/Acn/AcnExpression.fs:37-53: the names that are selected from the C structure. -/
def fieldAccess : List String → SFields → Option (List String)
  | [], _ => none
  | x :: xs, seq =>
    match seq.find x with
    | none => none
    | some (inserted, _, ty) =>
      if inserted then none
      else
        match ty with
        | .int _ _ => some [x]
        | .real => some [x]
        | .bool => some [x]
        | .seq s => if xs.length > 1 then (fieldAccess xs s).map (x :: ·) else none
        | .other => none

/-- `validateAcnExpression` for a binary operator: `numericBinaryOperator`, `numericComparativeBinaryOperator`, `eqNeqOperator`,
`andOrBinaryOperator`, CommonTypes/AcnGenericTypes.fs:175-228, 250-262. -/
def binType (op : AcnBin) (t1 t2 : ExpType) : Option ExpType :=
  match op with
  | .add | .sub | .mul | .div | .mod => if t1 ≠ .bool ∧ t2 ≠ .bool ∧ t1 = t2 then some t1 else none
  | .le | .lt | .ge | .gt => if t1 ≠ .bool ∧ t2 ≠ .bool then some .bool else none
  | .eq | .ne => if t1 = t2 then some .bool else none
  | .and | .or => if t1 = .bool ∧ t2 = .bool then some .bool else none

/-- `validateAcnExpression`, CommonTypes/AcnGenericTypes.fs:174-262. -/
def expType (seq : SFields) : AcnExp → Option ExpType
  | .int _ => some .int
  | .const _ => some .int
  | .real _ => some .real
  | .bool _ => some .bool
  | .field p => fieldType p seq
  | .not e => match expType seq e with
    | some .bool => some .bool
    | _ => none
  | .neg e => match expType seq e with
    | some .int => some .int
    | some .real => some .real
    | _ => none
  | .bin op a b => match expType seq a, expType seq b with
    | some t1, some t2 => binType op t1 t2
    | _, _ => none

/-- The tokens of a C expression. `op .sub` is `-`, with one or two operands. -/
inductive CTok where
  | int (v : Nat)
  | real (text : String)
  | bool (b : Bool)
  | path (p : List String)
  | op (o : AcnBin)
  | bang
  | lparen
  | rparen
deriving DecidableEq, Repr

/-- The priorities that `printBinary` is called with, BackendAst/Acn/AcnExpression.fs:66-78. -/
def binPriority : AcnBin → Nat
  | .mul | .div | .mod => 2
  | .add | .sub => 3
  | .le | .lt | .ge | .gt => 4
  | .eq | .ne => 5
  | .and | .or => 6

/-- The parentheses of `printUnary` and `printBinary`, BackendAst/Acn/AcnExpression.fs:30-33. -/
def wrap (child : Nat × List CTok) (mine : Nat) : List CTok :=
  if child.1 ≥ mine then .lparen :: (child.2 ++ [.rparen]) else child.2

/-- `acnExpressionToBackendExpression`, BackendAst/Acn/AcnExpression.fs:22-81, for C (operators: StgC/LangGeneric_c.fs:188-193):
the priority of the outermost operator and the text. Simplification: the text is a list of tokens. There is a space on both sides of
every binary operator, and what follows a unary operator begins with a digit, a letter or a parenthesis, so that the C compiler
finds the same tokens. `acc`: the C path of a reference (`fieldAccess`). -/
def printExp (acc : List String → List String) : AcnExp → Nat × List CTok
  | .int v => (0, [.int v])
  | .const _ => (0, [])
  | .real t => (0, [.real t])
  | .bool b => (0, [.bool b])
  | .field p => (0, [.path (acc p)])
  | .not e => (1, .bang :: wrap (printExp acc e) 1)
  | .neg e => (1, .op .sub :: wrap (printExp acc e) 1)
  | .bin op a b => (binPriority op, wrap (printExp acc a) (binPriority op) ++ .op op :: wrap (printExp acc b) (binPriority op))

/-! ## What a C compiler makes of the condition -/

/-- The C types of integer expressions on a platform with 32 bit `int` and 64 bit `long`; smaller types are promoted to `int`. -/
inductive CT where
  | i32 | u32 | i64 | u64
deriving DecidableEq, Repr

/-- The least and the largest number of a type. -/
def CT.lo : CT → Int
  | .i32 => -(2 ^ 31)
  | .i64 => -(2 ^ 63)
  | _ => 0
def CT.hi : CT → Int
  | .i32 => 2 ^ 31 - 1
  | .u32 => 2 ^ 32 - 1
  | .i64 => 2 ^ 63 - 1
  | .u64 => 2 ^ 64 - 1

/-- The number of values of an unsigned type; `none` for a signed one. -/
def CT.modulus : CT → Option Int
  | .u32 => some (2 ^ 32)
  | .u64 => some (2 ^ 64)
  | _ => none

/-- C11 6.3.1.1: integer promotion of a component; a BOOLEAN (`bool`, asn1crt/asn1crt.h:139) becomes an `int`. -/
def promote (unsigned : Bool) (width : Nat) : CT :=
  if width < 32 then .i32 else if width = 32 then (if unsigned then .u32 else .i32) else if unsigned then .u64 else .i64

/-- C11 6.3.1.8: usual arithmetic conversions. -/
def commonType (a b : CT) : CT :=
  if a = .u64 ∨ b = .u64 then .u64 else if a = .i64 ∨ b = .i64 then .i64 else if a = .u32 ∨ b = .u32 then .u32 else .i32

/-- C11 6.3.1.3, to a type that is not smaller: conversion to an unsigned type is modulo, otherwise the number fits. -/
def convTo (t : CT) (x : Int) : Int :=
  match t.modulus with
  | some m => x % m
  | none => x

/-- C11 6.2.5, 6.5: an unsigned result is reduced, a signed one that does not fit is undefined behaviour. -/
def resultIn (t : CT) (x : Int) : Res (CT × Int) :=
  match t.modulus with
  | some m => .ok (t, x % m)
  | none => if t.lo ≤ x ∧ x ≤ t.hi then .ok (t, x) else .ub

/-- The truth value as an `int`. -/
def cBool (b : Bool) : Res (CT × Int) := .ok (.i32, if b then 1 else 0)

/-- C11 6.5.5, 6.5.6, 6.5.8, 6.5.9 on operands that have been converted to the type `t`. -/
def cBinary (op : AcnBin) (t : CT) (x y : Int) : Res (CT × Int) :=
  match op with
  | .add => resultIn t (x + y)
  | .sub => resultIn t (x - y)
  | .mul => resultIn t (x * y)
  | .div => if y = 0 then .ub else resultIn t (x.tdiv y)
  | .mod => if y = 0 then .ub else
    match resultIn t (x.tdiv y) with
    | .ok _ => resultIn t (x.tmod y)
    | r => r
  | .le => cBool (decide (x ≤ y))
  | .lt => cBool (decide (x < y))
  | .ge => cBool (decide (x ≥ y))
  | .gt => cBool (decide (x > y))
  | .eq => cBool (decide (x = y))
  | .ne => cBool (decide (x ≠ y))
  | .and => cBool (decide (x ≠ 0 ∧ y ≠ 0))
  | .or => cBool (decide (x ≠ 0 ∨ y ≠ 0))

/-- The value of a C expression with its type. `ty`: the type of a path after promotion, `env`: the contents of the C structure.
Not modelled: REAL; text that is no expression (`const`). -/
def evalC (ty : List String → CT) (env : List String → Int) : AcnExp → Res (CT × Int)
  | .int v => if v < 2 ^ 31 then .ok (.i32, v) else if v < 2 ^ 63 then .ok (.i64, v) else .ub
  | .const _ => .ub
  | .real _ => .ub
  | .bool b => cBool b
  | .field p => .ok (ty p, env p)
  | .not e =>
    match evalC ty env e with
    | .ok (_, x) => cBool (decide (x = 0))
    | .ub => .ub
    | .abort => .abort
  | .neg e =>
    match evalC ty env e with
    | .ok (t, x) => resultIn t (-x)
    | .ub => .ub
    | .abort => .abort
  | .bin op a b =>
    match evalC ty env a with
    | .ub => .ub
    | .abort => .abort
    | .ok (t1, x) =>
      if op = .and ∧ x = 0 then cBool false
      else if op = .or ∧ x ≠ 0 then cBool true
      else
        match evalC ty env b with
        | .ub => .ub
        | .abort => .abort
        | .ok (t2, y) =>
          if op = .and ∨ op = .or then cBool (decide (y ≠ 0))
          else cBinary op (commonType t1 t2) (convTo (commonType t1 t2) x) (convTo (commonType t1 t2) y)

/-- `sequence_presence_optChild_pres_acn_expression_encode`, StgC/acn_c.stg:782-785: `ret = exist == ((exp) ? 1 : 0)`. -/
def presenceCheck (ty : List String → CT) (env : List String → Int) (e : AcnExp) (exist : Bool) : Res Bool :=
  match evalC ty env e with
  | .ok (_, x) => .ok (exist == decide (x ≠ 0))
  | .ub => .ub
  | .abort => .abort

/-- `sequence_presence_optChild_pres_acn_expression_decode`, StgC/acn_c.stg:786-789: the decoded `exist` bit. -/
def presenceDecode (ty : List String → CT) (env : List String → Int) (e : AcnExp) : Res Bool :=
  match evalC ty env e with
  | .ok (_, x) => .ok (decide (x ≠ 0))
  | .ub => .ub
  | .abort => .abort

end Asn1
