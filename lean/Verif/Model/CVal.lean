import Verif.Model.Constraint
import Verif.Model.Search
import Verif.Model.Real
/-!
# The memory that the generated C types occupy, and the types with their constraints

`_Equal`, `_Initialize` and `_IsConstraintValid` work on C structures. A C structure holds more than an ASN.1 value:
array elements behind the count, the content of components that are absent, counts that exceed the array.
-/
namespace Asn1

/-- The content of an object of a generated C type (StgC/header_c.stg:169-307).
`octets`, `bits` and `seqOf`: the member `nCount`, an `int` (lines 182, 205, 225; fixed size types have no such
member, the number then stands for nothing), and the whole array. `str`: the whole `char` array. `seq`: for every
component its bit in `exist` (line 244; mandatory components have none) and the component itself, whether present or
not. `choice`: `kind`, where 0 is `…_NONE` (lines 293-296), and the member of the union that was stored last. -/
inductive CVal where
  | int (v : Int)
  | bool (b : Bool)
  | null
  | enum (v : Int)
  | octets (nCount : Int) (arr : List Byte)
  | bits (nCount : Int) (arr : List Byte)
  | str (arr : List Byte)
  | oid (o : Oid)
  | real (d : Dbl)
  | seq (fs : List (Bool × CVal))
  | seqOf (nCount : Int) (arr : List CVal)
  | choice (kind : Int) (u : CVal)

/-- An ASN.1 value: `Asn1ValueKind`, FrontEndAst/Asn1AcnAst.fs:52-66. `seq` has `none` for an absent component, `choice i v`
is alternative number `i`, from zero. -/
inductive AV where
  | int (v : Int)
  | bool (b : Bool)
  | null
  | enum (v : Int)
  | octets (l : List Byte)
  | bits (l : List Bool)
  | str (l : List Byte)
  | oid (l : List U64)
  | real (d : Dbl)
  | seq (l : List (Option AV))
  | seqOf (l : List AV)
  | choice (i : Nat) (v : AV)

/-- `NamedConstraintMark`, FrontEndAst/Asn1Ast.fs:52-56. -/
inductive Mark where
  | noMark
  | present
  | absent
  | optional
deriving DecidableEq

/-- The leaves of `RealTypeConstraint`, FrontEndAst/Asn1AcnAst.fs:102-105 and 126. -/
inductive RealLeaf where
  | single (v : Dbl)
  | range (v1 v2 : Dbl) (minIsIn maxIsIn : Bool)
  | valMax (v1 : Dbl) (minIsIn : Bool)
  | minVal (v2 : Dbl) (maxIsIn : Bool)

mutual
/-- `AnyConstraint`, FrontEndAst/Asn1AcnAst.fs:73-282 (the type itself 245-258). The front end has one type of constraints per kind of ASN.1
type; all of them have the same six set operations (union, intersection, ALL EXCEPT, EXCEPT, `(c, ...)` and
`(c, ..., d)`) and differ in the leaves. Here is one type with all leaves; whether the leaves fit the type is a
separate condition. -/
inductive AC where
  | union (c d : AC)
  | inter (c d : AC)
  | allExcept (c : AC)
  | except (c d : AC)
  | root (c : AC)
  | root2 (c d : AC)
  /-- INTEGER -/
  | range (l : RLeaf)
  /-- REAL -/
  | realRange (l : RealLeaf)
  /-- BOOLEAN, ENUMERATED, OCTET STRING, BIT STRING, character strings, OBJECT IDENTIFIER: a single value -/
  | boolean (b : Bool)
  | item (v : Int)
  | octetsVal (v : List Byte)
  | bitsVal (v : List Bool)
  | strVal (v : List Byte)
  | oidVal (v : List U64)
  /-- SIZE -/
  | size (c : Con RLeaf)
  /-- FROM -/
  | alphabet (c : Con AlphaLeaf)
  /-- SEQUENCE, SEQUENCE OF and CHOICE: a single value -/
  | value (a : AV)
  /-- SEQUENCE OF: WITH COMPONENT -/
  | component (c : AC)
  /-- SEQUENCE and CHOICE: WITH COMPONENTS -/
  | components (ncs : NCs)
/-- `NamedConstraint list`, FrontEndAst/Asn1AcnAst.fs:278-282, the components by number. `bare`: without a
constraint. -/
inductive NCs where
  | nil
  | bare (idx : Nat) (mark : Mark) (rest : NCs)
  | cons (idx : Nat) (mark : Mark) (c : AC) (rest : NCs)
end

/-- `Asn1Optionality option`, FrontEndAst/Asn1AcnAst.fs:302-305 and 785: no optionality, OPTIONAL, DEFAULT, and the two markings that WITH
COMPONENTS leaves behind (FrontEndAst/AcnCreateFromAntlr.fs:1211-1240). -/
inductive COpt where
  | mandatory
  | optional
  | default (d : AV)
  | absent
  | present

mutual
/-- A type with its constraints, as the functions of this group look at it. `lo hi`: the effective size constraint
(`minSize.uper`, `maxSize.uper`). Not modelled: time types, and the search in a table instead of the test of an
ENUMERATED (`-eee`). -/
inductive CTy where
  | int (cls : IntClass) (cons : List AC)
  | bool (cons : List AC)
  | null
  /-- the values of the items in the order of the declaration -/
  | enum (items : List Int) (cons : List AC)
  | octets (lo hi : Nat) (cons : List AC)
  | bits (lo hi : Nat) (cons : List AC)
  /-- `alphabet`: the effective alphabet (`uperCharSet`) -/
  | str (lo hi : Nat) (alphabet : List Byte) (cons : List AC)
  | oid (relative : Bool) (cons : List AC)
  | real (cons : List AC)
  | seq (fs : CFields) (cons : List AC)
  | seqOf (lo hi : Nat) (t : CTy) (cons : List AC)
  | choice (alts : CAlts) (cons : List AC)
  /-- A reference to a type assignment, with the constraints of the reference (`refCons`). When these contain a SIZE,
  the resolved type has another effective size than `t` (`size`, FrontEndAst/AcnCreateFromAntlr.fs:1518 and 497-503), but
  the C type is a `typedef` of the C type of `t` (StgC/header_c.stg:191-193). -/
  | ref (t : CTy) (size : Option (Nat × Nat)) (refCons : List AC)
/-- The components of a SEQUENCE. -/
inductive CFields where
  | nil
  | cons (o : COpt) (t : CTy) (rest : CFields)
/-- The alternatives of a CHOICE. -/
inductive CAlts where
  | nil
  | cons (t : CTy) (rest : CAlts)
end

/-- The effective size replaced by that of a constrained reference. -/
def CTy.resize : Option (Nat × Nat) → CTy → CTy
  | some (lo, hi), .octets _ _ cons => .octets lo hi cons
  | some (lo, hi), .bits _ _ cons => .bits lo hi cons
  | some (lo, hi), .str _ _ a cons => .str lo hi a cons
  | some (lo, hi), .seqOf _ _ t cons => .seqOf lo hi t cons
  | _, t => t

/-- `ActualType`: references resolved, FrontEndAst/DAstUtilFunctions.fs:269-272. -/
def CTy.actual : CTy → CTy
  | .ref t sz _ => t.actual.resize sz
  | t => t

/-- The layout of the C type: references do not change it (a `typedef`, StgC/header_c.stg:191-193). -/
def CTy.layout : CTy → CTy
  | .ref t _ _ => t.layout
  | t => t

/-- Component number `i`. -/
def CFields.get : CFields → Nat → Option (COpt × CTy)
  | .nil, _ => none
  | .cons o t _, 0 => some (o, t)
  | .cons _ _ rest, i + 1 => rest.get i

/-- Alternative number `i`. -/
def CAlts.get : CAlts → Nat → Option CTy
  | .nil, _ => none
  | .cons t _, 0 => some t
  | .cons _ rest, i + 1 => rest.get i

/-- `strlen(p)` of the C library: the number of characters before the first zero; undefined when there is none. -/
def cStrlen : List Byte → M Nat
  | [] => mUb
  | c :: rest => if c = 0#8 then pure 0 else do
      let n ← cStrlen rest
      pure (n + 1)

/-- `strcmp(a, b) == 0` of the C library: undefined when it runs past the end of an array. -/
def cStrEq : List Byte → List Byte → M Bool
  | a :: as, b :: bs => if a = b then (if a = 0#8 then pure true else cStrEq as bs) else pure false
  | _, _ => mUb

end Asn1
