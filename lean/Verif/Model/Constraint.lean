import Verif.Model.Types
/-!
# What the compiler computes from constraints

Effective ranges, effective alphabets, the C type of an INTEGER and the test that `…_IsConstraintValid` performs.
`none` is a compile time error (`SemanticError`).
-/
namespace Asn1

/-- The set operations that every constraint type of the front end has, over leaves of type `L`:
FrontEndAst/Asn1AcnAst.fs:95-101 (and the same shape for sizeable types, strings and SEQUENCE OF).
`root c` is `(c, ...)` and `root2 c d` is `(c, ..., d)`. -/
inductive Con (L : Type) where
  | union (c d : Con L)
  | inter (c d : Con L)
  | allExcept (c : Con L)
  | except (c d : Con L)
  | root (c : Con L)
  | root2 (c d : Con L)
  | leaf (l : L)

/-- The leaves of `RangeTypeConstraint`, FrontEndAst/Asn1AcnAst.fs:102-105; the flags say whether the bound itself
belongs to the range (`5..<10`). -/
inductive RLeaf where
  | single (v : Int)
  | range (v1 v2 : Int) (minIsIn maxIsIn : Bool)
  | valMax (v1 : Int) (minIsIn : Bool)
  | minVal (v2 : Int) (maxIsIn : Bool)

/-- `uperUnion`, CommonTypes/CommonTypes.fs:968-978. The last case there calls itself with the arguments swapped;
the swapped cases are written out here. -/
def uperUnion : Rng → Rng → Rng
  | .full, _ => .full
  | .posInf a, .posInf b => .posInf (min a b)
  | .posInf _, .negInf _ => .full
  | .posInf a1, .concrete a _ => .posInf (min a1 a)
  | .negInf a, .negInf b => .negInf (max a b)
  | .negInf _, .posInf _ => .full
  | .negInf a1, .concrete _ b => .negInf (max a1 b)
  | .concrete a1 b1, .concrete a2 b2 => .concrete (min a1 a2) (max b1 b2)
  | _, .full => .full
  | .concrete a _, .posInf a1 => .posInf (min a1 a)
  | .concrete _ b, .negInf a1 => .negInf (max a1 b)

/-- `uperIntersection` for `PosInf(a1), Concrete(a,b)`, CommonTypes/CommonTypes.fs:985-987. -/
def interPosConcrete (a1 a b : Int) : Option Rng :=
  if a1 > b then none
  else if a1 ≤ a then some (.posInf a1)
  else some (.concrete a1 b)

/-- `uperIntersection` for `NegInf(a1), Concrete(a,b)`, CommonTypes/CommonTypes.fs:990-992. -/
def interNegConcrete (a1 a b : Int) : Option Rng :=
  if a1 < a then none
  else if a1 < b then some (.concrete a1 b)
  else some (.concrete a b)

/-- `uperIntersection`, CommonTypes/CommonTypes.fs:980-998, with the swapped cases written out. -/
def uperIntersection : Rng → Rng → Option Rng
  | .full, r2 => some r2
  | .posInf a, .posInf b => some (.posInf (max a b))
  | .posInf a, .negInf b => if a ≤ b then some (.concrete a b) else none
  | .posInf a1, .concrete a b => interPosConcrete a1 a b
  | .negInf a, .negInf b => some (.negInf (min a b))
  | .negInf a, .posInf b => if a ≥ b then some (.concrete b a) else none
  | .negInf a1, .concrete a b => interNegConcrete a1 a b
  | .concrete a1 b1, .concrete a2 b2 =>
    if a1 ≤ a2 ∧ a2 ≤ b1 ∧ b1 ≤ b2 then some (.concrete a2 b1)
    else if a2 ≤ a1 ∧ a1 ≤ b2 ∧ b2 ≤ b1 then some (.concrete a1 b2)
    else if a2 ≤ a1 ∧ b1 ≤ b2 then some (.concrete a1 b1)
    else if a1 ≤ a2 ∧ b2 ≤ b1 then some (.concrete a2 b2)
    else none
  | r1, .full => some r1
  | .concrete a b, .posInf a1 => interPosConcrete a1 a b
  | .concrete a b, .negInf a1 => interNegConcrete a1 a b

/-- The recursion of `getRangeTypeConstraintUperRange`, FrontEndAst/uPER.fs:15-22, over
`foldRangeTypeConstraint`, FrontEndAst/Asn1Fold.fs:62-94; the same seven lines occur in
`getSizeableTypeConstraintUperRange` (50-57), `getSequenceOfUperRange` (93-99) and
`getStringConstraintSizeUperRange` (127-133). Both operands are always evaluated, so an error in an operand that is
not used is an error. -/
def Con.range {L : Type} (leaf : L → Option Rng) : Con L → Option Rng
  | .union c d => do
    let r1 ← c.range leaf
    let r2 ← d.range leaf
    some (uperUnion r1 r2)
  | .inter c d => do
    let r1 ← c.range leaf
    let r2 ← d.range leaf
    uperIntersection r1 r2
  | .allExcept c => do
    let _ ← c.range leaf
    some .full
  | .except c d => do
    let r1 ← c.range leaf
    let _ ← d.range leaf
    some r1
  | .root c => do
    let _ ← c.range leaf
    some .full
  | .root2 c d => do
    let _ ← c.range leaf
    let _ ← d.range leaf
    some .full
  | .leaf l => leaf l

/-- The leaf cases of `getRangeTypeConstraintUperRange`, FrontEndAst/uPER.fs:23-33. -/
def RLeaf.rng (next prev : Int → Int) : RLeaf → Rng
  | .single v => .concrete v v
  | .range v1 v2 minIsIn maxIsIn =>
    .concrete (if minIsIn then v1 else next v1) (if maxIsIn then v2 else prev v2)
  | .valMax v1 minIsIn => .posInf (if minIsIn then v1 else next v1)
  | .minVal v2 maxIsIn => .negInf (if maxIsIn then v2 else prev v2)

/-- The fold over the list of constraints of a type, from `Full`: FrontEndAst/uPER.fs:41, 80, 120 and 170. -/
def serialRange {L : Type} (leaf : L → Option Rng) : Rng → List (Con L) → Option Rng
  | s, [] => some s
  | s, c :: rest => do
    let r ← c.range leaf
    let s' ← uperIntersection s r
    serialRange leaf s' rest

/-- `getIntTypeConstraintUperRange`, FrontEndAst/uPER.fs:38-41. -/
def intRange (cons : List (Con RLeaf)) : Option Rng :=
  serialRange (fun l => some (l.rng (· + 1) (· - 1))) .full cons

/-- `v+1u` on `uint32`. -/
def nextU32 (v : Int) : Int := (v + 1) % 2 ^ 32

/-- `v-1u` on `uint32`. -/
def prevU32 (v : Int) : Int := (v - 1) % 2 ^ 32

/-- The leaves of `SizableTypeConstraint` and of the constraints of SEQUENCE OF: a value, a SIZE constraint, and (for
SEQUENCE OF) a WITH COMPONENT constraint, of which only the set of values that satisfy it matters here. -/
inductive SizeLeaf (V : Type) where
  | single (v : V)
  | size (c : Con RLeaf)
  | component (p : V → Bool)

/-- The leaf cases of `getSizeableTypeConstraintUperRange` (FrontEndAst/uPER.fs:58-76) and `getSequenceOfUperRange`
(100-119). `len` is the number of octets, bits or elements. -/
def SizeLeaf.rng {V : Type} (len : V → Nat) : SizeLeaf V → Option Rng
  | .single v => some (.concrete (len v) (len v))
  | .size c => c.range (fun l => some (l.rng nextU32 prevU32))
  | .component _ => some .full

/-- `getSizeableUperRange` (FrontEndAst/uPER.fs:77-80) and `getSequenceOfUperRange` (89-121). -/
def sizeRange {V : Type} (len : V → Nat) (cons : List (Con (SizeLeaf V))) : Option Rng :=
  serialRange (SizeLeaf.rng len) .full cons

/-! ## Strings -/

/-- The leaves of the constraint inside FROM: a string of characters, or a range. Characters are numbers. -/
inductive AlphaLeaf where
  | chars (v : List Nat)
  | range (v1 v2 : Nat) (minIsIn maxIsIn : Bool)
  | valMax (v1 : Nat) (minIsIn : Bool)
  | minVal (v2 : Nat) (maxIsIn : Bool)

/-- The leaves of `IA5StringConstraint`. -/
inductive StrLeaf where
  | single (v : List Nat)
  | size (c : Con RLeaf)
  | alphabet (c : Con AlphaLeaf)

/-- The leaf cases of `getStringConstraintSizeUperRange`, FrontEndAst/uPER.fs:134-163. All cases of the alphabet
constraint return `Full`. -/
def StrLeaf.rng : StrLeaf → Option Rng
  | .single v => some (.concrete v.length v.length)
  | .size c => c.range (fun l => some (l.rng nextU32 prevU32))
  | .alphabet _ => some .full

/-- `getStringSizeUperRange`, FrontEndAst/uPER.fs:169-172. -/
def strSizeRange (cons : List (Con StrLeaf)) : Option Rng := serialRange StrLeaf.rng .full cons

/-- `Seq.distinct`: the first occurrence of every element. -/
def distinct : List Nat → List Nat
  | [] => []
  | x :: xs => x :: (distinct xs).filter (· ≠ x)

/-- `IntersectArrays`, FrontEndAst/uPER.fs:174-179. -/
def intersectArrays (s1 s2 : List Nat) : Option (List Nat) :=
  let ret := s1.filter (fun ch => decide (ch ∈ s2))
  if ret.length = 0 then none else some ret

/-- `a.[i..j]`. -/
def sliceIncl (l : List Nat) (i : Nat) (j : Int) : List Nat := (l.take (j + 1).toNat).drop i

/-- `GetCharSetFromMinMax`, FrontEndAst/uPER.fs:186-201. -/
def charSetFromMinMax (dflt : List Nat) (a b : Nat) (minIsIn maxIsIn : Bool) : Option (List Nat) :=
  if a ∈ dflt then
    if b ∈ dflt then
      let a1 := if minIsIn then dflt.idxOf a else dflt.idxOf a + 1
      let a2 : Int := if maxIsIn then dflt.idxOf b else (dflt.idxOf b : Int) - 1
      some (sliceIncl dflt a1 a2)
    else none
  else none

/-- The recursion of `getStringConstraintAlphabetUperRange`, FrontEndAst/uPER.fs:209-215 and 228-233. -/
def Con.alphabet {L : Type} (dflt : List Nat) (leaf : L → Option (List Nat)) : Con L → Option (List Nat)
  | .union c d => do
    let r1 ← c.alphabet dflt leaf
    let r2 ← d.alphabet dflt leaf
    some (distinct (r1 ++ r2))
  | .inter c d => do
    let r1 ← c.alphabet dflt leaf
    let r2 ← d.alphabet dflt leaf
    intersectArrays r1 r2
  | .allExcept c => do
    let _ ← c.alphabet dflt leaf
    some dflt
  | .except c d => do
    let r1 ← c.alphabet dflt leaf
    let _ ← d.alphabet dflt leaf
    some r1
  | .root c => do
    let _ ← c.alphabet dflt leaf
    some dflt
  | .root2 c d => do
    let _ ← c.alphabet dflt leaf
    let _ ← d.alphabet dflt leaf
    some dflt
  | .leaf l => leaf l

/-- The leaf cases of the alphabet constraint, FrontEndAst/uPER.fs:234-242. `defaultCharSet.[0]` and
`defaultCharSet.[Length-1]` exist because the default is one of two constants. -/
def AlphaLeaf.set (dflt : List Nat) : AlphaLeaf → Option (List Nat)
  | .chars v => some (distinct v)
  | .range v1 v2 minIsIn maxIsIn => charSetFromMinMax dflt v1 v2 minIsIn maxIsIn
  | .valMax v1 minIsIn => charSetFromMinMax dflt v1 (dflt.getLastD 0) minIsIn true
  | .minVal v2 maxIsIn => charSetFromMinMax dflt (dflt.headD 0) v2 true maxIsIn

/-- The leaf cases of `getStringConstraintAlphabetUperRange`, FrontEndAst/uPER.fs:216-227. All cases of a SIZE
constraint return the default. -/
def StrLeaf.set (dflt : List Nat) : StrLeaf → Option (List Nat)
  | .single _ => some dflt
  | .size _ => some dflt
  | .alphabet c => c.alphabet dflt (AlphaLeaf.set dflt)

/-- The fold of `getSrtingAlphaUperRange`. -/
def serialAlphabet (dflt : List Nat) : List Nat → List (Con StrLeaf) → Option (List Nat)
  | s, [] => some s
  | s, c :: rest => do
    let r ← c.alphabet dflt (StrLeaf.set dflt)
    let s' ← intersectArrays s r
    serialAlphabet dflt s' rest

/-- `getSrtingAlphaUperRange`, FrontEndAst/uPER.fs:247-250. -/
def strAlphabet (dflt : List Nat) (cons : List (Con StrLeaf)) : Option (List Nat) := serialAlphabet dflt dflt cons

/-- The default alphabet of an IA5String, FrontEndAst/AcnCreateFromAntlr.fs:1109. -/
def ia5Chars : List Nat := List.range 128

/-- The default alphabet of a NumericString, FrontEndAst/AcnCreateFromAntlr.fs:1115. -/
def numericChars : List Nat := [32, 48, 49, 50, 51, 52, 53, 54, 55, 56, 57]

/-! ## The C type of an INTEGER and its validity test -/

/-- `IntegerClass`, FrontEndAst/Asn1AcnAst.fs:388-398: signedness, `Min` and `Max` of the C type
(FrontEndAst/Asn1AcnAstUtilFunctions.fs:398-433). -/
structure IntClass where
  positive : Bool
  min : Int
  max : Int
deriving DecidableEq

/-- `uint8 … uint64` and `int8 … int64`, FrontEndAst/Asn1AcnAstUtilFunctions.fs:348-356. -/
def uClass (w : Nat) : IntClass := ⟨true, 0, 2 ^ w - 1⟩
def sClass (w : Nat) : IntClass := ⟨false, -(2 ^ (w - 1)), 2 ^ (w - 1) - 1⟩

/-- `getIntEncodingClassByUperRange`, FrontEndAst/Asn1AcnAstUtilFunctions.fs:347-389. Simplification:
`integerSizeInBytes = 8` (the default); `fat_int` and `fat_uint` then are 64 bit wide. -/
def intClassOf (slim : Bool) : Rng → IntClass
  | .concrete a b =>
    if a ≥ 0 then
      if slim then
        if b > 2 ^ 32 - 1 then uClass 64
        else if b > 2 ^ 16 - 1 then uClass 32
        else if b > 2 ^ 8 - 1 then uClass 16
        else uClass 8
      else uClass 64
    else
      if slim then
        if -(2 ^ 7) ≤ a ∧ b ≤ 2 ^ 7 - 1 then sClass 8
        else if -(2 ^ 15) ≤ a ∧ b ≤ 2 ^ 15 - 1 then sClass 16
        else if -(2 ^ 31) ≤ a ∧ b ≤ 2 ^ 31 - 1 then sClass 32
        else sClass 64
      else sClass 64
  | .negInf _ => sClass 64
  | .posInf a => if a ≥ 0 then uClass 64 else sClass 64
  | .full => sClass 64

/-- The number that the literal printed for `i` denotes in a C comparison with a variable of the class: `<i>UL`
for an unsigned class, where a minus sign negates modulo 2^64; the number itself for a signed one.
`intValueToString`, StgC/LangGeneric_c.fs:73-90. Simplification: `unsigned long` has 64 bits, and the literals of a
signed class fit 64 bits. -/
def cLiteral (cls : IntClass) (i : Int) : Int := if cls.positive then i % 2 ^ 64 else i

/-- `ValidationCodeBlock` without statements, which the constraints of an INTEGER never produce:
BackendAst/DastValidate2.fs:48-52. An expression is the C truth value as a function of the variable. -/
inductive Vcb where
  | tt
  | ff
  | expr (e : Int → Bool)

/-- The truth value of a block. -/
def Vcb.eval : Vcb → Int → Bool
  | .tt, _ => true
  | .ff, _ => false
  | .expr e, v => e v

/-- `ValidationCodeBlock_OR`, BackendAst/DastValidate2.fs:55-68. -/
def Vcb.or : Vcb → Vcb → Vcb
  | .tt, _ => .tt
  | _, .tt => .tt
  | .ff, b => b
  | a, .ff => a
  | .expr e1, .expr e2 => .expr (fun v => e1 v || e2 v)

/-- `ValidationCodeBlock_AND`, BackendAst/DastValidate2.fs:70-82. -/
def Vcb.and : Vcb → Vcb → Vcb
  | .tt, b => b
  | a, .tt => a
  | .ff, _ => .ff
  | _, .ff => .ff
  | .expr e1, .expr e2 => .expr (fun v => e1 v && e2 v)

/-- `ValidationCodeBlock_Not`, BackendAst/DastValidate2.fs:105-113. -/
def Vcb.not : Vcb → Vcb
  | .tt => .ff
  | .ff => .tt
  | .expr e => .expr (fun v => !e v)

/-- `ValidationCodeBlock_Except`, BackendAst/DastValidate2.fs:128-144. -/
def Vcb.except : Vcb → Vcb → Vcb
  | _, .tt => .ff
  | .tt, b => b.not
  | .ff, _ => .ff
  | a, .ff => a
  | .expr e1, .expr e2 => .expr (fun v => e1 v && !e2 v)

/-- `con_rangeConstraint_val_MAX`, BackendAst/DastValidate2.fs:161-165. -/
def conValMax (cls : IntClass) (v1 : Int) (incl : Bool) : Vcb :=
  if v1 < cls.min then .tt
  else if v1 = cls.min ∧ incl = true then .tt
  else .expr (fun v => if incl then decide (cLiteral cls v1 ≤ v) else decide (cLiteral cls v1 < v))

/-- `con_rangeConstraint_MIN_val`, BackendAst/DastValidate2.fs:169-173. -/
def conMinVal (cls : IntClass) (v1 : Int) (incl : Bool) : Vcb :=
  if v1 > cls.max then .tt
  else if v1 = cls.max ∧ incl = true then .tt
  else .expr (fun v => if incl then decide (v ≤ cLiteral cls v1) else decide (v < cLiteral cls v1))

/-- The leaf cases of `integerConstraint2ValidationCodeBlock`, BackendAst/DastValidate2.fs:261-267. -/
def RLeaf.vcb (cls : IntClass) : RLeaf → Vcb
  | .single v => .expr (fun x => decide (x = cLiteral cls v))
  | .range v1 v2 minIsIn maxIsIn => (conValMax cls v1 minIsIn).and (conMinVal cls v2 maxIsIn)
  | .valMax v1 minIsIn => conValMax cls v1 minIsIn
  | .minVal v2 maxIsIn => conMinVal cls v2 maxIsIn

/-- `integerConstraint2ValidationCodeBlock`, BackendAst/DastValidate2.fs:257-269, with the `con_…` functions of
lines 153-158. -/
def conVcb (cls : IntClass) : Con RLeaf → Vcb
  | .union c d => (conVcb cls c).or (conVcb cls d)
  | .inter c d => (conVcb cls c).and (conVcb cls d)
  | .allExcept c => (conVcb cls c).not
  | .except c d => (conVcb cls c).except (conVcb cls d)
  | .root c => conVcb cls c
  | .root2 c d => (conVcb cls c).or (conVcb cls d)
  | .leaf l => l.vcb cls

/-- `…_IsConstraintValid` of an INTEGER type with the constraints `cons`: `createIntegerFunction`
(BackendAst/DastValidate2.fs:644-647), `ValidationCodeBlock_Multiple_And` (84-103) and `funcBody` (640-642). The
nested statements `ret = e1; if (ret) { ret = e2; … }` are a conjunction. -/
def isConstraintValidInt (cls : IntClass) (cons : List (Con RLeaf)) (v : Int) : Bool :=
  cons.all (fun c => (conVcb cls c).eval v)

end Asn1
