import Verif.Model.Notation
/-!
# Constraints as they stand in the file: MIN..MAX and type inclusion

The constraints of `Model/Notation` know neither `MIN..MAX` nor the inclusion of a type (`INCLUDES T`, or just `T`). The
first is removed when the tree of a constraint is made from the syntax tree, the second before the constraint is
translated. Both may leave no constraint at all.
-/
namespace Asn1

mutual
/-- A constraint as the grammar has it, Antlr/asn1.g:600-680; also `Asn1Constraint` with type inclusion, FrontEndAst/Asn1Ast.fs:59-75.
`includes cons`: the constraints of the named type and of the types it refers to (`GetActualTypeByNameAllConsIncluded`,
FrontEndAst/Asn1Ast.fs:342-355). Simplification: `MIN<..<MAX` is not told apart from `MIN..MAX`; no PATTERN, no CONTENTS
constraint. -/
inductive SC where
  | single (v : VN)
  | range (v1 v2 : VN) (minIsIn maxIsIn : Bool)
  | valMax (v1 : VN) (minIsIn : Bool)
  | minVal (v2 : VN) (maxIsIn : Bool)
  | minMax
  | includes (cons : SCs)
  | size (c : SC)
  | alphabet (c : SC)
  | union (c d : SC)
  | inter (c d : SC)
  | allExcept (c : SC)
  | except (c d : SC)
  | root (c : SC)
  | root2 (c d : SC)
  | component (c : SC)
  | components (ncs : SNs)
/-- The constraints of an included type. -/
inductive SCs where
  | nil
  | cons (c : SC) (rest : SCs)
/-- WITH COMPONENTS. `bare`: without a constraint. -/
inductive SNs where
  | nil
  | bare (nm : String) (mark : Mark) (rest : SNs)
  | cons (nm : String) (mark : Mark) (c : SC) (rest : SNs)
end

/-- `CheckValueRange`, FrontEndAst/CreateAsn1AstFromAntlrTree.fs:272-286: literals only. -/
def checkRange : VN → VN → Bool
  | .int x, .int y => !(decide (x < 0) && decide (y > 2 ^ 63 - 1))
  | _, _ => true

mutual
/-- `CreateConstraint`, FrontEndAst/CreateAsn1AstFromAntlrTree.fs:288-425. The outer `none`: an error is raised. The inner `none`:
there is no constraint. -/
def parseCon : SC → Option (Option SC)
  | .single v => some (some (.single v))
  | .range v1 v2 i j => if checkRange v1 v2 then some (some (.range v1 v2 i j)) else none
  | .valMax v1 i => some (some (.valMax v1 i))
  | .minVal v2 j => some (some (.minVal v2 j))
  | .minMax => some none
  | .includes cons => (parseCons cons).map fun l => some (.includes l)
  | .size c => (parseCon c).map fun o => o.map .size
  | .alphabet c => (parseCon c).map fun o => o.map .alphabet
  | .union c d => do
    let x ← parseCon c
    let y ← parseCon d
    match x, y with
    | some k1, some k2 => some (some (.union k1 k2))
    | _, _ => some none
  | .inter c d => do
    let x ← parseCon c
    let y ← parseCon d
    match x, y with
    | some k1, some k2 => some (some (.inter k1 k2))
    | some k1, none => some (some k1)
    | none, some k2 => some (some k2)
    | none, none => some none
  | .allExcept c => do
    let x ← parseCon c
    match x with
    | some k1 => some (some (.allExcept k1))
    | none => none
  | .except c d => do
    let x ← parseCon c
    let y ← parseCon d
    match x, y with
    | some k1, some k2 => some (some (.except k1 k2))
    | none, some k2 => some (some (.allExcept k2))
    | _, none => none
  | .root c => (parseCon c).map fun o => o.map .root
  | .root2 c d => do
    let x ← parseCon c
    let y ← parseCon d
    match x, y with
    | some k1, some k2 => some (some (.root2 k1 k2))
    | some k1, none => some (some (.root k1))
    | none, _ => none
  | .component c => (parseCon c).map fun o => o.map .component
  | .components ncs => (parseNamed ncs).map fun l => some (.components l)
/-- The constraints of a type, FrontEndAst/CreateAsn1AstFromAntlrTree.fs:556-562 (`List.choose id`). -/
def parseCons : SCs → Option SCs
  | .nil => some .nil
  | .cons c rest => do
    let x ← parseCon c
    let xs ← parseCons rest
    match x with
    | some k => some (.cons k xs)
    | none => some xs
/-- `CreateNamedConstraint`, FrontEndAst/CreateAsn1AstFromAntlrTree.fs:367-392. -/
def parseNamed : SNs → Option SNs
  | .nil => some .nil
  | .bare nm m rest => (parseNamed rest).map (.bare nm m)
  | .cons nm m c rest => do
    let x ← parseCon c
    let xs ← parseNamed rest
    match x with
    | some k => some (.cons nm m k xs)
    | none => some (.bare nm m xs)
end

/-- `intersect`, FrontEndAst/AcnCreateFromAntlr.fs:855-859. -/
def interAll (c : XC) (cs : List XC) : XC := cs.foldl .inter c

/-- `mergeConstraints`, FrontEndAst/AcnCreateFromAntlr.fs:860-866. -/
def merge1 (f : XC → XC) : List XC → List XC
  | [] => []
  | x :: xs => [f (interAll x xs)]

/-- `mergeConstraints2`, FrontEndAst/AcnCreateFromAntlr.fs:867-872. -/
def merge2 (f : XC → XC → XC) : List XC → List XC → List XC
  | [], [] => []
  | c :: cs, [] => c :: cs
  | [], d :: ds => d :: ds
  | c :: cs, d :: ds => [f (interAll c cs) (interAll d ds)]

/-- One named item for each constraint, FrontEndAst/AcnCreateFromAntlr.fs:886-889. -/
def namedAll (nm : String) (m : Mark) : List XC → XCs → XCs
  | [], rest => rest
  | c :: cs, rest => .cons nm m c (namedAll nm m cs rest)

mutual
/-- `fixConstraint`, FrontEndAst/AcnCreateFromAntlr.fs:853-903. -/
def fixCon : SC → List XC
  | .single v => [.single v]
  | .range v1 v2 i j => [.range v1 v2 i j]
  | .valMax v1 i => [.valMax v1 i]
  | .minVal v2 j => [.minVal v2 j]
  | .minMax => []
  | .includes cons => fixCons cons
  | .size c => merge1 .size (fixCon c)
  | .alphabet c => merge1 .alphabet (fixCon c)
  | .union c d => merge2 .union (fixCon c) (fixCon d)
  | .inter c d => merge2 .inter (fixCon c) (fixCon d)
  | .allExcept c => merge1 .allExcept (fixCon c)
  | .except c d => match fixCon c, fixCon d with
    | [], [] => []
    | c1, [] => c1
    | [], c2 => merge1 .allExcept c2
    | c1, c2 => merge2 .except c1 c2
  | .root c => merge1 .root (fixCon c)
  | .root2 c d => merge2 .root2 (fixCon c) (fixCon d)
  | .component c => merge1 .component (fixCon c)
  | .components ncs => [.components (fixNamed ncs)]
/-- `List.collect`. -/
def fixCons : SCs → List XC
  | .nil => []
  | .cons c rest => fixCon c ++ fixCons rest
/-- The named items, FrontEndAst/AcnCreateFromAntlr.fs:886-890. -/
def fixNamed : SNs → XCs
  | .nil => .nil
  | .bare nm m rest => .bare nm m (fixNamed rest)
  | .cons nm m c rest => namedAll nm m (fixCon c) (fixNamed rest)
end

/-- The constraints that are left of a constraint in the file. `none`: an error is raised. -/
def keptCons (s : SC) : Option (List XC) := (parseCon s).map fun o => match o with
  | none => []
  | some k => fixCon k

end Asn1
