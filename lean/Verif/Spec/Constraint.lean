import Verif.Model.Constraint
import Verif.Spec.Uper
/-!
# The meaning of constraints

A constraint denotes a set of values. This file mentions only the abstract syntax of constraints, no computation of
the compiler.
-/
namespace Asn1

/-- The value `v` is in the set that the constraint denotes, given the meaning of the leaves. Of an extensible
constraint, the values of the root and the listed additions count. -/
def Con.Sat {L V : Type} (leaf : L → V → Prop) : Con L → V → Prop
  | .union c d, v => c.Sat leaf v ∨ d.Sat leaf v
  | .inter c d, v => c.Sat leaf v ∧ d.Sat leaf v
  | .allExcept c, v => ¬ c.Sat leaf v
  | .except c d, v => c.Sat leaf v ∧ ¬ d.Sat leaf v
  | .root c, v => c.Sat leaf v
  | .root2 c d, v => c.Sat leaf v ∨ d.Sat leaf v
  | .leaf l, v => leaf l v

/-- `v1..v2`, `v1<..v2`, `MIN..v2` and so on. -/
def RLeaf.Sat : RLeaf → Int → Prop
  | .single w, v => v = w
  | .range v1 v2 i j, v => (if i then v1 ≤ v else v1 < v) ∧ (if j then v ≤ v2 else v < v2)
  | .valMax v1 i, v => if i then v1 ≤ v else v1 < v
  | .minVal v2 j, v => if j then v ≤ v2 else v < v2

/-- An integer satisfies all constraints of a type. -/
def IntSat (cons : List (Con RLeaf)) (v : Int) : Prop := ∀ c ∈ cons, c.Sat RLeaf.Sat v

/-- The leaves of the constraints of a sizeable type. -/
def SizeLeaf.Sat {V : Type} (len : V → Nat) : SizeLeaf V → V → Prop
  | .single w, v => v = w
  | .size c, v => c.Sat RLeaf.Sat (len v : Int)
  | .component p, v => p v = true

/-- A value of a sizeable type satisfies all constraints of the type. -/
def SizeSat {V : Type} (len : V → Nat) (cons : List (Con (SizeLeaf V))) (v : V) : Prop :=
  ∀ c ∈ cons, c.Sat (SizeLeaf.Sat len) v

/-- A character is in the set that a leaf of FROM denotes. -/
def AlphaLeaf.Sat : AlphaLeaf → Nat → Prop
  | .chars s, ch => ch ∈ s
  | .range v1 v2 i j, ch => (if i then v1 ≤ ch else v1 < ch) ∧ (if j then ch ≤ v2 else ch < v2)
  | .valMax v1 i, ch => if i then v1 ≤ ch else v1 < ch
  | .minVal v2 j, ch => if j then ch ≤ v2 else ch < v2

/-- A string is in the set that a leaf denotes. `FROM` holds when it holds for every character. -/
def StrLeaf.Sat : StrLeaf → List Nat → Prop
  | .single w, s => s = w
  | .size c, s => c.Sat RLeaf.Sat (s.length : Int)
  | .alphabet c, s => ∀ ch ∈ s, c.Sat AlphaLeaf.Sat ch

/-- A string satisfies all constraints of a type. -/
def StrSat (cons : List (Con StrLeaf)) (s : List Nat) : Prop := ∀ c ∈ cons, c.Sat StrLeaf.Sat s

/-- Every leaf of a constraint satisfies `P`. -/
def Con.Leaves {L : Type} (P : L → Prop) : Con L → Prop
  | .union c d => c.Leaves P ∧ d.Leaves P
  | .inter c d => c.Leaves P ∧ d.Leaves P
  | .allExcept c => c.Leaves P
  | .except c d => c.Leaves P ∧ d.Leaves P
  | .root c => c.Leaves P
  | .root2 c d => c.Leaves P ∧ d.Leaves P
  | .leaf l => P l

/-- Not a range `MIN..v`. -/
def RLeaf.NotMin : RLeaf → Prop
  | .minVal _ _ => False
  | _ => True

/-- No range `MIN..v` occurs below an intersection; `inLeaf` says the same of what is inside a leaf. -/
def Con.NoMinInter {L : Type} (inLeaf notMin : L → Prop) : Con L → Prop
  | .union c d => c.NoMinInter inLeaf notMin ∧ d.NoMinInter inLeaf notMin
  | .inter c d => c.Leaves notMin ∧ d.Leaves notMin
  | .allExcept _ => True
  | .except c _ => c.NoMinInter inLeaf notMin
  | .root _ => True
  | .root2 _ _ => True
  | .leaf l => inLeaf l

/-- No range `MIN..v` occurs in a constraint that is intersected with another one, by `^` or by being applied in
series. -/
def SerialNoMin {L : Type} (inLeaf notMin : L → Prop) (cons : List (Con L)) : Prop :=
  (∃ c, cons = [c] ∧ c.NoMinInter inLeaf notMin) ∨ (∀ c ∈ cons, c.Leaves notMin)

/-- The same for the leaves of sizeable types and of strings: inside of SIZE. -/
def SizeLeaf.NotMin {V : Type} : SizeLeaf V → Prop
  | .size c => c.Leaves RLeaf.NotMin
  | _ => True

def SizeLeaf.NoMinInter {V : Type} : SizeLeaf V → Prop
  | .size c => c.NoMinInter (fun _ => True) RLeaf.NotMin
  | _ => True

def StrLeaf.NotMin : StrLeaf → Prop
  | .size c => c.Leaves RLeaf.NotMin
  | _ => True

def StrLeaf.NoMinInter : StrLeaf → Prop
  | .size c => c.NoMinInter (fun _ => True) RLeaf.NotMin
  | _ => True

/-- Both bounds of a SIZE constraint are 32 bit numbers. -/
def RLeaf.U32 : RLeaf → Prop
  | .single v => 0 ≤ v ∧ v < 2 ^ 32
  | .range v1 v2 _ _ => (0 ≤ v1 ∧ v1 < 2 ^ 32) ∧ (0 ≤ v2 ∧ v2 < 2 ^ 32)
  | .valMax v _ => 0 ≤ v ∧ v < 2 ^ 32
  | .minVal v _ => 0 ≤ v ∧ v < 2 ^ 32

def SizeLeaf.U32 {V : Type} : SizeLeaf V → Prop
  | .size c => c.Leaves RLeaf.U32
  | _ => True

def StrLeaf.U32 : StrLeaf → Prop
  | .size c => c.Leaves RLeaf.U32
  | _ => True

/-- The literals of a constraint that the generated test compares an unsigned variable with are unsigned 64 bit
numbers. A lower end below zero is not printed, an upper end above the C type neither. -/
def RLeaf.LitsFit (cls : IntClass) : RLeaf → Prop
  | .single v => cls.positive = true → 0 ≤ v ∧ v < 2 ^ 64
  | .range v1 v2 _ _ => cls.positive = true → v1 < 2 ^ 64 ∧ 0 ≤ v2
  | .valMax v1 _ => cls.positive = true → v1 < 2 ^ 64
  | .minVal v2 _ => cls.positive = true → 0 ≤ v2

end Asn1
