import Verif.Model.Oid
/-!
# Types and values

The abstract syntax that the model of the generated code and the specification of its wire format share.
-/
namespace Asn1

/-- `uperRange<BigInteger>`, CommonTypes/CommonTypes.fs:960-964. -/
inductive Rng where
  | full
  | posInf (a : Int)
  | negInf (b : Int)
  | concrete (a b : Int)
deriving DecidableEq

/-- `isUnsigned`, FrontEndAst/uPER.fs:255-262. -/
def Rng.unsigned : Rng → Bool
  | .concrete a _ => decide (a ≥ 0)
  | .posInf a => decide (a ≥ 0)
  | _ => false

/-- The range check of an INTEGER. Simplification: the constraint is the range itself. -/
def Rng.holds (r : Rng) (v : Int) : Bool :=
  match r with
  | .full => true
  | .posInf a => decide (a ≤ v)
  | .negInf b => decide (v ≤ b)
  | .concrete a b => decide (a ≤ v ∧ v ≤ b)

/-- A value as the generated C structures hold it.
`real d`: the bits of the double. `bits n arr`: `nCount` and `arr` of a BIT STRING. `str`: the characters before the terminating zero. `seq`: for
each component its `exist` flag (true for a mandatory one) and its content. `choice i v`: alternative number `i`. -/
inductive Val where
  | int (v : Int)
  | bool (b : Bool)
  | null
  | enum (v : Int)
  | octets (arr : List Byte)
  | bits (n : Nat) (arr : List Byte)
  | str (chars : List Byte)
  | oid (o : Oid)
  | real (d : BitVec 64)
  | seq (fs : List (Bool × Val))
  | seqOf (vs : List Val)
  | choice (i : Nat) (v : Val)

/-- Optionality of a component, `Asn1Optionality` in FrontEndAst/Asn1AcnAst.fs: mandatory, OPTIONAL, DEFAULT,
and the two markings of WITH COMPONENTS. -/
inductive Opt where
  | mandatory
  | optional
  | default (d : Val)
  | absent
  | present

mutual
/-- A type, as far as the uPER back end looks at it. -/
inductive Ty where
  /-- INTEGER with the range `r`, held in a C integer of `w` bits. -/
  | int (w : Nat) (r : Rng)
  /-- INTEGER with an extensible constraint: the range of the root, the root constraint as a test, and, for
  `(root, ..., more)`, the test of the additional values. Simplification: the C integer has 64 bits. -/
  | intExt (root : Rng) (inRoot : Int → Bool) (more : Option (Int → Bool))
  | bool
  | null
  /-- All items in the order of the declaration and the items the constraints allow. When the compiler was told to
  search in a table instead of emitting a `switch` (`-eee`): the items that the constraints allow in the type
  assignment the table is emitted for (StgC/header_c.stg:150, 162). -/
  | enum (items valid : List Int) (table : Option (List Int))
  | octets (lo hi : Nat)
  /-- `lo hi`: the effective size constraint; `alo ahi`: the size constraint after WITH COMPONENTS. -/
  | bits (lo hi alo ahi : Nat)
  | str (alphabet : List Byte) (lo hi : Nat)
  | oid
  | relOid
  /-- REAL, held in a `double`, with its constraint as a test (the generated check compares doubles). -/
  | real (holds : BitVec 64 → Bool)
  | seq (fs : Fields)
  | seqOf (lo hi : Nat) (elem : Ty)
  | choice (alts : Alts)
  /-- A reference to a type assignment with a function of its own. -/
  | ref (t : Ty)
inductive Fields where
  | nil
  | cons (o : Opt) (t : Ty) (rest : Fields)
inductive Alts where
  | nil
  | cons (t : Ty) (rest : Alts)
end

/-- Number of alternatives. -/
def Alts.length : Alts → Nat
  | .nil => 0
  | .cons _ r => r.length + 1

end Asn1
