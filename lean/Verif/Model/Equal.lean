import Verif.Model.CVal
/-!
# The generated functions `<type>_Equal`: BackendAst/DAstEqual.fs, StgC/equal_c.stg
-/
namespace Asn1

/-- `memcmp(a, b, n) == 0` where `n` is an `int`: converted to `size_t`, a negative number is larger than any object. -/
def memEqI (a b : List Byte) (n : Int) : M Bool := if 0 ≤ n then memEq a b n.toNat else mUb

/-- `isEqual_OctetString`, StgC/equal_c.stg:124-130. -/
def eqOctets (fixed : Bool) (size : Nat) (n1 : Int) (a1 : List Byte) (n2 : Int) (a2 : List Byte) : M Bool :=
  if fixed then memEq a1 a2 size
  else if n1 = n2 then memEqI a1 a2 n1 else pure false

/-- The comparison of `n` bits in `isEqual_BitString`, StgC/equal_c.stg:112-113 and 116-117; `/` and `%` of C truncate. -/
def eqBitsN (n : Int) (a1 a2 : List Byte) : M Bool := do
  let whole ← memEqI a1 a2 (n.tdiv 8)
  if whole then
    if n.tmod 8 > 0 then do
      let x ← arrGetB a1 (n.tdiv 8)
      let y ← arrGetB a2 (n.tdiv 8)
      pure (decide (x >>> (8 - n.tmod 8).toNat = y >>> (8 - n.tmod 8).toNat))
    else pure true
  else pure false
where
  /-- `arr[i]` -/
  arrGetB (arr : List Byte) (i : Int) : M Byte := if 0 ≤ i then tblGet arr i.toNat else mUb

/-- `isEqual_BitString`, StgC/equal_c.stg:109-120. -/
def eqBits (fixed : Bool) (size : Nat) (n1 : Int) (a1 : List Byte) (n2 : Int) (a2 : List Byte) : M Bool :=
  if fixed then eqBitsN size a1 a2
  else if n1 = n2 then eqBitsN n1 a1 a2 else pure false

/-- `for(i = 0; ret && i < n; i++) { … arr[i] … }` with `ret` true at the start, StgC/equal_c.stg:177-180 and 186-189:
`n` rounds left from index `i`. -/
def eqLoop (f : CVal → CVal → M Bool) (a b : List CVal) : (n i : Nat) → M Bool
  | 0, _ => pure true
  | n + 1, i => do
    let x ← tblGet a i
    let y ← tblGet b i
    let r ← f x y
    if r then eqLoop f a b n (i + 1) else pure false

mutual
/-- `<type>_Equal`, BackendAst/DAstEqual.fs:22-350: the expression or the statements for each kind of type, with the
templates of StgC/equal_c.stg: integers, booleans and enumerated 90, strings 92, REAL 102, object identifiers 132-134,
CHOICE 138-154, SEQUENCE 156-170, SEQUENCE OF 174-191. Statements for a component run only when `ret` is true
(lines 4-13). Whether the code of a component is a call or is copied in makes no difference here. Two structures of
different types cannot be passed; the model calls that undefined. -/
def cEqual : CTy → CVal → CVal → M Bool
  | .int _ _, .int a, .int b => pure (decide (a = b))
  | .bool _, .bool a, .bool b => pure (decide (a = b))
  | .null, .null, .null => pure true
  | .enum _ _, .enum a, .enum b => pure (decide (a = b))
  | .octets lo hi _, .octets n1 a1, .octets n2 a2 => eqOctets (decide (lo = hi)) hi n1 a1 n2 a2
  | .bits lo hi _, .bits n1 a1, .bits n2 a2 => eqBits (decide (lo = hi)) hi n1 a1 n2 a2
  | .str _ _ _ _, .str a, .str b => cStrEq a b
  | .oid _ _, .oid a, .oid b => oidEqual a b
  | .real _, .real a, .real b => pure (asn1RealEqual a b)
  | .seq fs _, .seq a, .seq b => cEqualFields fs a b
  | .seqOf lo hi t _, .seqOf n1 a, .seqOf n2 b =>
    if lo = hi then eqLoop (cEqual t) a b lo 0
    else if n1 = n2 then eqLoop (cEqual t) a b n1.toNat 0 else pure false
  | .choice alts _, .choice k1 a, .choice k2 b =>
    if k1 = k2 then (if 0 < k1 then cEqualAlts alts (k1.toNat - 1) a b else pure false) else pure false
  | .ref t _ _, a, b => cEqual t a b
  | _, _, _ => mUb
/-- `isEqual_Sequence_child` for one component after the other, StgC/equal_c.stg:156-170. -/
def cEqualFields : CFields → List (Bool × CVal) → List (Bool × CVal) → M Bool
  | .nil, [], [] => pure true
  | .cons o t rest, (e1, a) :: as, (e2, b) :: bs => do
    let r ← (match o with
      | .mandatory => cEqual t a b
      | _ => if e1 = e2 then (if e1 then cEqual t a b else pure true) else pure false)
    if r then cEqualFields rest as bs else pure false
  | _, _, _ => mUb
/-- The `switch` over the alternatives, StgC/equal_c.stg:147-152. -/
def cEqualAlts : CAlts → Nat → CVal → CVal → M Bool
  | .nil, _, _, _ => pure false
  | .cons t _, 0, a, b => cEqual t a b
  | .cons _ rest, i + 1, a, b => cEqualAlts rest i a b
end

end Asn1
