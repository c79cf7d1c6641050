import Verif.Model.CVal
import Verif.Spec.Bits
import Verif.Spec.Constraint
/-!
# What an object of a generated C type denotes, and what the constraints of a type demand

Nothing here mentions generated code.
-/
namespace Asn1

/-! ## The value in memory -/

/-- The first `n` elements, when `n` is a possible count. -/
def counted {α : Type} (n : Int) (max : Nat) (l : List α) : Option (List α) :=
  if 0 ≤ n ∧ n ≤ max then some (l.take n.toNat) else none

/-- The characters before the first zero, all of them ASCII. -/
def cString (arr : List Byte) : Option (List Byte) :=
  if 0#8 ∈ arr ∧ ∀ c ∈ arr.takeWhile (· ≠ 0#8), c.toNat < 128 then some (arr.takeWhile (· ≠ 0#8)) else none

mutual
/-- The ASN.1 value that an object of the type denotes; `none` when it denotes none: the arrays do not have the declared
size, the count is negative or exceeds the array, a string has no terminating zero, `kind` is none of the alternatives.
A component that is absent has no value, also when the type declares a default. Array elements behind the count, the
content of absent components and unused bits do not matter. -/
def meaning : CTy → CVal → Option AV
  | .int cls _, .int v => if cls.min ≤ v ∧ v ≤ cls.max then some (.int v) else none
  | .bool _, .bool b => some (.bool b)
  | .null, .null => some .null
  | .enum items _, .enum v => if v ∈ items then some (.enum v) else none
  | .octets lo hi _, .octets n arr =>
    if arr.length = hi then (if lo = hi then some arr else counted n hi arr).map .octets else none
  | .bits lo hi _, .bits n arr =>
    if arr.length = (hi + 7) / 8 then
      (if lo = hi then some ((bytesBits arr).take hi) else counted n hi (bytesBits arr)).map .bits
    else none
  | .str _ hi _ _, .str arr => if arr.length = hi + 1 then (cString arr).map .str else none
  | .oid _ _, .oid o =>
    if o.values.length = 20 ∧ o.nCount ≤ 20 then some (.oid (o.values.take o.nCount)) else none
  | .real _, .real d => some (.real d)
  | .seq fs _, .seq l => (meaningFields fs l).map .seq
  | .seqOf lo hi t _, .seqOf n arr =>
    if arr.length = hi then
      ((if lo = hi then some arr else counted n hi arr).bind fun l => l.mapM (meaning t)).map .seqOf
    else none
  | .choice alts _, .choice k u => if 0 < k then (meaningAlt alts (k.toNat - 1) u).map (.choice (k.toNat - 1)) else none
  | .ref t _ _, v => meaning t v
  | _, _ => none
/-- The components. -/
def meaningFields : CFields → List (Bool × CVal) → Option (List (Option AV))
  | .nil, [] => some []
  | .cons o t rest, (e, v) :: vs =>
    match o, e with
    | .mandatory, _ => do
      let x ← meaning t v
      let xs ← meaningFields rest vs
      some (some x :: xs)
    | _, true => do
      let x ← meaning t v
      let xs ← meaningFields rest vs
      some (some x :: xs)
    | _, false => do
      let xs ← meaningFields rest vs
      some (none :: xs)
  | _, _ => none
/-- The chosen alternative. -/
def meaningAlt : CAlts → Nat → CVal → Option AV
  | .nil, _, _ => none
  | .cons t _, 0, v => meaning t v
  | .cons _ rest, i + 1, v => meaningAlt rest i v
end

mutual
/-- The value with the declared defaults filled in for absent components: what X.680 regards as the value. -/
def fill : CTy → AV → AV
  | .seq fs _, .seq l => .seq (fillFields fs l)
  | .seqOf _ _ t _, .seqOf l => .seqOf (l.map (fill t))
  | .choice alts _, .choice i v => .choice i (fillAlt alts i v)
  | .ref t _ _, v => fill t v
  | _, v => v
/-- The components. -/
def fillFields : CFields → List (Option AV) → List (Option AV)
  | .cons _ t rest, some v :: vs => some (fill t v) :: fillFields rest vs
  | .cons (.default d) _ rest, none :: vs => some d :: fillFields rest vs
  | .cons _ _ rest, none :: vs => none :: fillFields rest vs
  | _, l => l
/-- The chosen alternative. -/
def fillAlt : CAlts → Nat → AV → AV
  | .nil, _, v => v
  | .cons t _, 0, v => fill t v
  | .cons _ rest, i + 1, v => fillAlt rest i v
end

mutual
/-- REAL does not occur in the type. -/
def CTy.noReal : CTy → Bool
  | .real _ => false
  | .seq fs _ => fs.noReal
  | .seqOf _ _ t _ => t.noReal
  | .choice alts _ => alts.noReal
  | .ref t _ _ => t.noReal
  | _ => true
def CFields.noReal : CFields → Bool
  | .nil => true
  | .cons _ t rest => t.noReal && rest.noReal
def CAlts.noReal : CAlts → Bool
  | .nil => true
  | .cons t rest => t.noReal && rest.noReal
end

/-! ## Satisfaction of constraints -/

/-- The ranges of a REAL constraint, with the comparisons of IEEE 754. -/
def RealLeaf.Sat : RealLeaf → Dbl → Prop
  | .single w, d => dblEq d w = true
  | .range v1 v2 i j, d =>
    (if i then dblLe v1 d = true else dblLt v1 d = true) ∧ (if j then dblLe d v2 = true else dblLt d v2 = true)
  | .valMax v1 i, d => if i then dblLe v1 d = true else dblLt v1 d = true
  | .minVal v2 j, d => if j then dblLe d v2 = true else dblLt d v2 = true

/-- The number that SIZE is about. -/
def AV.size : AV → Option Nat
  | .octets l => some l.length
  | .bits l => some l.length
  | .str l => some l.length
  | .seqOf l => some l.length
  | _ => none

/-- Component or alternative number `i`, when it is present or chosen. -/
def AV.part : AV → Nat → Option AV
  | .seq l, i => (l[i]?).join
  | .choice k v, i => if k = i then some v else none
  | _, _ => none

/-- PRESENT and ABSENT. -/
def Mark.Sat : Mark → Option AV → Prop
  | .present, a => a ≠ none
  | .absent, a => a = none
  | _, _ => True

mutual
/-- The value is in the set that the constraint denotes. -/
def AC.Sat : AC → AV → Prop
  | .union c d, a => c.Sat a ∨ d.Sat a
  | .inter c d, a => c.Sat a ∧ d.Sat a
  | .allExcept c, a => ¬ c.Sat a
  | .except c d, a => c.Sat a ∧ ¬ d.Sat a
  | .root c, a => c.Sat a
  | .root2 c d, a => c.Sat a ∨ d.Sat a
  | .range l, a => ∃ v, a = .int v ∧ l.Sat v
  | .realRange l, a => ∃ d, a = .real d ∧ l.Sat d
  | .boolean b, a => a = .bool b
  | .item v, a => a = .enum v
  | .octetsVal v, a => a = .octets v
  | .bitsVal v, a => a = .bits v
  | .strVal v, a => a = .str v
  | .oidVal v, a => a = .oid v
  | .size c, a => ∃ n : Nat, a.size = some n ∧ c.Sat RLeaf.Sat (n : Int)
  | .alphabet c, a => ∃ l, a = .str l ∧ ∀ ch ∈ l, c.Sat AlphaLeaf.Sat ch.toNat
  | .value w, a => a = w
  | .component c, a => ∃ l, a = .seqOf l ∧ ∀ x ∈ l, c.Sat x
  | .components ncs, a => ncs.Sat a
/-- WITH COMPONENTS: all marks hold, and the parts that are there satisfy their constraints. -/
def NCs.Sat : NCs → AV → Prop
  | .nil, _ => True
  | .bare i m rest, a => m.Sat (a.part i) ∧ rest.Sat a
  | .cons i m c rest, a => m.Sat (a.part i) ∧ (∀ x, a.part i = some x → c.Sat x) ∧ rest.Sat a
end

/-- What `asn1crt` regards as an object identifier: two arcs at least, the first at most 2, the second at most 39;
a relative one has an arc. -/
def OidArcsOk (relative : Bool) (l : List U64) : Prop :=
  if relative then l ≠ [] else ∃ a b rest, l = a :: b :: rest ∧ a.toNat ≤ 2 ∧ b.toNat ≤ 39

mutual
/-- The value satisfies all constraints of the type, of its components, and of the types it refers to. -/
def CTy.Sat : CTy → AV → Prop
  | .oid rel cons, a => (∃ l, a = .oid l ∧ OidArcsOk rel l) ∧ ∀ c ∈ cons, c.Sat a
  | .seq fs cons, a => (∃ l, a = .seq l ∧ fs.Sat l) ∧ ∀ c ∈ cons, c.Sat a
  | .seqOf _ _ t cons, a => (∀ c ∈ cons, c.Sat a) ∧ ∃ l, a = .seqOf l ∧ ∀ x ∈ l, t.Sat x
  | .choice alts cons, a => (∀ c ∈ cons, c.Sat a) ∧ ∃ i v, a = .choice i v ∧ alts.Sat i v
  | .ref t _ cons, a => t.Sat a ∧ ∀ c ∈ cons, c.Sat a
  | .int _ cons, a => ∀ c ∈ cons, c.Sat a
  | .bool cons, a => ∀ c ∈ cons, c.Sat a
  | .null, _ => True
  | .enum _ cons, a => ∀ c ∈ cons, c.Sat a
  | .octets _ _ cons, a => ∀ c ∈ cons, c.Sat a
  | .bits _ _ cons, a => ∀ c ∈ cons, c.Sat a
  | .str _ _ _ cons, a => ∀ c ∈ cons, c.Sat a
  | .real cons, a => ∀ c ∈ cons, c.Sat a
/-- Every component that is present satisfies the constraints of its type. -/
def CFields.Sat : CFields → List (Option AV) → Prop
  | .nil, _ => True
  | .cons _ t rest, some x :: xs => t.Sat x ∧ rest.Sat xs
  | .cons _ _ rest, none :: xs => rest.Sat xs
  | .cons _ _ _, [] => False
/-- The chosen alternative satisfies the constraints of its type. -/
def CAlts.Sat : CAlts → Nat → AV → Prop
  | .nil, _, _ => False
  | .cons t _, 0, v => t.Sat v
  | .cons _ rest, i + 1, v => rest.Sat i v
end

end Asn1

namespace Asn1

/-! ## Equality of values, up to a relation between REAL numbers -/

mutual
/-- Two values of a type are the same when real numbers are compared by `R`. -/
def SameBy (R : Dbl → Dbl → Prop) : CTy → AV → AV → Prop
  | .real _, .real a, .real b => R a b
  | .seq fs _, .seq l, .seq m => SameByFields R fs l m
  | .seqOf _ _ t _, .seqOf l, .seqOf m => List.Forall₂ (SameBy R t) l m
  | .choice alts _, .choice i v, .choice j w => i = j ∧ SameByAlt R alts i v w
  | .ref t _ _, x, y => SameBy R t x y
  | _, x, y => x = y
/-- The same components are present, and they are the same. -/
def SameByFields (R : Dbl → Dbl → Prop) : CFields → List (Option AV) → List (Option AV) → Prop
  | .cons _ t rest, some x :: xs, some y :: ys => SameBy R t x y ∧ SameByFields R rest xs ys
  | .cons _ _ rest, none :: xs, none :: ys => SameByFields R rest xs ys
  | .nil, [], [] => True
  | _, _, _ => False
/-- Alternative number `i`. -/
def SameByAlt (R : Dbl → Dbl → Prop) : CAlts → Nat → AV → AV → Prop
  | .nil, _, _, _ => False
  | .cons t _, 0, x, y => SameBy R t x y
  | .cons _ rest, i + 1, x, y => SameByAlt R rest i x y
end

end Asn1
