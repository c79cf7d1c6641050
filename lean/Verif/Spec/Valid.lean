import Verif.Spec.CVal
/-!
# Conditions for C80, and the place of a violation

Nothing here mentions generated code.
-/
namespace Asn1

/-- The number of elements of a type of fixed size, which has no count in memory. -/
def CTy.fixedSize : CTy → Option Nat
  | .octets lo hi _ => if lo = hi then some lo else none
  | .bits lo hi _ => if lo = hi then some lo else none
  | .seqOf lo hi _ _ => if lo = hi then some lo else none
  | _ => none

/-- The size of the array. -/
def CTy.capacity : CTy → Nat
  | .octets _ hi _ => hi
  | .bits _ hi _ => hi
  | .str _ hi _ _ => hi
  | .seqOf _ hi _ _ => hi
  | _ => 0

/-- PRESENT or ABSENT. -/
def Mark.Strict : Mark → Prop
  | .present => True
  | .absent => True
  | _ => False

/-- The component may be absent. -/
def COpt.MayBeAbsent : COpt → Prop
  | .mandatory => False
  | _ => True

/-- Characters are octets. -/
def AlphaLeaf.Octets : AlphaLeaf → Prop
  | .chars w => ∀ ch ∈ w, ch < 256
  | _ => True

mutual
/-- The constraint says something about every value, not only about values with certain components or elements: no
WITH COMPONENT; WITH COMPONENTS begins with PRESENT or ABSENT or with mandatory components. -/
def AC.Definite : CTy → AC → Prop
  | t, .union c d => c.Definite t ∧ d.Definite t
  | t, .inter c d => c.Definite t ∧ d.Definite t
  | t, .allExcept c => c.Definite t
  | t, .except c d => c.Definite t ∧ d.Definite t
  | t, .root c => c.Definite t
  | t, .root2 c d => c.Definite t ∧ d.Definite t
  | _, .component _ => False
  | t, .components ncs => match t.actual with
    | .seq fs _ => ncs.DefiniteSeq fs
    | .choice _ _ => ncs.DefiniteChoice
    | _ => False
  | _, _ => True
/-- The same for the components of a SEQUENCE. -/
def NCs.DefiniteSeq : CFields → NCs → Prop
  | _, .nil => True
  | fs, .bare _ m rest => m.Strict ∨ rest.DefiniteSeq fs
  | fs, .cons i m c rest => m.Strict ∨
    (match fs.get i with
     | some (o, t) => ¬ o.MayBeAbsent ∧ c.Definite t
     | none => False) ∧ rest.DefiniteSeq fs
/-- The same for the alternatives of a CHOICE. -/
def NCs.DefiniteChoice : NCs → Prop
  | .nil => True
  | .bare _ m rest => m.Strict ∨ rest.DefiniteChoice
  | .cons _ m _ _ => m.Strict
end

mutual
/-- The constraint can be written for the type, and is of the kind C80 is about:
* the kind of every leaf is that of the type, components exist and PRESENT/ABSENT is only said of components that may be
  absent (the front end refuses everything else);
* literals fit the C type of an INTEGER, characters are octets, strings contain no zero, object identifiers have at
  most 20 arcs, sizes are smaller than 2^32;
* the right operand of a union is definite;
* no single values of SEQUENCE, SEQUENCE OF and CHOICE types;
* where the size is fixed, SIZE is satisfied by this size; and a reference with a SIZE of its own is of fixed size
  exactly when the C type is. -/
def AC.Fits : CTy → AC → Prop
  | t, .union c d => c.Fits t ∧ d.Fits t ∧ d.Definite t
  | t, .inter c d => c.Fits t ∧ d.Fits t
  | t, .allExcept c => c.Fits t
  | t, .except c d => c.Fits t ∧ d.Fits t
  | t, .root c => c.Fits t
  | t, .root2 c d => c.Fits t ∧ d.Fits t ∧ d.Definite t
  | t, .range l => match t.actual with
    | .int cls _ => (cls.positive = true → cls.min = 0 ∧ cls.max < 2 ^ 64) ∧ l.LitsFit cls
    | _ => False
  | t, .realRange _ => match t.actual with
    | .real _ => True
    | _ => False
  | t, .boolean _ => match t.actual with
    | .bool _ => True
    | _ => False
  | t, .item _ => match t.actual with
    | .enum _ _ => True
    | _ => False
  | t, .octetsVal _ => match t.actual with
    | .octets _ _ _ => t.actual.fixedSize = t.layout.fixedSize
    | _ => False
  | t, .bitsVal _ => match t.actual with
    | .bits _ _ _ => t.actual.fixedSize = t.layout.fixedSize
    | _ => False
  | t, .strVal w => match t.actual with
    | .str _ _ _ _ => 0#8 ∉ w
    | _ => False
  | t, .oidVal w => match t.actual with
    | .oid _ _ => w.length ≤ 20
    | _ => False
  | t, .size c => t.actual.fixedSize = t.layout.fixedSize ∧ (∀ n : Nat, t.actual.fixedSize = some n → c.Sat RLeaf.Sat (n : Int)) ∧
    t.layout.capacity < 2 ^ 32 ∧
    match t.actual with
    | .octets _ _ _ => True
    | .bits _ _ _ => True
    | .seqOf _ _ _ _ => True
    | .str _ _ _ _ => True
    | _ => False
  | t, .alphabet c => match t.actual with
    | .str _ _ _ _ => c.Leaves AlphaLeaf.Octets
    | _ => False
  | _, .value _ => False
  | t, .component c => match t.actual with
    | .seqOf _ _ e _ => t.actual.fixedSize = t.layout.fixedSize ∧ c.Fits e
    | _ => False
  | t, .components ncs => match t.actual with
    | .seq fs _ => ncs.FitsSeq fs
    | .choice alts _ => ncs.FitsChoice alts
    | _ => False
/-- The same for the components of a SEQUENCE. -/
def NCs.FitsSeq : CFields → NCs → Prop
  | _, .nil => True
  | fs, .bare i m rest => (match fs.get i with
    | some (o, _) => m.Strict → o.MayBeAbsent
    | none => False) ∧ rest.FitsSeq fs
  | fs, .cons i m c rest => (match fs.get i with
    | some (o, t) => (m.Strict → o.MayBeAbsent) ∧ c.Fits t
    | none => False) ∧ rest.FitsSeq fs
/-- The same for the alternatives of a CHOICE. -/
def NCs.FitsChoice : CAlts → NCs → Prop
  | _, .nil => True
  | alts, .bare i _ rest => (alts.get i).isSome ∧ rest.FitsChoice alts
  | alts, .cons i _ c rest => (match alts.get i with
    | some t => c.Fits t
    | none => False) ∧ rest.FitsChoice alts
end

/-- The constraints written at the type itself. -/
def CTy.ownCons : CTy → List AC
  | .int _ cons => cons
  | .bool cons => cons
  | .null => []
  | .enum _ cons => cons
  | .octets _ _ cons => cons
  | .bits _ _ cons => cons
  | .str _ _ _ cons => cons
  | .oid _ cons => cons
  | .real cons => cons
  | .seq _ cons => cons
  | .seqOf _ _ _ cons => cons
  | .choice _ cons => cons
  | .ref _ _ cons => cons

mutual
/-- All constraints in the type fit. -/
def CTy.Fits : CTy → Prop
  | .seq fs cons => fs.Fits ∧ ∀ c ∈ cons, c.Fits (.seq fs cons)
  | .seqOf lo hi t cons => t.Fits ∧ ∀ c ∈ cons, c.Fits (.seqOf lo hi t cons)
  | .choice alts cons => alts.Fits ∧ ∀ c ∈ cons, c.Fits (.choice alts cons)
  | .ref t sz cons => t.Fits ∧ ∀ c ∈ cons, c.Fits (.ref t sz cons)
  | .int cls cons => ∀ c ∈ cons, c.Fits (.int cls cons)
  | .bool cons => ∀ c ∈ cons, c.Fits (.bool cons)
  | .null => True
  | .enum items cons => ∀ c ∈ cons, c.Fits (.enum items cons)
  | .octets lo hi cons => ∀ c ∈ cons, c.Fits (.octets lo hi cons)
  | .bits lo hi cons => ∀ c ∈ cons, c.Fits (.bits lo hi cons)
  | .str lo hi a cons => ∀ c ∈ cons, c.Fits (.str lo hi a cons)
  | .oid rel cons => ∀ c ∈ cons, c.Fits (.oid rel cons)
  | .real cons => ∀ c ∈ cons, c.Fits (.real cons)
def CFields.Fits : CFields → Prop
  | .nil => True
  | .cons _ t rest => t.Fits ∧ rest.Fits
def CAlts.Fits : CAlts → Prop
  | .nil => True
  | .cons t rest => t.Fits ∧ rest.Fits
end

/-- The value violates a constraint that is written at the type itself; for an OBJECT IDENTIFIER also: it is none. -/
def CTy.OwnBad (t : CTy) (a : AV) : Prop :=
  (∃ c ∈ t.ownCons, ¬ c.Sat a) ∨ ∃ rel cons l, t = .oid rel cons ∧ a = .oid l ∧ ¬ OidArcsOk rel l

/-- The value `a` of type `t` has, at the path `q`, a part that violates the constraints written at the type of that part:
component or alternative number `i`, or some element of a SEQUENCE OF (0), or the value itself as a value of
the type that a reference refers to (0). -/
inductive CTy.BadAt : CTy → AV → List Nat → Prop
  | here {t : CTy} {a : AV} : t.OwnBad a → CTy.BadAt t a []
  | comp {fs : CFields} {cons : List AC} {l : List (Option AV)} {i : Nat} {o : COpt} {t : CTy} {x : AV} {q : List Nat} :
    fs.get i = some (o, t) → l[i]? = some (some x) → CTy.BadAt t x q → CTy.BadAt (.seq fs cons) (.seq l) (i :: q)
  | elem {lo hi : Nat} {t : CTy} {cons : List AC} {l : List AV} {x : AV} {q : List Nat} :
    x ∈ l → CTy.BadAt t x q → CTy.BadAt (.seqOf lo hi t cons) (.seqOf l) (0 :: q)
  | alt {alts : CAlts} {cons : List AC} {i : Nat} {t : CTy} {x : AV} {q : List Nat} :
    alts.get i = some t → CTy.BadAt t x q → CTy.BadAt (.choice alts cons) (.choice i x) (i :: q)
  | target {t : CTy} {sz : Option (Nat × Nat)} {cons : List AC} {a : AV} {q : List Nat} :
    CTy.BadAt t a q → CTy.BadAt (.ref t sz cons) a (0 :: q)

end Asn1

namespace Asn1

/-! ## Objects that need not denote a value -/

mutual
/-- What the C compiler guarantees and a little more: arrays have the declared size, counts are not negative, strings are
terminated. Counts may exceed the array, `kind` may be anything. Nothing is said of elements behind the count, of absent
components, and of the union when `kind` selects nothing. -/
def Shaped : CTy → CVal → Prop
  | .octets _ hi _, .octets n arr => arr.length = hi ∧ 0 ≤ n ∧ n < 2 ^ 31
  | .bits _ hi _, .bits n arr => arr.length = (hi + 7) / 8 ∧ 0 ≤ n ∧ n < 2 ^ 31
  | .seqOf lo hi t _, .seqOf n arr => arr.length = hi ∧ 0 ≤ n ∧ n < 2 ^ 31 ∧
    ∀ w ∈ (if lo = hi then arr else arr.take n.toNat), Shaped t w
  | .seq fs _, .seq l => ShapedFields fs l
  | .choice alts _, .choice k u => 0 < k → ShapedAlt alts (k.toNat - 1) u
  | .ref t _ _, v => Shaped t v
  | t, v => meaning t v ≠ none
def ShapedFields : CFields → List (Bool × CVal) → Prop
  | .nil, [] => True
  | .cons o t rest, (e, v) :: vs => ((o.MayBeAbsent → e = true) → Shaped t v) ∧ ShapedFields rest vs
  | _, _ => False
def ShapedAlt : CAlts → Nat → CVal → Prop
  | .nil, _, _ => True
  | .cons t _, 0, v => Shaped t v
  | .cons _ rest, i + 1, v => ShapedAlt rest i v
end

/-- The first constraint is a SIZE that the array can hold. -/
def BoundedBy (hi : Nat) (cons : List AC) : Prop :=
  ∃ c rest, cons = .size c :: rest ∧ ∀ n : Nat, c.Sat RLeaf.Sat (n : Int) → n ≤ hi

mutual
/-- Where the size varies, SIZE comes first; a SEQUENCE OF has no other constraint, a CHOICE none. -/
def CTy.SizeFirst : CTy → Prop
  | .octets lo hi cons => lo = hi ∨ BoundedBy hi cons
  | .bits lo hi cons => lo = hi ∨ BoundedBy hi cons
  | .seqOf lo hi t cons => (lo = hi ∧ cons = [] ∨ (lo = hi ∨ BoundedBy hi cons) ∧ ∃ c, cons = [.size c]) ∧ t.SizeFirst
  | .seq fs _ => fs.SizeFirst
  | .choice alts cons => cons = [] ∧ alts.SizeFirst
  | .ref t _ _ => t.SizeFirst
  | _ => True
def CFields.SizeFirst : CFields → Prop
  | .nil => True
  | .cons _ t rest => t.SizeFirst ∧ rest.SizeFirst
def CAlts.SizeFirst : CAlts → Prop
  | .nil => True
  | .cons t rest => t.SizeFirst ∧ rest.SizeFirst
end

end Asn1
