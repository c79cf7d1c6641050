import Verif.Model.Compile
import Verif.Spec.Notation
import Verif.Spec.Object
/-!
# Conditions for C100, in terms of the ASN.1 text
-/
namespace Asn1

/-! ## Values -/

mutual
/-- A SEQUENCE has an entry (present or absent) for each component, and an OBJECT IDENTIFIER has two arcs at least, the
first at most 2 and the second at most 39. -/
def NTy.Formed : NTy → AV → Prop
  | .oid _, a => ∃ l, a = .oid l ∧ OidArcsOk false l
  | .seq fs _, a => ∀ l, a = .seq l → fs.Formed l
  | .seqOf t _, a => ∀ l, a = .seqOf l → ∀ x ∈ l, t.Formed x
  | .choice alts _, a => ∀ i v, a = .choice i v → alts.Formed i v
  | .ref _ _ t _, a => t.Formed a
  | _, _ => True
def NFields.Formed : NFields → List (Option AV) → Prop
  | .nil, _ => True
  | .cons _ _ _ _, [] => False
  | .cons _ _ t rest, x :: xs => (∀ y, x = some y → t.Formed y) ∧ rest.Formed xs
def NAlts.Formed : NAlts → Nat → AV → Prop
  | .nil, _, _ => True
  | .cons _ t _, 0, v => t.Formed v
  | .cons _ _ rest, i + 1, v => rest.Formed i v
end

mutual
/-- The second half of it: an OBJECT IDENTIFIER has two arcs at least, the first at most 2 and the second at most 39. -/
def NTy.Arcs : NTy → AV → Prop
  | .oid _, a => ∀ l, a = .oid l → OidArcsOk false l
  | .seq fs _, a => ∀ l, a = .seq l → fs.Arcs l
  | .seqOf t _, a => ∀ l, a = .seqOf l → ∀ x ∈ l, t.Arcs x
  | .choice alts _, a => ∀ i v, a = .choice i v → alts.Arcs i v
  | .ref _ _ t _, a => t.Arcs a
  | _, _ => True
def NFields.Arcs : NFields → List (Option AV) → Prop
  | .cons _ _ t rest, x :: xs => (∀ y, x = some y → t.Arcs y) ∧ rest.Arcs xs
  | _, _ => True
def NAlts.Arcs : NAlts → Nat → AV → Prop
  | .nil, _, _ => True
  | .cons _ t _, 0, v => t.Arcs v
  | .cons _ _ rest, i + 1, v => rest.Arcs i v
end

mutual
/-- What neither the constraints nor the check promise: in an INTEGER without upper or lower bound a number that the runtime can
handle, a REAL that the encoding can hold. `ex`: the constraints of the references that lead here. -/
def HeldIn (ex : List AC) : CTy → AV → Prop
  | .int _ cons, .int v => ∀ r, intRangeOf (cons ++ ex) = some r → r.holds64 false v
  | .real _, .real d => RealHeld d
  | .seq fs _, .seq l => HeldFields fs l
  | .seqOf _ _ t _, .seqOf l => ∀ x ∈ l, HeldIn [] t x
  | .choice alts _, .choice i v => HeldAlt alts i v
  | .ref t _ cons, a => HeldIn (cons ++ ex) t a
  | _, _ => True
def HeldFields : CFields → List (Option AV) → Prop
  | .cons _ t rest, x :: xs => (∀ y, x = some y → HeldIn [] t y) ∧ HeldFields rest xs
  | _, _ => True
def HeldAlt : CAlts → Nat → AV → Prop
  | .nil, _, _ => True
  | .cons t _, 0, v => HeldIn [] t v
  | .cons _ rest, i + 1, v => HeldAlt rest i v
end

/-- What neither the constraints nor the check promise. -/
def Held (t : CTy) (a : AV) : Prop := HeldIn [] t a

mutual
/-- No reference gives a fixed size to a type of variable size, nor the other way round: otherwise the decoder does not store the count (C94).
`sz`: the effective size from the references that lead here. -/
def CTy.CountedIn (sz : Option (Nat × Nat)) : CTy → Prop
  | .octets lo hi _ => effLo sz lo = effHi sz hi ↔ lo = hi
  | .bits lo hi _ => effLo sz lo = effHi sz hi ↔ lo = hi
  | .seqOf lo hi t _ => (effLo sz lo = effHi sz hi ↔ lo = hi) ∧ t.CountedIn none
  | .seq fs _ => fs.Counted
  | .choice alts _ => alts.Counted
  | .ref t size _ => t.CountedIn (sz.or size)
  | _ => True
def CFields.Counted : CFields → Prop
  | .nil => True
  | .cons _ t rest => t.CountedIn none ∧ rest.Counted
def CAlts.Counted : CAlts → Prop
  | .nil => True
  | .cons t rest => t.CountedIn none ∧ rest.Counted
end

/-- No reference gives a fixed size to a type of variable size. -/
def CTy.Counted (t : CTy) : Prop := t.CountedIn none

mutual
/-- The value is one of the type before constraints, and within what C objects can hold: a number of 64 bits (unsigned if the effective range of
the type has no negative numbers), characters of ASCII other than 0, up to 20 arcs. Mandatory components are there. -/
def NTy.Has : NTy → AV → Prop
  | .int cs, a => ∃ v, a = .int v ∧ (-(2 ^ 63) ≤ v ∧ v < 2 ^ 63 ∨
    v < 2 ^ 64 ∧ ∃ acs r, mapAll (.int cs) cs = some acs ∧ intRangeOf acs = some r ∧ r.unsigned = true)
  | .real _, a => ∃ d, a = .real d
  | .bool _, a => ∃ b, a = .bool b
  | .null _, a => a = .null
  | .enum items _, a => ∃ v, a = .enum v ∧ ∃ p ∈ items, p.2 = v
  | .octets _, a => ∃ l, a = .octets l
  | .bits _, a => ∃ l, a = .bits l
  | .str _, a => ∃ l, a = .str l ∧ ∀ c ∈ l, c ≠ 0#8 ∧ c.toNat < 128
  | .oid _, a => ∃ l, a = .oid l ∧ l.length ≤ 20
  | .seq fs _, a => ∃ l, a = .seq l ∧ fs.Has l
  | .seqOf t _, a => ∃ l, a = .seqOf l ∧ ∀ x ∈ l, t.Has x
  | .choice alts _, a => ∃ i v, a = .choice i v ∧ alts.Has i v
  | .ref _ _ t _, a => t.Has a
def NFields.Has : NFields → List (Option AV) → Prop
  | .nil, l => l = []
  | .cons _ _ _ _, [] => False
  | .cons _ o t rest, x :: xs => (x = none → o ≠ .mandatory) ∧ (∀ y, x = some y → t.Has y) ∧ rest.Has xs
def NAlts.Has : NAlts → Nat → AV → Prop
  | .nil, _, _ => False
  | .cons _ t _, 0, v => t.Has v
  | .cons _ _ rest, i + 1, v => rest.Has i v
end

/-! ## Types -/

mutual
/-- The single values in all constraints of the type are values of the type they are written for. -/
def NTy.Valued : NTy → Prop
  | .ref md tas t cons => t.Valued ∧ ∀ c ∈ cons, c.Valued (.ref md tas t cons)
  | .seq fs cons => (∀ c ∈ cons, c.Valued (.seq fs cons)) ∧ fs.Valued
  | .seqOf t cons => (∀ c ∈ cons, c.Valued (.seqOf t cons)) ∧ t.Valued
  | .choice alts cons => (∀ c ∈ cons, c.Valued (.choice alts cons)) ∧ alts.Valued
  | .int cons => ∀ c ∈ cons, c.Valued (.int cons)
  | .real cons => ∀ c ∈ cons, c.Valued (.real cons)
  | .bool cons => ∀ c ∈ cons, c.Valued (.bool cons)
  | .null cons => ∀ c ∈ cons, c.Valued (.null cons)
  | .enum items cons => ∀ c ∈ cons, c.Valued (.enum items cons)
  | .octets cons => ∀ c ∈ cons, c.Valued (.octets cons)
  | .bits cons => ∀ c ∈ cons, c.Valued (.bits cons)
  | .str cons => ∀ c ∈ cons, c.Valued (.str cons)
  | .oid cons => ∀ c ∈ cons, c.Valued (.oid cons)
def NFields.Valued : NFields → Prop
  | .nil => True
  | .cons _ _ t rest => t.Valued ∧ rest.Valued
def NAlts.Valued : NAlts → Prop
  | .nil => True
  | .cons _ t rest => t.Valued ∧ rest.Valued
end

/-- Every part of a constraint that is no set operation satisfies `P`. -/
def XC.Leaves (P : XC → Prop) : XC → Prop
  | .union c d => c.Leaves P ∧ d.Leaves P
  | .inter c d => c.Leaves P ∧ d.Leaves P
  | .allExcept c => c.Leaves P
  | .except c d => c.Leaves P ∧ d.Leaves P
  | .root c => c.Leaves P
  | .root2 c d => c.Leaves P ∧ d.Leaves P
  | c => P c

/-- Not a range `MIN..v`. -/
def XC.NotMin : XC → Prop
  | .minVal _ _ => False
  | _ => True

/-- No `SIZE(MIN..v)`. -/
def XC.SizeNotMin : XC → Prop
  | .size c => c.Leaves XC.NotMin
  | _ => True

/-- No range `MIN..v` occurs below an intersection; `inLeaf` says the same of what is inside a leaf. -/
def XC.NoMinInter (inLeaf notMin : XC → Prop) : XC → Prop
  | .union c d => c.NoMinInter inLeaf notMin ∧ d.NoMinInter inLeaf notMin
  | .inter c d => c.Leaves notMin ∧ d.Leaves notMin
  | .allExcept _ => True
  | .except c _ => c.NoMinInter inLeaf notMin
  | .root _ => True
  | .root2 _ _ => True
  | c => inLeaf c

/-- The same inside SIZE. -/
def XC.SizeNoMinInter : XC → Prop
  | .size c => c.NoMinInter (fun _ => True) XC.NotMin
  | _ => True

/-- No range `MIN..v` occurs in a constraint that is intersected with another one, by `^` or by being applied in series. -/
def XC.SerialNoMin (inLeaf notMin : XC → Prop) (cs : List XC) : Prop :=
  (∃ c, cs = [c] ∧ c.NoMinInter inLeaf notMin) ∨ ∀ c ∈ cs, c.Leaves notMin

/-- No extension marker outside of SIZE, FROM, WITH COMPONENT and WITH COMPONENTS. -/
def XC.NoMarker : XC → Prop
  | .union c d => c.NoMarker ∧ d.NoMarker
  | .inter c d => c.NoMarker ∧ d.NoMarker
  | .allExcept c => c.NoMarker
  | .except c d => c.NoMarker ∧ d.NoMarker
  | .root _ => False
  | .root2 _ _ => False
  | _ => True

/-- Not WITH COMPONENT. -/
def XC.notComponent : XC → Bool
  | .component _ => false
  | _ => true

/-- The component is mandatory, OPTIONAL or has a DEFAULT. -/
def NOpt.Written : NOpt → Prop
  | .absent => False
  | .present => False
  | _ => True

mutual
/-- No range `MIN..v` is intersected with another constraint (C33 says what happens otherwise), no extension markers in the
constraints of ENUMERATED and REAL types, references to SEQUENCE and CHOICE types have no constraints of their own, references to SEQUENCE OF types
have no WITH COMPONENT. `ex`: the constraints of the references that lead here. -/
def NTy.OrdinaryIn (ex : List XC) : NTy → Prop
  | .int cs => XC.SerialNoMin (fun _ => True) XC.NotMin (cs ++ ex)
  | .real cs => ∀ c ∈ cs ++ ex, c.NoMarker
  | .enum _ cs => ∀ c ∈ cs ++ ex, c.NoMarker
  | .octets cs => XC.SerialNoMin XC.SizeNoMinInter XC.SizeNotMin (cs ++ ex)
  | .bits cs => XC.SerialNoMin XC.SizeNoMinInter XC.SizeNotMin (cs ++ ex)
  | .str cs => XC.SerialNoMin XC.SizeNoMinInter XC.SizeNotMin (cs ++ ex)
  | .seq fs _ => ex = [] ∧ fs.Ordinary
  | .seqOf t cs => XC.SerialNoMin XC.SizeNoMinInter XC.SizeNotMin (cs.filter XC.notComponent ++ ex) ∧ (∀ c ∈ ex, c.notComponent = true) ∧ t.OrdinaryIn []
  | .choice alts _ => ex = [] ∧ alts.Ordinary
  | .ref _ _ t cs => t.OrdinaryIn (cs ++ ex)
  | _ => True
def NFields.Ordinary : NFields → Prop
  | .nil => True
  | .cons _ o t rest => o.Written ∧ t.OrdinaryIn [] ∧ rest.Ordinary
def NAlts.Ordinary : NAlts → Prop
  | .nil => True
  | .cons _ t rest => t.OrdinaryIn [] ∧ rest.Ordinary
end

/-- No range `MIN..v` is intersected with another constraint, no extension markers in the constraints of ENUMERATED and REAL types. -/
def NTy.Ordinary (t : NTy) : Prop := t.OrdinaryIn []

end Asn1
