import Verif.Model.Notation
import Verif.Spec.CVal
/-!
# What value notation and constraint notation mean

X.680 for values and constraints as written in an ASN.1 file. Nothing here mentions what the compiler does with them.
-/
namespace Asn1

/-! ## Parts of types and values as lists -/

def VNs.toList : VNs → List VN
  | .nil => []
  | .cons v rest => v :: rest.toList

def VNFields.toList : VNFields → List (String × VN)
  | .nil => []
  | .cons n v rest => (n, v) :: rest.toList

def NFields.toList : NFields → List (String × NOpt × NTy)
  | .nil => []
  | .cons n o t rest => (n, o, t) :: rest.toList

def NAlts.toList : NAlts → List (String × NTy)
  | .nil => []
  | .cons n t rest => (n, t) :: rest.toList

/-! ## Names -/

/-- The value is given by a name. -/
def VN.IsName : VN → Prop
  | .ident _ _ => True
  | .ref _ _ _ _ => True
  | _ => False

/-- A name refers to the value of its value assignment, which may be a name again. -/
inductive VN.RefersTo : VN → VN → Prop
  | written {v : VN} : ¬ v.IsName → RefersTo v v
  | name {md nm : String} {g : Option (String × String)} {v w : VN} : RefersTo v w → RefersTo (.ref md nm g v) w

/-- What a name means where an ENUMERATED type is expected: the item of that name if there is one, otherwise what it refers
to. -/
inductive VN.Item (items : List (String × Int)) : VN → Int → Prop
  | ident {md nm : String} {x : Int} : (nm, x) ∈ items → Item items (.ident md nm) x
  | item {md nm : String} {g : Option (String × String)} {v : VN} {x : Int} : (nm, x) ∈ items → Item items (.ref md nm g v) x
  | name {md nm : String} {g : Option (String × String)} {v : VN} {x : Int} :
      nm ∉ items.map (·.1) → Item items v x → Item items (.ref md nm g v) x

/-! ## Values -/

/-- A value of the SEQUENCE may leave out the component. -/
def NOpt.Omissible : NOpt → Prop
  | .optional => True
  | .default _ => True
  | .absent => True
  | _ => False

mutual
/-- The notation, where a value of the type is expected, denotes the value. An INTEGER stands for the nearest REAL; a bit
string for the octets it fills, padded with zeros (X.680 23.13), octets for their bits, the most significant first. -/
def NTy.Denotes : NTy → VN → AV → Prop
  | .int _, v, a => ∃ x, v.RefersTo (.int x) ∧ a = .int x
  | .real _, v, a => (∃ d, v.RefersTo (.real d) ∧ a = .real d) ∨ ∃ x, v.RefersTo (.int x) ∧ a = .real (dblOfInt x)
  | .bool _, v, a => ∃ b, v.RefersTo (.bool b) ∧ a = .bool b
  | .null _, v, a => v.RefersTo .null ∧ a = .null
  | .enum items _, v, a => ∃ x, v.Item items x ∧ a = .enum x
  | .octets _, v, a => (∃ l, v.RefersTo (.octets l) ∧ a = .octets l) ∨ ∃ w l, v.RefersTo (.bits w) ∧ Packed w l ∧ a = .octets l
  | .bits _, v, a => (∃ w, v.RefersTo (.bits w) ∧ a = .bits w) ∨ ∃ l, v.RefersTo (.octets l) ∧ a = .bits (bytesBits l)
  | .str _, v, a => ∃ l, v.RefersTo (.str l) ∧ a = .str l
  | .oid _, v, a => ∃ l, v.RefersTo (.oid l) ∧ a = .oid l
  | .seqOf t _, v, a => ∃ l xs, v.RefersTo (.seqOf l) ∧ a = .seqOf xs ∧ List.Forall₂ t.Denotes l.toList xs
  | .seq fs _, v, a => ∃ l xs, v.RefersTo (.seq l) ∧ a = .seq xs ∧ (l.toList.map (·.1)).Nodup ∧
      (∀ p ∈ l.toList, p.1 ∈ fs.toList.map (·.1)) ∧ fs.Denotes l xs
  | .choice alts _, v, a => ∃ nm w i x, v.RefersTo (.choice nm w) ∧ a = .choice i x ∧ alts.Denotes nm w i x
  | .ref _ _ t _, v, a => t.Denotes v a
/-- The components: one for each of the type, absent when there is none of that name. -/
def NFields.Denotes : NFields → VNFields → List (Option AV) → Prop
  | .nil, _, xs => xs = []
  | .cons nm o t rest, l, xs => ∃ x xs', xs = x :: xs' ∧
      ((∃ w y, (nm, w) ∈ l.toList ∧ x = some y ∧ t.Denotes w y) ∨ (nm ∉ l.toList.map (·.1) ∧ o.Omissible ∧ x = none)) ∧
      rest.Denotes l xs'
/-- Alternative number `i` has the name, and the notation denotes the value of it. -/
def NAlts.Denotes : NAlts → String → VN → Nat → AV → Prop
  | .nil, _, _, _, _ => False
  | .cons n t rest, nm, w, i, x => (n = nm ∧ i = 0 ∧ t.Denotes w x) ∨ ∃ j, i = j + 1 ∧ rest.Denotes nm w j x
end

mutual
/-- The names of the components, of the alternatives and of the items of the type differ. -/
def NTy.Distinct : NTy → Prop
  | .enum items _ => (items.map (·.1)).Nodup ∧ (items.map (·.2)).Nodup
  | .seq fs _ => (fs.toList.map (·.1)).Nodup ∧ fs.Distinct
  | .seqOf t _ => t.Distinct
  | .choice alts _ => (alts.toList.map (·.1)).Nodup ∧ alts.Distinct
  | .ref _ _ t _ => t.Distinct
  | _ => True
def NFields.Distinct : NFields → Prop
  | .nil => True
  | .cons _ _ t rest => t.Distinct ∧ rest.Distinct
def NAlts.Distinct : NAlts → Prop
  | .nil => True
  | .cons _ t rest => t.Distinct ∧ rest.Distinct
end

mutual
/-- No component is given twice. -/
def VN.OnceEach : VN → Prop
  | .seqOf l => l.OnceEach
  | .seq l => (l.toList.map (·.1)).Nodup ∧ l.OnceEach
  | .choice _ v => v.OnceEach
  | .ref _ _ _ v => v.OnceEach
  | _ => True
def VNs.OnceEach : VNs → Prop
  | .nil => True
  | .cons v rest => v.OnceEach ∧ rest.OnceEach
def VNFields.OnceEach : VNFields → Prop
  | .nil => True
  | .cons _ v rest => v.OnceEach ∧ rest.OnceEach
end

mutual
/-- No value assignment that is referred to has a type that is itself a reference. -/
def VN.BuiltinGovernors : VN → Prop
  | .seqOf l => l.BuiltinGovernors
  | .seq l => l.BuiltinGovernors
  | .choice _ v => v.BuiltinGovernors
  | .ref _ _ g v => g = none ∧ v.BuiltinGovernors
  | _ => True
def VNs.BuiltinGovernors : VNs → Prop
  | .nil => True
  | .cons v rest => v.BuiltinGovernors ∧ rest.BuiltinGovernors
def VNFields.BuiltinGovernors : VNFields → Prop
  | .nil => True
  | .cons _ v rest => v.BuiltinGovernors ∧ rest.BuiltinGovernors
end

/-- The four bits of a hexadecimal digit. -/
def hexDigitBits (x : Fin 16) : List Bool := [x.val.testBit 3, x.val.testBit 2, x.val.testBit 1, x.val.testBit 0]

/-! ## Constraints -/

/-- The type without references. -/
def NTy.stripped : NTy → NTy
  | .ref _ _ t _ => t.stripped
  | t => t

/-- The values are equal; REAL numbers as numbers. -/
def AV.Equals : AV → AV → Prop
  | .real x, .real y => dblEq x y = true
  | a, b => a = b

/-- The first is less than the second (or equal, when that is included). -/
def AV.UpTo (included : Bool) : AV → AV → Prop
  | .int x, .int y => if included then x ≤ y else x < y
  | .real x, .real y => if included then dblLe x y = true else dblLt x y = true
  | _, _ => False

/-- Component or alternative number `i` of the type has the name and the type `u`. -/
def NTy.IsPart (t : NTy) (nm : String) (i : Nat) (u : NTy) : Prop :=
  match t.stripped with
  | .seq fs _ => ∃ o, fs.toList[i]? = some (nm, o, u)
  | .choice alts _ => alts.toList[i]? = some (nm, u)
  | _ => False

/-- The type of the elements. -/
def NTy.IsElement (t u : NTy) : Prop :=
  match t.stripped with
  | .seqOf e _ => e = u
  | _ => False

/-- A character is in the set that a constraint inside FROM denotes. A string stands for its characters. -/
def XC.CharSat : XC → Byte → Prop
  | .single v, ch => ∃ l, v.RefersTo (.str l) ∧ ch ∈ l
  | .range v1 v2 i j, ch => (∃ x, v1.RefersTo (.str [x]) ∧ if i then x.toNat ≤ ch.toNat else x.toNat < ch.toNat) ∧
      ∃ x, v2.RefersTo (.str [x]) ∧ if j then ch.toNat ≤ x.toNat else ch.toNat < x.toNat
  | .valMax v1 i, ch => ∃ x, v1.RefersTo (.str [x]) ∧ if i then x.toNat ≤ ch.toNat else x.toNat < ch.toNat
  | .minVal v2 j, ch => ∃ x, v2.RefersTo (.str [x]) ∧ if j then ch.toNat ≤ x.toNat else ch.toNat < x.toNat
  | .union c d, ch => c.CharSat ch ∨ d.CharSat ch
  | .inter c d, ch => c.CharSat ch ∧ d.CharSat ch
  | .allExcept c, ch => ¬ c.CharSat ch
  | .except c d, ch => c.CharSat ch ∧ ¬ d.CharSat ch
  | .root c, ch => c.CharSat ch
  | .root2 c d, ch => c.CharSat ch ∨ d.CharSat ch
  | _, _ => False

mutual
/-- The value of the type is in the set that the constraint denotes. -/
def XC.Sat : XC → NTy → AV → Prop
  | .single v, t, a => ∃ b, t.Denotes v b ∧ a.Equals b
  | .range v1 v2 i j, t, a => (∃ b, t.Denotes v1 b ∧ b.UpTo i a) ∧ ∃ b, t.Denotes v2 b ∧ a.UpTo j b
  | .valMax v1 i, t, a => ∃ b, t.Denotes v1 b ∧ b.UpTo i a
  | .minVal v2 j, t, a => ∃ b, t.Denotes v2 b ∧ a.UpTo j b
  | .size c, _, a => ∃ n : Nat, a.size = some n ∧ c.Sat (.int []) (.int n)
  | .alphabet c, _, a => ∃ l, a = .str l ∧ ∀ ch ∈ l, c.CharSat ch
  | .union c d, t, a => c.Sat t a ∨ d.Sat t a
  | .inter c d, t, a => c.Sat t a ∧ d.Sat t a
  | .allExcept c, t, a => ¬ c.Sat t a
  | .except c d, t, a => c.Sat t a ∧ ¬ d.Sat t a
  | .root c, t, a => c.Sat t a
  | .root2 c d, t, a => c.Sat t a ∨ d.Sat t a
  | .component c, t, a => ∃ e l, t.IsElement e ∧ a = .seqOf l ∧ ∀ x ∈ l, c.Sat e x
  | .components ncs, t, a => ncs.Sat t a
/-- WITH COMPONENTS: all marks hold, and the parts that are there satisfy their constraints. -/
def XCs.Sat : XCs → NTy → AV → Prop
  | .nil, _, _ => True
  | .bare nm m rest, t, a => (∃ i u, t.IsPart nm i u ∧ m.Sat (a.part i)) ∧ rest.Sat t a
  | .cons nm m c rest, t, a =>
    (∃ i u, t.IsPart nm i u ∧ m.Sat (a.part i) ∧ ∀ x, a.part i = some x → c.Sat u x) ∧ rest.Sat t a
end

mutual
/-- The value satisfies all constraints of the type, of its parts, and of the types it refers to. -/
def NTy.Sat : NTy → AV → Prop
  | .ref md tas t cons, a => t.Sat a ∧ ∀ c ∈ cons, c.Sat (.ref md tas t cons) a
  | .seq fs cons, a => (∀ c ∈ cons, c.Sat (.seq fs cons) a) ∧ ∃ l, a = .seq l ∧ fs.Sat l
  | .seqOf t cons, a => (∀ c ∈ cons, c.Sat (.seqOf t cons) a) ∧ ∃ l, a = .seqOf l ∧ ∀ x ∈ l, t.Sat x
  | .choice alts cons, a => (∀ c ∈ cons, c.Sat (.choice alts cons) a) ∧ ∃ i v, a = .choice i v ∧ alts.Sat i v
  | .int cons, a => ∀ c ∈ cons, c.Sat (.int cons) a
  | .real cons, a => ∀ c ∈ cons, c.Sat (.real cons) a
  | .bool cons, a => ∀ c ∈ cons, c.Sat (.bool cons) a
  | .null cons, a => ∀ c ∈ cons, c.Sat (.null cons) a
  | .enum items cons, a => ∀ c ∈ cons, c.Sat (.enum items cons) a
  | .octets cons, a => ∀ c ∈ cons, c.Sat (.octets cons) a
  | .bits cons, a => ∀ c ∈ cons, c.Sat (.bits cons) a
  | .str cons, a => ∀ c ∈ cons, c.Sat (.str cons) a
  | .oid cons, a => ∀ c ∈ cons, c.Sat (.oid cons) a
/-- The components that are present. -/
def NFields.Sat : NFields → List (Option AV) → Prop
  | .cons _ _ t rest, x :: xs => (∀ y, x = some y → t.Sat y) ∧ rest.Sat xs
  | _, _ => True
/-- The chosen alternative. -/
def NAlts.Sat : NAlts → Nat → AV → Prop
  | .nil, _, _ => False
  | .cons _ t _, 0, v => t.Sat v
  | .cons _ _ rest, i + 1, v => rest.Sat i v
end

mutual
/-- The values that the constraint gives for the whole value are values of the type. -/
def XC.Valued : XC → NTy → Prop
  | .single v, t => ∃ b, t.Denotes v b
  | .union c d, t => c.Valued t ∧ d.Valued t
  | .inter c d, t => c.Valued t ∧ d.Valued t
  | .allExcept c, t => c.Valued t
  | .except c d, t => c.Valued t ∧ d.Valued t
  | .root c, t => c.Valued t
  | .root2 c d, t => c.Valued t ∧ d.Valued t
  | .component c, t => ∀ e, t.IsElement e → c.Valued e
  | .components ncs, t => ncs.Valued t
  | _, _ => True
def XCs.Valued : XCs → NTy → Prop
  | .nil, _ => True
  | .bare _ _ rest, t => rest.Valued t
  | .cons nm _ c rest, t => (∀ i u, t.IsPart nm i u → c.Valued u) ∧ rest.Valued t
end

/-! ## The notation for which the check of DEFAULT values is proved right -/

mutual
/-- The value is written the way the type is: no names except of items and of values of types without parts, REAL values
as REAL (and not NaN, for which there is no notation), OCTET STRING values as octets, BIT STRING values as bits. -/
def NTy.Direct : NTy → VN → Prop
  | .ref _ _ t _, v => t.Direct v
  | .real _, v => (∀ x, ¬ v.RefersTo (.int x)) ∧ ∀ d, v.RefersTo (.real d) → dblIsNan d = false
  | .octets _, v => ∀ w, ¬ v.RefersTo (.bits w)
  | .bits _, v => ∀ l, ¬ v.RefersTo (.octets l)
  | .enum items _, v => ∀ nm, v.name = some nm → nm ∈ items.map (·.1)
  | .seqOf t _, v => ¬ v.IsName ∧ ∀ l, v = .seqOf l → ∀ w ∈ l.toList, t.Direct w
  | .seq fs _, v => ¬ v.IsName ∧ ∀ l, v = .seq l → fs.Direct l
  | .choice alts _, v => ¬ v.IsName ∧ ∀ nm w, v = .choice nm w → alts.Direct nm w
  | _, _ => True
def NFields.Direct : NFields → VNFields → Prop
  | .nil, _ => True
  | .cons nm _ t rest, l => (∀ w, (nm, w) ∈ l.toList → t.Direct w) ∧ rest.Direct l
def NAlts.Direct : NAlts → String → VN → Prop
  | .nil, _, _ => True
  | .cons n t rest, nm, w => (n = nm → t.Direct w) ∧ rest.Direct nm w
end

/-- Constraints inside FROM: single characters, and ranges of characters. -/
def XC.CharPlain : XC → Prop
  | .single v => ∃ x, v = .str [x]
  | .range v1 v2 _ _ => (∃ x, v1.RefersTo (.str [x])) ∧ ∃ x, v2.RefersTo (.str [x])
  | .valMax v1 _ => ∃ x, v1.RefersTo (.str [x])
  | .minVal v2 _ => ∃ x, v2.RefersTo (.str [x])
  | .union c d => c.CharPlain ∧ d.CharPlain
  | .inter c d => c.CharPlain ∧ d.CharPlain
  | .allExcept c => c.CharPlain
  | .except c d => c.CharPlain ∧ d.CharPlain
  | .root c => c.CharPlain
  | .root2 c d => c.CharPlain ∧ d.CharPlain
  | _ => False

/-- The value of a single value constraint is written out, and is no value with parts and no OBJECT IDENTIFIER. -/
def plainSingle (t : NTy) (v : VN) : Prop :=
  match t.stripped, v with
  | .int _, .int _ => True
  | .real _, .real _ => True
  | .bool _, .bool _ => True
  | .null _, .null => True
  | .octets _, .octets _ => True
  | .bits _, .bits _ => True
  | .str _, .str _ => True
  | .enum items _, v => ∃ nm, v.name = some nm ∧ nm ∈ items.map (·.1)
  | _, _ => False

/-- The bound of a range is a number of the kind of the type. -/
def plainBound (t : NTy) (v : VN) : Prop :=
  match t.stripped with
  | .int _ => ∃ x, v.RefersTo (.int x)
  | .real _ => ∃ d, v.RefersTo (.real d) ∧ dblIsNan d = false
  | _ => False

/-- SIZE applies to the type; inside WITH COMPONENT(S), BIT STRING and OCTET STRING are left out. -/
def plainSize (inside : Bool) (t : NTy) : Prop :=
  match t.stripped with
  | .octets _ => inside = false
  | .bits _ => inside = false
  | .str _ => True
  | .seqOf _ _ => True
  | _ => False

/-- The names in the list. -/
def XCs.names : XCs → List String
  | .nil => []
  | .bare nm _ rest => nm :: rest.names
  | .cons nm _ _ rest => nm :: rest.names

/-- The mark, with a constraint or without, is one that the check treats as X.680 does: not PRESENT for an alternative, not OPTIONAL
with a constraint for a component. -/
def plainMark (t : NTy) (m : Mark) (constrained : Bool) : Prop :=
  match t.stripped with
  | .seq _ _ => ¬ (m = .optional ∧ constrained = true)
  | .choice _ _ => m ≠ .present
  | _ => False

mutual
/-- The constraint applies to the type and is of a form that the check of values treats as X.680 does. -/
def XC.Plain : XC → Bool → NTy → Prop
  | .single v, _, t => plainSingle t v
  | .range v1 v2 _ _, _, t => plainBound t v1 ∧ plainBound t v2
  | .valMax v1 _, _, t => plainBound t v1
  | .minVal v2 _, _, t => plainBound t v2
  | .size c, inside, t => plainSize inside t ∧ c.Plain true (.int [])
  | .alphabet c, _, t => (∃ cons, t.stripped = .str cons) ∧ ((∃ w, c = .single (.str w)) ∨ c.CharPlain)
  | .union c d, i, t => c.Plain i t ∧ d.Plain i t
  | .inter c d, i, t => c.Plain i t ∧ d.Plain i t
  | .allExcept c, i, t => c.Plain i t
  | .except c d, i, t => c.Plain i t ∧ d.Plain i t
  | .root c, i, t => c.Plain i t
  | .root2 c d, i, t => c.Plain i t ∧ d.Plain i t
  | .component c, _, t => ∃ e, t.IsElement e ∧ c.Plain true e
  | .components ncs, _, t => ncs.names.Nodup ∧ ncs.Plain t
def XCs.Plain : XCs → NTy → Prop
  | .nil, t => (∃ fs cons, t.stripped = .seq fs cons) ∨ ∃ alts cons, t.stripped = .choice alts cons
  | .bare nm m rest, t => (∃ i u, t.IsPart nm i u) ∧ plainMark t m false ∧ rest.Plain t
  | .cons nm m c rest, t => (∃ i u, t.IsPart nm i u ∧ c.Plain true u) ∧ plainMark t m true ∧ rest.Plain t
end

mutual
/-- All constraints of the type, of its parts and of the types referred to are of these forms. -/
def NTy.Plain : NTy → Prop
  | .ref md tas t cons => t.Plain ∧ ∀ c ∈ cons, c.Plain false (.ref md tas t cons)
  | .seq fs cons => (∀ c ∈ cons, c.Plain false (.seq fs cons)) ∧ fs.Plain
  | .seqOf t cons => (∀ c ∈ cons, c.Plain false (.seqOf t cons)) ∧ t.Plain
  | .choice alts cons => (∀ c ∈ cons, c.Plain false (.choice alts cons)) ∧ alts.Plain
  | .int cons => ∀ c ∈ cons, c.Plain false (.int cons)
  | .real cons => ∀ c ∈ cons, c.Plain false (.real cons)
  | .bool cons => ∀ c ∈ cons, c.Plain false (.bool cons)
  | .null cons => ∀ c ∈ cons, c.Plain false (.null cons)
  | .enum items cons => ∀ c ∈ cons, c.Plain false (.enum items cons)
  | .octets cons => ∀ c ∈ cons, c.Plain false (.octets cons)
  | .bits cons => ∀ c ∈ cons, c.Plain false (.bits cons)
  | .str cons => ∀ c ∈ cons, c.Plain false (.str cons)
  | .oid cons => ∀ c ∈ cons, c.Plain false (.oid cons)
def NFields.Plain : NFields → Prop
  | .nil => True
  | .cons _ _ t rest => t.Plain ∧ rest.Plain
def NAlts.Plain : NAlts → Prop
  | .nil => True
  | .cons _ t rest => t.Plain ∧ rest.Plain
end

end Asn1
