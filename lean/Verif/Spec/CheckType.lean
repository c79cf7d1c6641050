import Verif.Spec.Compile
/-!
# Which constraints a type may have

X.680, Table 9 (which subtype notation goes with which type) and 51.8 (inner subtyping). Nothing here mentions the compiler,
except the last part, which lists what is translated.
-/
namespace Asn1

/-- Ranges go with INTEGER and REAL, with character strings only inside FROM. -/
def NTy.TakesRange (t : NTy) : Prop := (∃ cs, t.stripped = .int cs) ∨ ∃ cs, t.stripped = .real cs

/-- SIZE goes with character strings, OCTET STRING, BIT STRING and SEQUENCE OF. -/
def NTy.TakesSize (t : NTy) : Prop :=
  (∃ cs, t.stripped = .str cs) ∨ (∃ cs, t.stripped = .octets cs) ∨ (∃ cs, t.stripped = .bits cs) ∨ ∃ e cs, t.stripped = .seqOf e cs

/-- FROM goes with character strings. -/
def NTy.TakesFrom (t : NTy) : Prop := ∃ cs, t.stripped = .str cs

/-- WITH COMPONENTS goes with SEQUENCE and CHOICE. -/
def NTy.TakesComponents (t : NTy) : Prop := (∃ fs cs, t.stripped = .seq fs cs) ∨ ∃ alts cs, t.stripped = .choice alts cs

/-- The mark may be put on the part of that name: PRESENT and ABSENT not on a mandatory component, ABSENT not on one with a
DEFAULT, OPTIONAL not on an alternative. -/
def NTy.TakesMark (t : NTy) (nm : String) (m : Mark) : Prop :=
  match t.stripped with
  | .seq fs _ => ∀ o u, (nm, o, u) ∈ fs.toList → (m = .present → o ≠ .mandatory) ∧ (m = .absent → o ≠ .mandatory ∧ ∀ v, o ≠ .default v)
  | _ => m ≠ .optional

mutual
/-- The values that are written in a constraint. -/
def XC.vals : XC → List VN
  | .single v => [v]
  | .range v1 v2 _ _ => [v1, v2]
  | .valMax v1 _ => [v1]
  | .minVal v2 _ => [v2]
  | .size c => c.vals
  | .alphabet c => c.vals
  | .union c d => c.vals ++ d.vals
  | .inter c d => c.vals ++ d.vals
  | .allExcept c => c.vals
  | .except c d => c.vals ++ d.vals
  | .root c => c.vals
  | .root2 c d => c.vals ++ d.vals
  | .component c => c.vals
  | .components ncs => ncs.vals
def XCs.vals : XCs → List VN
  | .nil => []
  | .bare _ _ rest => rest.vals
  | .cons _ _ c rest => c.vals ++ rest.vals
end

/-- What may stand inside FROM: strings, for the characters in them, and ranges between two characters. -/
def XC.FromLegal : XC → Prop
  | .single v => ∃ l, v.RefersTo (.str l)
  | .range v1 v2 _ _ => (∃ x, v1.RefersTo (.str [x])) ∧ ∃ x, v2.RefersTo (.str [x])
  | .valMax v1 _ => ∃ x, v1.RefersTo (.str [x])
  | .minVal v2 _ => ∃ x, v2.RefersTo (.str [x])
  | .union c d => c.FromLegal ∧ d.FromLegal
  | .inter c d => c.FromLegal ∧ d.FromLegal
  | .allExcept c => c.FromLegal
  | .except c d => c.FromLegal ∧ d.FromLegal
  | .root c => c.FromLegal
  | .root2 c d => c.FromLegal ∧ d.FromLegal
  | _ => False

/-- All numbers in the constraint satisfy `P`. -/
def XC.Numbers (P : Int → Prop) (c : XC) : Prop := ∀ v ∈ c.vals, ∀ x, v.RefersTo (.int x) → P x

mutual
/-- The constraint may be put on the type: its parts go with the type, its values are values of the type (numbers from 0 inside
SIZE). -/
def XC.Legal : XC → NTy → Prop
  | .single v, t => ∃ b, t.Denotes v b
  | .range v1 v2 _ _, t => t.TakesRange ∧ (∃ b, t.Denotes v1 b) ∧ ∃ b, t.Denotes v2 b
  | .valMax v1 _, t => t.TakesRange ∧ ∃ b, t.Denotes v1 b
  | .minVal v2 _, t => t.TakesRange ∧ ∃ b, t.Denotes v2 b
  | .size c, t => t.TakesSize ∧ c.Legal (.int []) ∧ c.Numbers (0 ≤ ·)
  | .alphabet c, t => t.TakesFrom ∧ c.FromLegal
  | .union c d, t => c.Legal t ∧ d.Legal t
  | .inter c d, t => c.Legal t ∧ d.Legal t
  | .allExcept c, t => c.Legal t
  | .except c d, t => c.Legal t ∧ d.Legal t
  | .root c, t => c.Legal t
  | .root2 c d, t => c.Legal t ∧ d.Legal t
  | .component c, t => ∃ e, t.IsElement e ∧ c.Legal e
  | .components ncs, t => t.TakesComponents ∧ ncs.names.Nodup ∧ ncs.Legal t
def XCs.Legal : XCs → NTy → Prop
  | .nil, _ => True
  | .bare nm m rest, t => ((∃ i u, t.IsPart nm i u) ∧ t.TakesMark nm m) ∧ rest.Legal t
  | .cons nm m c rest, t => ((∃ i u, t.IsPart nm i u ∧ c.Legal u) ∧ t.TakesMark nm m) ∧ rest.Legal t
end

/-- All the constraints that are written in the type, of the parts and of the types referred to. -/
def XC.allVals (cs : List XC) : List VN := cs.flatMap XC.vals

mutual
/-- The values that are written in the constraints and DEFAULTs of the type, of its parts and of the types referred to. -/
def NTy.vals : NTy → List VN
  | .seq fs cs => XC.allVals cs ++ fs.vals
  | .choice alts cs => XC.allVals cs ++ alts.vals
  | .seqOf t cs => XC.allVals cs ++ t.vals
  | .ref _ _ t cs => XC.allVals cs ++ t.vals
  | .enum _ cs => XC.allVals cs
  | .int cs => XC.allVals cs
  | .real cs => XC.allVals cs
  | .bool cs => XC.allVals cs
  | .null cs => XC.allVals cs
  | .octets cs => XC.allVals cs
  | .bits cs => XC.allVals cs
  | .str cs => XC.allVals cs
  | .oid cs => XC.allVals cs
def NFields.vals : NFields → List VN
  | .nil => []
  | .cons _ (.default v) t rest => v :: (t.vals ++ rest.vals)
  | .cons _ _ t rest => t.vals ++ rest.vals
def NAlts.vals : NAlts → List VN
  | .nil => []
  | .cons _ t rest => t.vals ++ rest.vals
end

mutual
/-- All constraints of the type, of its parts and of the types referred to may be put where they are. -/
def NTy.Legal : NTy → Prop
  | .ref md tas t cons => t.Legal ∧ ∀ c ∈ cons, c.Legal (.ref md tas t cons)
  | .seq fs cons => (∀ c ∈ cons, c.Legal (.seq fs cons)) ∧ fs.Legal
  | .seqOf t cons => (∀ c ∈ cons, c.Legal (.seqOf t cons)) ∧ t.Legal
  | .choice alts cons => (∀ c ∈ cons, c.Legal (.choice alts cons)) ∧ alts.Legal
  | .int cons => ∀ c ∈ cons, c.Legal (.int cons)
  | .real cons => ∀ c ∈ cons, c.Legal (.real cons)
  | .bool cons => ∀ c ∈ cons, c.Legal (.bool cons)
  | .null cons => ∀ c ∈ cons, c.Legal (.null cons)
  | .enum items cons => ∀ c ∈ cons, c.Legal (.enum items cons)
  | .octets cons => ∀ c ∈ cons, c.Legal (.octets cons)
  | .bits cons => ∀ c ∈ cons, c.Legal (.bits cons)
  | .str cons => ∀ c ∈ cons, c.Legal (.str cons)
  | .oid cons => ∀ c ∈ cons, c.Legal (.oid cons)
def NFields.Legal : NFields → Prop
  | .nil => True
  | .cons _ _ t rest => t.Legal ∧ rest.Legal
def NAlts.Legal : NAlts → Prop
  | .nil => True
  | .cons _ t rest => t.Legal ∧ rest.Legal
end

mutual
/-- The demands of X.680 on a type beside those on constraints: different names for the components, alternatives and items, different numbers for the
items; a DEFAULT is a value of the type that satisfies the constraints. Beyond X.680: the names of alternatives differ not only by case, and an
ENUMERATED with constraints has an item left. -/
def NTy.Proper : NTy → Prop
  | .enum items cons => (items.map (·.1)).Nodup ∧ (items.map (·.2)).Nodup ∧ ∃ p ∈ items, (NTy.enum items cons).Sat (.enum p.2)
  | .seq fs _ => (fs.toList.map (·.1)).Nodup ∧ fs.Proper
  | .seqOf t _ => t.Proper
  | .choice alts _ => (alts.toList.map (·.1.toLower)).Nodup ∧ alts.Proper
  | .ref _ _ t _ => t.Proper
  | _ => True
def NFields.Proper : NFields → Prop
  | .nil => True
  | .cons _ o t rest => (t.Proper ∧ ∀ v, o = .default v → ∃ a, t.Denotes v a ∧ t.Sat a) ∧ rest.Proper
def NAlts.Proper : NAlts → Prop
  | .nil => True
  | .cons _ t rest => t.Proper ∧ rest.Proper
end

mutual
/-- Every DEFAULT is written the way its type is (`NTy.Direct`). -/
def NTy.Defaults : NTy → Prop
  | .seq fs _ => fs.Defaults
  | .seqOf t _ => t.Defaults
  | .choice alts _ => alts.Defaults
  | .ref _ _ t _ => t.Defaults
  | _ => True
def NFields.Defaults : NFields → Prop
  | .nil => True
  | .cons _ o t rest => (t.Defaults ∧ ∀ v, o = .default v → t.Direct v) ∧ rest.Defaults
def NAlts.Defaults : NAlts → Prop
  | .nil => True
  | .cons _ t rest => t.Defaults ∧ rest.Defaults
end

/-- The values are of the form for which C95 is proved: no component twice, no names of values whose type is a reference. -/
def Plainly (l : List VN) : Prop := ∀ v ∈ l, v.OnceEach ∧ v.BuiltinGovernors

/-! ## What is translated -/

mutual
/-- The forms of legal constraints that are translated: numbers of 32 bits in SIZE, no constraint on NULL. -/
def XC.Known : XC → NTy → Prop
  | .single _, t => ∀ cs, t.stripped ≠ .null cs
  | .size c, _ => c.Numbers (· < 2 ^ 32)
  | .union c d, t => c.Known t ∧ d.Known t
  | .inter c d, t => c.Known t ∧ d.Known t
  | .allExcept c, t => c.Known t
  | .except c d, t => c.Known t ∧ d.Known t
  | .root c, t => c.Known t
  | .root2 c d, t => c.Known t ∧ d.Known t
  | .component c, t => ∀ e, t.IsElement e → c.Known e
  | .components ncs, t => ncs.Known t
  | _, _ => True
def XCs.Known : XCs → NTy → Prop
  | .nil, _ => True
  | .bare _ _ rest, t => rest.Known t
  | .cons nm _ c rest, t => (∀ i u, t.IsPart nm i u → c.Known u) ∧ rest.Known t
end

end Asn1
