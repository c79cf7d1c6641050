import Verif.Model.Written
import Verif.Spec.Notation
/-!
# What constraints with MIN..MAX and type inclusion mean

X.680 clause 51. Nothing here mentions what the compiler does with them.
-/
namespace Asn1

mutual
/-- A character is in the set that a constraint inside FROM denotes (as `XC.CharSat`). -/
def SC.CharSat : SC → Byte → Prop
  | .single v, ch => ∃ l, v.RefersTo (.str l) ∧ ch ∈ l
  | .range v1 v2 i j, ch => (∃ x, v1.RefersTo (.str [x]) ∧ if i then x.toNat ≤ ch.toNat else x.toNat < ch.toNat) ∧
      ∃ x, v2.RefersTo (.str [x]) ∧ if j then ch.toNat ≤ x.toNat else ch.toNat < x.toNat
  | .valMax v1 i, ch => ∃ x, v1.RefersTo (.str [x]) ∧ if i then x.toNat ≤ ch.toNat else x.toNat < ch.toNat
  | .minVal v2 j, ch => ∃ x, v2.RefersTo (.str [x]) ∧ if j then ch.toNat ≤ x.toNat else ch.toNat < x.toNat
  | .minMax, _ => True
  | .includes cons, ch => cons.CharSat ch
  | .union c d, ch => c.CharSat ch ∨ d.CharSat ch
  | .inter c d, ch => c.CharSat ch ∧ d.CharSat ch
  | .allExcept c, ch => ¬ c.CharSat ch
  | .except c d, ch => c.CharSat ch ∧ ¬ d.CharSat ch
  | .root c, ch => c.CharSat ch
  | .root2 c d, ch => c.CharSat ch ∨ d.CharSat ch
  | _, _ => False
/-- All constraints. -/
def SCs.CharSat : SCs → Byte → Prop
  | .nil, _ => True
  | .cons c rest, ch => c.CharSat ch ∧ rest.CharSat ch
end

mutual
/-- The value of the type is in the set that the constraint denotes: `MIN..MAX` denotes all values, a type those that
satisfy all its constraints. -/
def SC.Sat : SC → NTy → AV → Prop
  | .single v, t, a => ∃ b, t.Denotes v b ∧ a.Equals b
  | .range v1 v2 i j, t, a => (∃ b, t.Denotes v1 b ∧ b.UpTo i a) ∧ ∃ b, t.Denotes v2 b ∧ a.UpTo j b
  | .valMax v1 i, t, a => ∃ b, t.Denotes v1 b ∧ b.UpTo i a
  | .minVal v2 j, t, a => ∃ b, t.Denotes v2 b ∧ a.UpTo j b
  | .minMax, _, _ => True
  | .includes cons, t, a => cons.Sat t a
  | .size c, _, a => ∃ n : Nat, a.size = some n ∧ c.Sat (.int []) (.int n)
  | .alphabet c, _, a => ∃ l, a = .str l ∧ ∀ ch ∈ l, c.CharSat ch
  | .union c d, t, a => c.Sat t a ∨ d.Sat t a
  | .inter c d, t, a => c.Sat t a ∧ d.Sat t a
  | .allExcept c, t, a => ¬ c.Sat t a
  | .except c d, t, a => c.Sat t a ∧ ¬ d.Sat t a
  | .root c, t, a => c.Sat t a
  | .root2 c d, t, a => c.Sat t a ∨ d.Sat t a
  | .component c, t, a => ∃ e l, t.IsElement e ∧ a = .seqOf l ∧ ∀ x ∈ l, c.Sat e x
  | .components ncs, t, a => ncs.Sat t a
/-- All constraints. -/
def SCs.Sat : SCs → NTy → AV → Prop
  | .nil, _, _ => True
  | .cons c rest, t, a => c.Sat t a ∧ rest.Sat t a
/-- WITH COMPONENTS: all marks hold, and the parts that are there satisfy their constraints. -/
def SNs.Sat : SNs → NTy → AV → Prop
  | .nil, _, _ => True
  | .bare nm m rest, t, a => (∃ i u, t.IsPart nm i u ∧ m.Sat (a.part i)) ∧ rest.Sat t a
  | .cons nm m c rest, t, a =>
    (∃ i u, t.IsPart nm i u ∧ m.Sat (a.part i) ∧ ∀ x, a.part i = some x → c.Sat u x) ∧ rest.Sat t a
end

mutual
/-- The constraint can stand inside FROM. -/
def SC.CharSuits : SC → Prop
  | .includes cons => cons.CharSuits
  | .union c d => c.CharSuits ∧ d.CharSuits
  | .inter c d => c.CharSuits ∧ d.CharSuits
  | .allExcept c => c.CharSuits
  | .except c d => c.CharSuits ∧ d.CharSuits
  | .root c => c.CharSuits
  | .root2 c d => c.CharSuits ∧ d.CharSuits
  | .size _ => False
  | .alphabet _ => False
  | .component _ => False
  | .components _ => False
  | _ => True
def SCs.CharSuits : SCs → Prop
  | .nil => True
  | .cons c rest => c.CharSuits ∧ rest.CharSuits
end

mutual
/-- The constraint applies to values like this one: SIZE to values with a size, FROM to strings, WITH COMPONENT to values of
SEQUENCE OF types, and so on. -/
def SC.Suits : SC → NTy → AV → Prop
  | .includes cons, t, a => cons.Suits t a
  | .size c, _, a => ∃ n : Nat, a.size = some n ∧ c.Suits (.int []) (.int n)
  | .alphabet c, _, a => (∃ l, a = .str l) ∧ c.CharSuits
  | .union c d, t, a => c.Suits t a ∧ d.Suits t a
  | .inter c d, t, a => c.Suits t a ∧ d.Suits t a
  | .allExcept c, t, a => c.Suits t a
  | .except c d, t, a => c.Suits t a ∧ d.Suits t a
  | .root c, t, a => c.Suits t a
  | .root2 c d, t, a => c.Suits t a ∧ d.Suits t a
  | .component c, t, a => ∃ e l, t.IsElement e ∧ a = .seqOf l ∧ ∀ x ∈ l, c.Suits e x
  | .components ncs, t, a => ncs.Suits t a
  | _, _, _ => True
def SCs.Suits : SCs → NTy → AV → Prop
  | .nil, _, _ => True
  | .cons c rest, t, a => c.Suits t a ∧ rest.Suits t a
def SNs.Suits : SNs → NTy → AV → Prop
  | .nil, _, _ => True
  | .bare _ _ rest, t, a => rest.Suits t a
  | .cons nm _ c rest, t, a => (∃ i u, t.IsPart nm i u ∧ ∀ x, a.part i = some x → c.Suits u x) ∧ rest.Suits t a
end

/-- The constraint says nothing, because of a `MIN..MAX` in it. -/
def SC.Open : SC → Bool
  | .minMax => true
  | .size c => c.Open
  | .alphabet c => c.Open
  | .component c => c.Open
  | .root c => c.Open
  | .union c d => c.Open || d.Open
  | .inter c d => c.Open && d.Open
  | _ => false

/-- One of the constraints says something. -/
def SCs.SomeClosed : SCs → Prop
  | .nil => False
  | .cons c rest => c.Open = false ∨ rest.SomeClosed

mutual
/-- Every type included in the constraint has a constraint other than `MIN..MAX`; and the constraint after an extension
marker is not `MIN..MAX`. -/
def SC.Solid : SC → Prop
  | .includes cons => cons.SomeClosed ∧ cons.Solid
  | .size c => c.Solid
  | .alphabet c => c.Solid
  | .component c => c.Solid
  | .root c => c.Solid
  | .union c d => c.Solid ∧ d.Solid
  | .inter c d => c.Solid ∧ d.Solid
  | .allExcept c => c.Solid
  | .except c d => c.Solid ∧ d.Solid
  | .root2 c d => c.Solid ∧ d.Solid ∧ d.Open = false
  | .components ncs => ncs.Solid
  | _ => True
def SCs.Solid : SCs → Prop
  | .nil => True
  | .cons c rest => c.Solid ∧ rest.Solid
def SNs.Solid : SNs → Prop
  | .nil => True
  | .bare _ _ rest => rest.Solid
  | .cons _ _ c rest => c.Solid ∧ rest.Solid
end

mutual
/-- The same only for operands of unions, for what is excluded, and inside WITH COMPONENTS: elsewhere a type without constraints may
be included. -/
def SC.Regular : SC → Prop
  | .includes cons => cons.Regular
  | .size c => c.Regular
  | .alphabet c => c.Regular
  | .component c => c.Regular
  | .root c => c.Regular
  | .union c d => c.Solid ∧ d.Solid
  | .inter c d => c.Regular ∧ d.Regular
  | .allExcept c => c.Solid
  | .except c d => c.Regular ∧ d.Solid
  | .root2 c d => c.Solid ∧ d.Solid ∧ d.Open = false
  | .components ncs => ncs.Solid
  | _ => True
def SCs.Regular : SCs → Prop
  | .nil => True
  | .cons c rest => c.Regular ∧ rest.Regular
end

end Asn1
