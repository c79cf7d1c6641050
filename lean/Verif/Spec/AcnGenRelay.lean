import Verif.Spec.AcnGenSafe
/-!
# Specification: what a generated ACN decoder may accept, and which types can be relayed

Of the model only the syntax of types is used.
-/
namespace Asn1

mutual
/-- `v` satisfies the constraints of the ASN.1 type. Nothing is said about ACN here: neither the encodings nor the determinants play a role. A component that is absent
holds its DEFAULT (or nothing). -/
def Satisfies : ATy → Val → Prop
  | .prim t, v => Valid t v
  | .leaf (.int _ r _ _), .int x => r.contains x
  | .leaf (.bool _), .bool _ => True
  | .leaf (.enum _ valid _), .enum x => x ∈ valid
  | .nullPat _ _, .null => True
  | .real64 _ holds, .real d => holds d = true
  | .real32 _ holds, .real d => holds d = true ∧ d.toNat < 2 ^ 32
  | .octets lo hi _ _, .octets arr => lo ≤ arr.length ∧ arr.length ≤ hi
  | .bits lo hi _ _, .bits n arr => lo ≤ n ∧ n ≤ hi ∧ ∃ w : List Bool, w.length = n ∧ Packed w arr
  | .strAscii alphabet lo hi, .str chars => StrValid alphabet lo hi chars
  | .strNull alphabet lo hi _, .str chars => StrValid alphabet lo hi chars
  | .strExt alphabet lo hi _, .str chars => StrValid alphabet lo hi chars
  | .strIdx alphabet lo hi _, .str chars => StrValid alphabet lo hi chars
  | .seq fs, .seq vs => SatisfiesFields fs vs
  | .seqOf lo hi _ t, .seqOf vs => lo ≤ vs.length ∧ vs.length ≤ hi ∧ ∀ v ∈ vs, Satisfies t v
  | .choice _ alts, .choice i v => SatisfiesAlt alts i v
  | .ref _ t, v => Satisfies t v
  | .align _ t, v => Satisfies t v
  | _, _ => False
def SatisfiesFields : AFields → List (Bool × Val) → Prop
  | .nil, [] => True
  | .asn1 .mandatory t rest, (e, v) :: vs => (e = true ∧ Satisfies t v) ∧ SatisfiesFields rest vs
  | .asn1 (.optional _ none) t rest, (e, v) :: vs => ((e = true ∧ Satisfies t v) ∨ (e = false ∧ v = .null)) ∧ SatisfiesFields rest vs
  | .asn1 (.optional _ (some d)) t rest, (e, v) :: vs => ((e = true ∧ Satisfies t v) ∨ (e = false ∧ v = d)) ∧ SatisfiesFields rest vs
  | .asn1 .absent _ rest, (e, v) :: vs => (e = false ∧ v = .null) ∧ SatisfiesFields rest vs
  | .asn1 .present t rest, (e, v) :: vs => (e = true ∧ Satisfies t v) ∧ SatisfiesFields rest vs
  | .acn _ _ _ rest, vs => SatisfiesFields rest vs
  | .acnNull _ _ rest, vs => SatisfiesFields rest vs
  | _, _ => False
def SatisfiesAlt : AAlts → Nat → Val → Prop
  | .nil, _, _ => False
  | .cons _ t _, 0, v => Satisfies t v
  | .cons _ _ rest, i + 1, v => SatisfiesAlt rest i v
end

mutual
/-- The condition on the types without ACN properties, which are decoded as in uPER (`C48`). -/
def APrims : ATy → Prop
  | .prim t => Ok t ∧ Guarded t ∧ NoMin t
  | .seq fs => APrimsFields fs
  | .seqOf _ _ _ t => APrims t
  | .choice _ alts => APrimsAlts alts
  | .ref _ t => APrims t
  | .align _ t => APrims t
  | _ => True
def APrimsFields : AFields → Prop
  | .nil => True
  | .asn1 _ t rest => APrims t ∧ APrimsFields rest
  | .acn _ _ _ rest => APrimsFields rest
  | .acnNull _ _ rest => APrimsFields rest
def APrimsAlts : AAlts → Prop
  | .nil => True
  | .cons _ t rest => APrims t ∧ APrimsAlts rest
end

/-! ### Types that can be relayed -/

mutual
/-- The determinants that every value of the type asks for: the length of a string or list, the presence flag of a component, the selector of a CHOICE, in components
that are always there. -/
def demands : ATy → List Nat
  | .octets _ _ k _ => [k]
  | .bits _ _ k _ => [k]
  | .strExt _ _ _ k => [k]
  | .strIdx _ _ _ k => [k]
  | .seq fs => demandsFields fs
  | .seqOf _ _ (some k) _ => [k]
  | .choice byDet alts => if byDet then alts.keys else []
  | .ref args t => (args.filter fun a => a.2 ∈ demands t).map (·.1)
  | .align _ t => demands t
  | _ => []
def demandsFields : AFields → List Nat
  | .nil => []
  | .asn1 o t rest => o.uses ++ (if o.always then demands t else []) ++ demandsFields rest
  | .acn _ _ _ rest => demandsFields rest
  | .acnNull _ _ rest => demandsFields rest
end

mutual
/-- Every determinant that is inserted is asked for. `D`: the determinants that are asked for where this type is. -/
def Asked (D : List Nat) : ATy → Prop
  | .seq fs => AskedFields D fs
  | .seqOf _ _ _ t => Asked (demands t) t
  | .choice _ alts => AskedAlts D alts
  | .ref _ t => Asked (demands t) t
  | .align _ t => Asked D t
  | _ => True
def AskedFields (D : List Nat) : AFields → Prop
  | .nil => True
  | .asn1 _ t rest => Asked (demands t ++ D) t ∧ AskedFields D rest
  | .acn k _ _ rest => k ∈ D ∧ AskedFields D rest
  | .acnNull _ _ rest => AskedFields D rest
def AskedAlts (D : List Nat) : AAlts → Prop
  | .nil => True
  | .cons _ t rest => Asked (demands t ++ D) t ∧ AskedAlts D rest
end

mutual
/-- The determinants that are lengths of character strings. The decoder of such a string takes a determinant above the maximum for the maximum and stops at a zero
octet, so the length of what it returns may be less than the determinant. -/
def strKeys : ATy → List Nat
  | .strExt _ _ _ k => [k]
  | .strIdx _ _ _ k => [k]
  | .seq fs => strKeysFields fs
  | .choice _ alts => strKeysAlts alts
  | .ref args t => (args.filter fun a => a.2 ∈ strKeys t).map (·.1)
  | .align _ t => strKeys t
  | _ => []
def strKeysFields : AFields → List Nat
  | .nil => []
  | .asn1 _ t rest => strKeys t ++ strKeysFields rest
  | .acn _ _ _ rest => strKeysFields rest
  | .acnNull _ _ rest => strKeysFields rest
def strKeysAlts : AAlts → List Nat
  | .nil => []
  | .cons _ t rest => strKeys t ++ strKeysAlts rest
end

/-- The condition on the determinants of a type assignment, or of the element type of a SEQUENCE OF: what a determinant can say it can say again, one that is the length
of a character string is nothing else, and can say every smaller length too. -/
structure Relayed (t : ATy) : Prop where
  fits : ∀ k l x, (k, l) ∈ dets t → DetMay l x → LeafFits l x
  strs : ∀ k ∈ strKeys t, dependents t k ≤ 1 ∧ ∀ l x y, (k, l) ∈ dets t → DetMay l y → 0 ≤ x → x ≤ max y 0 → LeafFits l x
  asked : Asked (demands t) t

/-- What a component can hold and satisfies the constraints can be encoded. -/
def LeafCovers (l : ALeaf) : Prop :=
  ∀ x, DetMay l x →
    match l with
    | .int _ r _ _ => r.contains x → LeafFits l x
    | .bool _ => LeafFits l x
    | .enum _ valid _ => x ∈ valid → LeafFits l x

mutual
/-- Types whose values can be relayed; `P k x`: determinant `k` may be `x`. A presence flag must be 0 or 1; strings and lists with an external length must not all be empty;
the determinants of a type assignment are numbered differently. -/
def ARelays (P : Nat → Int → Prop) : ATy → Prop
  | .prim t => NoMin t
  | .leaf l => LeafCovers l
  | .octets _ hi _ _ => 0 < hi
  | .bits _ hi _ _ => 0 < hi
  | .seq fs => ARelaysFields P fs
  | .seqOf _ hi k t => (k ≠ none → 0 < hi) ∧ Relayed t ∧ ARelays P t
  | .choice _ alts => ARelaysAlts P alts
  | .ref args t => ((dets t).map (·.1)).Nodup ∧ (∀ a ∈ args, a.2 ∉ (dets t).map (·.1)) ∧ Relayed t ∧
    ARelays (mayBe (fun j x => ∃ k, (k, j) ∈ args ∧ P k x) t) t
  | .align _ t => ARelays P t
  | _ => True
def ARelaysFields (P : Nat → Int → Prop) : AFields → Prop
  | .nil => True
  | .asn1 o t rest => (∀ k ∈ o.uses, ∀ x, P k x → x = 0 ∨ x = 1) ∧ ARelays P t ∧ ARelaysFields P rest
  | .acn _ _ _ rest => ARelaysFields P rest
  | .acnNull _ _ rest => ARelaysFields P rest
def ARelaysAlts (P : Nat → Int → Prop) : AAlts → Prop
  | .nil => True
  | .cons _ t rest => ARelays P t ∧ ARelaysAlts P rest
end

/-- A type without parameters whose values can be relayed. -/
def AcnRelays (t : ATy) : Prop :=
  ((dets t).map (·.1)).Nodup ∧ Relayed t ∧ ARelays (mayBe (fun _ _ => False) t) t

end Asn1
