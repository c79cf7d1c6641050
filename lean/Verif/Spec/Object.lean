import Verif.Model.Object
import Verif.Spec.Uper
import Verif.Spec.Valid
/-!
# What a decoder leaves in an object; conditions for C94

The numbers in a type description (C integer, sizes, alphabet) are those that the compiler computes from the constraints:
these computations are the subject of C33, C49 and C50.
-/
namespace Asn1

mutual
/-- The object after a decoder has stored the value in it. Nothing is said of what the decoder does not store: array elements
behind the count, characters behind the terminating zero, the content of absent components without a DEFAULT, the
`exist` bit that a mandatory component does not have, the count when the effective size is fixed (StgC/uper_c.stg has no `nCount` in the
templates for a fixed size). `sz`: the effective size from the references that lead here. -/
def StoredIn (sz : Option (Nat × Nat)) : CTy → Val → CVal → Prop
  | .int _ _, .int v, .int x => x = v
  | .bool _, .bool v, .bool x => x = v
  | .null, .null, .null => True
  | .enum _ _, .enum v, .enum x => x = v
  | .octets lo hi _, .octets l, .octets n arr => arr.length = hi ∧ l <+: arr ∧ (effLo sz lo ≠ effHi sz hi → n = l.length)
  | .bits lo hi _, .bits k l, .bits n arr => arr.length = (hi + 7) / 8 ∧ l <+: arr ∧ (effLo sz lo ≠ effHi sz hi → n = k)
  | .str _ hi _ _, .str l, .str arr => arr.length = hi + 1 ∧ l ++ [0#8] <+: arr
  | .oid _ _, .oid o, .oid x => x.values.length = 20 ∧ x.nCount = o.nCount ∧ o.values.take o.nCount <+: x.values
  | .real _, .real v, .real x => x = v
  | .seq fs _, .seq l, .seq m => StoredFields fs l m
  | .seqOf lo hi t _, .seqOf l, .seqOf n arr => arr.length = hi ∧ (effLo sz lo ≠ effHi sz hi → n = l.length) ∧ l.length ≤ hi ∧
    ∀ (i : Nat) (v : Val) (x : CVal), l[i]? = some v → arr[i]? = some x → StoredIn none t v x
  | .choice alts _, .choice i v, .choice k u => k = i + 1 ∧ StoredAlt alts i v u
  | .ref t size _, v, x => StoredIn (sz.or size) t v x
  | _, _, _ => False
/-- The components. -/
def StoredFields : CFields → List (Bool × Val) → List (Bool × CVal) → Prop
  | .nil, [], [] => True
  | .cons .mandatory t rest, (_, v) :: vs, (_, x) :: xs => StoredIn none t v x ∧ StoredFields rest vs xs
  | .cons (.default _) t rest, (e, v) :: vs, (b, x) :: xs => b = e ∧ StoredIn none t v x ∧ StoredFields rest vs xs
  | .cons _ t rest, (e, v) :: vs, (b, x) :: xs => b = e ∧ (e = true → StoredIn none t v x) ∧ StoredFields rest vs xs
  | _, _, _ => False
/-- The union, as alternative number `i`. -/
def StoredAlt : CAlts → Nat → Val → CVal → Prop
  | .nil, _, _, _ => False
  | .cons t _, 0, v, x => StoredIn none t v x
  | .cons _ rest, i + 1, v, x => StoredAlt rest i v x
end

/-- The object after a decoder has stored the value in it. -/
def Stored (t : CTy) (v : Val) (x : CVal) : Prop := StoredIn none t v x

/-- WITH COMPONENTS says ABSENT. -/
def COpt.markedAbsent : COpt → Bool
  | .absent => true
  | _ => false

/-- WITH COMPONENTS says PRESENT. -/
def COpt.markedPresent : COpt → Bool
  | .present => true
  | _ => false

mutual
/-- What the check does not promise about a value, but the codec needs: in an INTEGER without upper or lower bound a number
that the runtime can handle (C35 and C09-C11 say what happens otherwise); a REAL that the encoding can hold; a component
that WITH COMPONENTS marks ABSENT is absent, and one that it marks PRESENT is there (the constraint itself is
written at the reference). `ex`: the constraints of the references that lead here. -/
def CodableIn (ex : List AC) : CTy → AV → Prop
  | .int _ cons, .int v => ∀ r, intRangeOf (cons ++ ex) = some r → r.holds64 false v
  | .real _, .real d => RealHeld d
  | .seq fs _, .seq l => CodableFields fs l
  | .seqOf _ _ t _, .seqOf l => ∀ x ∈ l, CodableIn [] t x
  | .choice alts _, .choice i v => CodableAlt alts i v
  | .ref t _ cons, a => CodableIn (cons ++ ex) t a
  | _, _ => True
/-- The components. -/
def CodableFields : CFields → List (Option AV) → Prop
  | .cons o t rest, some x :: xs => o.markedAbsent = false ∧ CodableIn [] t x ∧ CodableFields rest xs
  | .cons o _ rest, none :: xs => o.markedPresent = false ∧ CodableFields rest xs
  | _, _ => True
/-- The chosen alternative. -/
def CodableAlt : CAlts → Nat → AV → Prop
  | .nil, _, _ => True
  | .cons t _, 0, v => CodableIn [] t v
  | .cons _ rest, i + 1, v => CodableAlt rest i v
end

/-- What the check does not promise about a value, but the codec needs. -/
def Codable (t : CTy) (a : AV) : Prop := CodableIn [] t a

/-- `sz` is the effective size that follows from all constraints, and it is fixed if and only if the size of the C type is (otherwise
the decoder does not store the count). -/
def EffectiveSize {V : Type} (cs : List (Con (SizeLeaf (List V)))) (lo hi : Nat) (sz : Option (Nat × Nat)) : Prop :=
  sizeRange List.length cs = some (.concrete (effLo sz lo) (effHi sz hi)) ∧ (∀ c ∈ cs, c.Leaves SizeLeaf.U32) ∧
    SerialNoMin SizeLeaf.NoMinInter SizeLeaf.NotMin cs ∧ (effLo sz lo = effHi sz hi ↔ lo = hi)

mutual
/-- The numbers in the type are those that the compiler computes from the constraints; no extension markers; no range
`MIN..v` in an intersection (C33 says what happens otherwise); strings are IA5Strings; references to SEQUENCE and CHOICE types have no constraints of
their own. `sz`, `ex`: the effective size and the constraints of the references that lead here. -/
def ComputedIn (sz : Option (Nat × Nat)) (ex : List AC) : CTy → Prop
  | .int cls cons => (∃ r slim, intRangeOf cons = some r ∧ cls = intClassOf slim r) ∧
    ∃ cs r, AC.cons intLeaf (cons ++ ex) = some cs ∧ intRange cs = some r ∧ SerialNoMin (fun _ => True) RLeaf.NotMin cs
  | .enum _ cons => ∃ cs, AC.cons itemLeaf (cons ++ ex) = some cs
  | .octets lo hi cons => ∃ cs, AC.cons octetLeaf (cons ++ ex) = some cs ∧ EffectiveSize cs lo hi sz
  | .bits lo hi cons => ∃ cs, AC.cons bitLeaf (cons ++ ex) = some cs ∧ EffectiveSize cs lo hi sz
  | .str lo hi alphabet cons => strChars cons = some alphabet ∧
    ∃ cs al, AC.cons strLeaf (cons ++ ex) = some cs ∧ strSizeRange cs = some (.concrete (effLo sz lo) (effHi sz hi)) ∧
    (∀ c ∈ cs, c.Leaves StrLeaf.U32) ∧ SerialNoMin StrLeaf.NoMinInter StrLeaf.NotMin cs ∧ strAlphabet ia5Chars cs = some al
  | .real cons => ∃ cs, AC.cons realLeaf (cons ++ ex) = some cs
  | .seq fs _ => ex = [] ∧ ComputedFields fs
  | .seqOf lo hi t cons => (∃ cs, AC.cons elemLeaf (sizeCons cons ++ ex) = some cs ∧ EffectiveSize cs lo hi sz) ∧ ComputedIn none [] t
  | .choice alts _ => ex = [] ∧ ComputedAlts alts
  | .ref t size cons => ComputedIn (sz.or size) (cons ++ ex) t
  | _ => True
/-- The components. -/
def ComputedFields : CFields → Prop
  | .nil => True
  | .cons _ t rest => ComputedIn none [] t ∧ ComputedFields rest
/-- The alternatives. -/
def ComputedAlts : CAlts → Prop
  | .nil => True
  | .cons t rest => ComputedIn none [] t ∧ ComputedAlts rest
end

/-- The numbers in the type are those that the compiler computes from the constraints. -/
def Computed (t : CTy) : Prop := ComputedIn none [] t

end Asn1
