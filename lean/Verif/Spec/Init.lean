import Verif.Spec.CVal
/-!
# Conditions for C82 and C83: memory of the declared layout, types with an initial value, values that can be declared

Nothing here mentions generated code.
-/
namespace Asn1

mutual
/-- The object has the layout of the C type: nothing is said about its content. -/
def HasLayout : CTy → CVal → Prop
  | .int _ _, .int _ => True
  | .bool _, .bool _ => True
  | .null, .null => True
  | .enum _ _, .enum _ => True
  | .octets _ hi _, .octets _ arr => arr.length = hi
  | .bits _ hi _, .bits _ arr => arr.length = (hi + 7) / 8
  | .str _ hi _ _, .str arr => arr.length = hi + 1
  | .oid _ _, .oid o => o.values.length = 20
  | .real _, .real _ => True
  | .seq fs _, .seq l => HasLayoutFields fs l
  | .seqOf _ hi t _, .seqOf _ arr => arr.length = hi ∧ ∀ x ∈ arr, HasLayout t x
  | .choice _ _, .choice _ _ => True
  | .ref t _ _, v => HasLayout t v
  | _, _ => False
/-- The components. -/
def HasLayoutFields : CFields → List (Bool × CVal) → Prop
  | .nil, [] => True
  | .cons _ t rest, (_, v) :: vs => HasLayout t v ∧ HasLayoutFields rest vs
  | _, _ => False
end

mutual
/-- Memory filled with zeros, as that of a `static` object. -/
def zeroMem : CTy → CVal
  | .int _ _ => .int 0
  | .bool _ => .bool false
  | .null => .null
  | .enum _ _ => .enum 0
  | .octets _ hi _ => .octets 0 (List.replicate hi 0#8)
  | .bits _ hi _ => .bits 0 (List.replicate ((hi + 7) / 8) 0#8)
  | .str _ hi _ _ => .str (List.replicate (hi + 1) 0#8)
  | .oid _ _ => .oid ⟨0, List.replicate 20 0#64⟩
  | .real _ => .real 0#64
  | .seq fs _ => .seq (zeroFields fs)
  | .seqOf _ hi t _ => .seqOf 0 (List.replicate hi (zeroMem t))
  | .choice _ _ => .choice 0 .null
  | .ref t _ _ => zeroMem t
/-- The components. -/
def zeroFields : CFields → List (Bool × CVal)
  | .nil => []
  | .cons _ t rest => (false, zeroMem t) :: zeroFields rest
end

/-- The value satisfies all constraints of the list. -/
def SatAll (cons : List AC) (a : AV) : Prop := ∀ c ∈ cons, c.Sat a

/-- Every elementary constraint in the constraint is of the given kind. -/
def AC.Over (leaf : AC → Prop) : AC → Prop
  | .union c d => c.Over leaf ∧ d.Over leaf
  | .inter c d => c.Over leaf ∧ d.Over leaf
  | .allExcept c => c.Over leaf
  | .except c d => c.Over leaf ∧ d.Over leaf
  | .root c => c.Over leaf
  | .root2 c d => c.Over leaf ∧ d.Over leaf
  | c => leaf c

/-- Without EXCEPT and ALL EXCEPT. -/
def AC.Positive : AC → Prop
  | .union c d => c.Positive ∧ d.Positive
  | .inter c d => c.Positive ∧ d.Positive
  | .allExcept _ => False
  | .except _ _ => False
  | .root c => c.Positive
  | .root2 c d => c.Positive ∧ d.Positive
  | _ => True

/-- A union of elementary constraints. -/
def AC.Alternatives : AC → Prop
  | .union c d => c.Alternatives ∧ d.Alternatives
  | .inter _ _ => False
  | .allExcept _ => False
  | .except _ _ => False
  | .root c => c.Alternatives
  | .root2 c d => c.Alternatives ∧ d.Alternatives
  | _ => True

/-- A range of integers with bounds between `m` and `n`. -/
def AC.IntLeaf (m n : Int) : AC → Prop
  | .range (.single w) => m ≤ w ∧ w ≤ n
  | .range (.range v1 v2 _ _) => (m ≤ v1 ∧ v1 ≤ n) ∧ m ≤ v2 ∧ v2 ≤ n
  | .range (.valMax v1 _) => m ≤ v1 ∧ v1 ≤ n
  | .range (.minVal v2 _) => m ≤ v2 ∧ v2 ≤ n
  | _ => False

/-- A range of real numbers, its lower bound included. -/
def AC.RealLeafIncl : AC → Prop
  | .realRange (.single _) => True
  | .realRange (.range _ _ i _) => i = true
  | .realRange (.valMax _ i) => i = true
  | .realRange (.minVal _ _) => True
  | _ => False

/-- A truth value. -/
def AC.BoolLeaf : AC → Prop
  | .boolean _ => True
  | _ => False

/-- An item of an enumeration. -/
def AC.ItemLeaf : AC → Prop
  | .item _ => True
  | _ => False

/-- SIZE. -/
def AC.SizeLeaf : AC → Prop
  | .size _ => True
  | _ => False

/-- A single OCTET STRING value. -/
def AC.OctetsLeaf : AC → Prop
  | .octetsVal _ => True
  | _ => False

/-- `a..b` is part of the size `lo..hi` of the array, the whole of it when the array has no count. -/
def Narrower (lo hi a b : Nat) : Prop := a ≤ b ∧ b ≤ hi ∧ (lo = hi → a = hi)

/-- 64 bits, unsigned or signed. -/
def IntClass.Word (cls : IntClass) (v : Int) : Prop :=
  if cls.positive then 0 ≤ v ∧ v < 2 ^ 64 else -(2 ^ 63) ≤ v ∧ v < 2 ^ 63

mutual
/-- The value can be stored as declared. Excluded: BIT STRING of variable size with more than one bit; references that fix the size of a type of
variable size; strings with quotation marks, backslashes or control characters 0. `sz` is the size that references impose. -/
def CTy.Storable : CTy → Option (Nat × Nat) → AV → Prop
  | .int cls _, _, .int v => cls.min ≤ v ∧ v ≤ cls.max
  | .bool _, _, .bool _ => True
  | .null, _, .null => True
  | .enum items _, _, .enum v => v ∈ items
  | .octets lo hi _, sz, .octets l =>
    l.length ≤ hi ∧ (lo = hi → l.length = hi) ∧ ((sz.getD (lo, hi)).1 = (sz.getD (lo, hi)).2 → lo = hi)
  | .bits lo hi _, sz, .bits l =>
    l.length ≤ hi ∧ (lo = hi → l.length = hi) ∧ (lo ≠ hi → l.length ≤ 1) ∧
      ((sz.getD (lo, hi)).1 = (sz.getD (lo, hi)).2 → lo = hi)
  | .str _ hi _ _, _, .str l =>
    l.length ≤ hi ∧ ∀ c ∈ l, c ≠ 0#8 ∧ c.toNat < 128 ∧ c ≠ 0x22#8 ∧ c ≠ 0x5C#8
  | .oid _ _, _, .oid l => l.length ≤ 20
  | .real _, _, .real _ => True
  | .seq fs _, _, .seq l => fs.Storable l
  | .seqOf lo hi t _, sz, .seqOf l =>
    l.length ≤ hi ∧ (lo = hi → l.length = hi) ∧ ((sz.getD (lo, hi)).1 = (sz.getD (lo, hi)).2 → lo = hi) ∧
      ∀ x ∈ l, t.Storable none x
  | .choice alts _, _, .choice i x => alts.Storable i x
  | .ref t sz' _, sz, a => t.Storable (sz <|> sz') a
  | _, _, _ => False
/-- The components: mandatory ones have a value. -/
def CFields.Storable : CFields → List (Option AV) → Prop
  | .nil, [] => True
  | .cons _ t rest, some x :: xs => t.Storable none x ∧ rest.Storable xs
  | .cons .mandatory _ _, none :: _ => False
  | .cons _ _ rest, none :: xs => rest.Storable xs
  | _, _ => False
/-- The alternative. -/
def CAlts.Storable : CAlts → Nat → AV → Prop
  | .nil, _, _ => False
  | .cons t _, 0, x => t.Storable none x
  | .cons _ rest, i + 1, x => rest.Storable i x
end

mutual
/-- Types for which the generated initialisation is claimed to be right. `acc`: the constraints that references to the type
add; `sz`: the size that they impose. -/
def CTy.InitOk : CTy → List AC → Option (Nat × Nat) → Prop
  -- ranges without exceptions, with 64 bit bounds; some 64 bit number satisfies them, and the C type holds all that do
  | .int cls cons, acc, _ =>
    (∀ c ∈ cons ++ acc, c.Positive ∧ c.Over (AC.IntLeaf (if cls.positive then 0 else -(2 ^ 63))
      (if cls.positive then 2 ^ 64 - 1 else 2 ^ 63 - 1))) ∧
    (∃ v, cls.Word v ∧ SatAll (cons ++ acc) (.int v)) ∧
    ∀ v, cls.Word v → SatAll (cons ++ acc) (.int v) → cls.min ≤ v ∧ v ≤ cls.max
  -- some truth value satisfies the constraints
  | .bool cons, acc, _ => (∀ c ∈ cons ++ acc, c.Over AC.BoolLeaf) ∧ ∃ b, SatAll (cons ++ acc) (.bool b)
  | .null, acc, _ => acc = []
  -- some item satisfies the constraints
  | .enum items cons, acc, _ =>
    (∀ c ∈ cons ++ acc, c.Over AC.ItemLeaf) ∧ ∃ v ∈ items, SatAll (cons ++ acc) (.enum v)
  -- only SIZE constraints that admit the lower bound of the size; or a list of values
  | .octets lo hi cons, acc, sz =>
    ((∀ c ∈ cons ++ acc, c.Over AC.SizeLeaf) ∧
      Narrower lo hi (sz.getD (lo, hi)).1 (sz.getD (lo, hi)).2 ∧
      ∀ l : List Byte, l.length = (sz.getD (lo, hi)).1 → SatAll (cons ++ acc) (.octets l)) ∨
    ∃ c, cons ++ acc = [c] ∧ c.Alternatives ∧ c.Over AC.OctetsLeaf ∧
      ((sz.getD (lo, hi)).1 = (sz.getD (lo, hi)).2 ↔ lo = hi) ∧
      ∀ w, c.Sat (.octets w) → w.length ≤ hi ∧ (lo = hi → w.length = hi)
  -- only SIZE constraints that admit the lower bound of the size
  | .bits lo hi cons, acc, sz =>
    (∀ c ∈ cons ++ acc, c.Over AC.SizeLeaf) ∧
    Narrower lo hi (sz.getD (lo, hi)).1 (sz.getD (lo, hi)).2 ∧
    ∀ l : List Bool, l.length = (sz.getD (lo, hi)).1 → SatAll (cons ++ acc) (.bits l)
  -- the alphabet has printable characters, and the longest strings of one of them satisfy the constraints
  | .str lo hi alphabet cons, acc, sz =>
    (sz.getD (lo, hi)).2 ≤ hi ∧ (∃ ch ∈ alphabet, 32 ≤ ch.toNat ∧ ch.toNat ≤ 126) ∧
    ∀ ch ∈ alphabet, 32 ≤ ch.toNat → ch.toNat ≤ 126 →
      SatAll (cons ++ acc) (.str (List.replicate (sz.getD (lo, hi)).2 ch))
  -- never
  | .oid _ _, _, _ => False
  -- ranges without exceptions, lower bounds included; some finite number satisfies them
  | .real cons, acc, _ =>
    (∀ c ∈ cons ++ acc, c.Positive ∧ c.Over AC.RealLeafIncl) ∧
    ∃ d : Dbl, IsFinite d ∧ SatAll (cons ++ acc) (.real d)
  -- no constraint on the whole
  | .seq fs cons, acc, _ => cons ++ acc = [] ∧ fs.InitOk
  -- the constraints admit the lower bound of the size
  | .seqOf lo hi t cons, acc, sz =>
    Narrower lo hi (sz.getD (lo, hi)).1 (sz.getD (lo, hi)).2 ∧
    (∀ l : List AV, l.length = (sz.getD (lo, hi)).1 → SatAll (cons ++ acc) (.seqOf l)) ∧ t.InitOk [] none
  -- no constraint on the whole; the first alternative
  | .choice alts cons, acc, _ => cons ++ acc = [] ∧ alts.InitOk
  | .ref t sz' refCons, acc, sz => t.InitOk (refCons ++ acc) (sz <|> sz')
/-- The components; those that a constraint excludes do not matter. -/
def CFields.InitOk : CFields → Prop
  | .nil => True
  | .cons (.default d) t rest => t.Storable none d ∧ t.Sat d ∧ rest.InitOk
  | .cons .absent _ rest => rest.InitOk
  | .cons _ t rest => t.InitOk [] none ∧ rest.InitOk
/-- The first alternative. -/
def CAlts.InitOk : CAlts → Prop
  | .nil => False
  | .cons t _ => t.InitOk [] none
end

end Asn1
