import Verif.Model.TestCases
import Verif.Spec.Init
/-!
# What C105 says of test cases, and conditions for it
-/
namespace Asn1

/-- Run on a `static` object, the statements store nothing outside of it and make it denote the value. -/
def Runs (t : CTy) (f : Store) (a : AV) : Prop := ∀ s, ∃ w, f (zeroMem t) s = .ok (w, s) ∧ meaning t w = some a

/-- The value is that of a test case of the type, under constraints and a size that references to the type add. -/
def TestedUnder (acc : List AC) (sz : Option (Nat × Nat)) (t : CTy) (a : AV) : Prop :=
  ∃ f ∈ testCases zeroMem t acc sz, Runs t f a

/-- The value is that of a test case of the type. -/
def Tested (t : CTy) (a : AV) : Prop := TestedUnder [] none t a

/-- The sizes that may be tested when `a..b` is the effective size: the bounds, and in a variable size with more than 65536
elements those for which the encoding is fragmented. -/
def TestSize (a b n : Nat) : Prop := n = a ∨ n = b ∨ (a < b ∧ 65536 < b ∧ 16385 ≤ n ∧ n ≤ b)

/-- `a..b` is part of the size `lo..hi` of the array; the array has a count exactly when `a..b` is more than one size. -/
def Counted (lo hi a b : Nat) : Prop := a ≤ b ∧ b ≤ hi ∧ (lo = hi ↔ a = b) ∧ (lo = hi → a = hi)

/-- A range of real numbers. -/
def AC.RealRange : AC → Prop
  | .realRange _ => True
  | _ => False

/-- A single OBJECT IDENTIFIER value. -/
def AC.OidLeaf : AC → Prop
  | .oidVal _ => True
  | _ => False

/-- An object filled with zeros denotes a value that satisfies the constraints. -/
def ZeroOk (t : CTy) : Prop := ∃ a, t.Sat a ∧ meaning t (zeroMem t) = some a

mutual
/-- Types for which the test cases are claimed to be right. `acc`: the constraints that references to the type
add; `sz`: the size that they impose. -/
def CTy.TestOk : CTy → List AC → Option (Nat × Nat) → Prop
  -- ranges with 64 bit bounds; the C type holds all 64 bit numbers that satisfy them
  | .int cls cons, acc, _ =>
    (∀ c ∈ cons ++ acc, c.Over (AC.IntLeaf (if cls.positive then 0 else -(2 ^ 63))
      (if cls.positive then 2 ^ 64 - 1 else 2 ^ 63 - 1))) ∧
    ∀ v, cls.Word v → SatAll (cons ++ acc) (.int v) → cls.min ≤ v ∧ v ≤ cls.max
  | .bool cons, acc, _ => ∀ c ∈ cons ++ acc, c.Over AC.BoolLeaf
  | .null, acc, _ => acc = []
  | .enum _ cons, acc, _ => ∀ c ∈ cons ++ acc, c.Over AC.ItemLeaf
  -- only SIZE constraints that admit the sizes; or a list of values
  | .octets lo hi cons, acc, sz =>
    Counted lo hi (sz.getD (lo, hi)).1 (sz.getD (lo, hi)).2 ∧
    (((∀ c ∈ cons ++ acc, c.Over AC.SizeLeaf) ∧
      ∀ l : List Byte, TestSize (sz.getD (lo, hi)).1 (sz.getD (lo, hi)).2 l.length → SatAll (cons ++ acc) (.octets l)) ∨
    ∃ c, cons ++ acc = [c] ∧ c.Alternatives ∧ c.Over AC.OctetsLeaf ∧
      ∀ w, c.Sat (.octets w) → w.length ≤ hi ∧ (lo = hi → w.length = hi))
  -- only SIZE constraints that admit the sizes
  | .bits lo hi cons, acc, sz =>
    Counted lo hi (sz.getD (lo, hi)).1 (sz.getD (lo, hi)).2 ∧ (∀ c ∈ cons ++ acc, c.Over AC.SizeLeaf) ∧
    ∀ l : List Bool, TestSize (sz.getD (lo, hi)).1 (sz.getD (lo, hi)).2 l.length → SatAll (cons ++ acc) (.bits l)
  -- the constraints admit all strings of the sizes over the alphabet, which is without NUL or the whole of ASCII
  | .str lo hi alphabet cons, acc, sz =>
    (sz.getD (lo, hi)).1 ≤ (sz.getD (lo, hi)).2 ∧ (sz.getD (lo, hi)).2 ≤ hi ∧
    ((alphabet ≠ [] ∧ alphabet.length < 128 ∧ ∀ ch ∈ alphabet, ch ≠ 0#8 ∧ ch.toNat < 128) ∨
      (128 ≤ alphabet.length ∧ ∀ ch : Byte, ch.toNat < 128 → ch ∈ alphabet)) ∧
    ∀ l : List Byte, TestSize (sz.getD (lo, hi)).1 (sz.getD (lo, hi)).2 l.length → (∀ ch ∈ l, ch ∈ alphabet) →
      SatAll (cons ++ acc) (.str l)
  -- no constraint; or a list of values that the generated code can hold
  | .oid rel cons, acc, _ => cons ++ acc = [] ∨
    ∃ c, cons ++ acc = [c] ∧ c.Alternatives ∧ c.Over AC.OidLeaf ∧ ∀ w, c.Sat (.oid w) → w.length ≤ 20 ∧ OidArcsOk rel w
  | .real cons, acc, _ => ∀ c ∈ cons ++ acc, c.Over AC.RealRange
  -- no constraint on the whole
  | .seq fs cons, acc, _ => cons ++ acc = [] ∧ fs.TestOk
  -- the constraints admit the sizes
  | .seqOf lo hi t cons, acc, sz =>
    Counted lo hi (sz.getD (lo, hi)).1 (sz.getD (lo, hi)).2 ∧
    (∀ l : List AV, TestSize (sz.getD (lo, hi)).1 (sz.getD (lo, hi)).2 l.length → SatAll (cons ++ acc) (.seqOf l)) ∧ t.TestOk [] none
  -- no constraint on the whole
  | .choice alts cons, acc, _ => cons ++ acc = [] ∧ alts.TestOk
  | .ref t sz' refCons, acc, sz => t.TestOk (refCons ++ acc) (sz <|> sz')
/-- The components: where a component must be present, its type has a test case, or zeros are a value of it. -/
def CFields.TestOk : CFields → Prop
  | .nil => True
  | .cons .absent _ rest => rest.TestOk
  | .cons .mandatory t rest => t.TestOk [] none ∧ (testCases zeroMem t [] none = [] → ZeroOk t) ∧ rest.TestOk
  | .cons .present t rest => t.TestOk [] none ∧ testCases zeroMem t [] none ≠ [] ∧ rest.TestOk
  | .cons _ t rest => t.TestOk [] none ∧ rest.TestOk
/-- The alternatives. -/
def CAlts.TestOk : CAlts → Prop
  | .nil => True
  | .cons t rest => t.TestOk [] none ∧ rest.TestOk
end

end Asn1
