import Verif.Model.Types
import Verif.Spec.Strings
import Verif.Spec.Oid
import Verif.Spec.Stream
import Verif.Spec.Real
/-!
# Specification: the unaligned PER encoding of a value (X.691), valid values, admissible types

Independent of the C code and of the templates. `code true t v` is the encoding X.691 prescribes; `code false t v`
differs from it in exactly three places, which are marked `std`.
-/
namespace Asn1

/-! ### Encoding -/

/-- INTEGER (X.691, clause 13). -/
def intCode (r : Rng) (v : Int) : List Bool :=
  match r with
  | .concrete a b => constrainedCode a b v
  | .posInf a => lengthPrefixedNat (v - a).toNat
  | .negInf _ => lengthPrefixedInt v
  | .full => lengthPrefixedInt v

/-- INTEGER with an extension marker (X.691, 13.1): a bit that tells whether the value is outside the root. -/
def intExtCode (root : Rng) (inRoot : Int → Bool) (v : Int) : List Bool :=
  if inRoot v then false :: intCode root v else true :: lengthPrefixedInt v

/-- ENUMERATED (X.691, clause 14): the number of items with a smaller value, in the least number of bits. Deviation:
when a `switch` is emitted the compiler numbers the items in the order of their declaration. -/
def enumCode (std : Bool) (items : List Int) (table : Option (List Int)) (v : Int) : List Bool :=
  constrainedCode 0 ((items.length : Int) - 1)
    (if std || table.isSome then (items.countP (fun x => decide (x < v)) : Int) else (items.idxOf v : Int))

/-- Sized types (X.691, 11.9). Deviation: when the size is fixed, 65536 or more, and a multiple of 16384, the compiler
leaves out the zero length octet that ends the last fragment. -/
def sizedCodeGen (std : Bool) (lo hi : Nat) (items : List (List Bool)) : List Bool :=
  if !std && decide (lo = hi) && decide (65536 ≤ hi) && decide (hi % 16384 = 0)
  then (sizedCode lo hi items).take ((sizedCode lo hi items).length - 8)
  else sizedCode lo hi items

/-- A character: its position in the permitted alphabet, in the least number of bits (X.691, clause 30). -/
def charCode (alphabet : List Byte) (c : Byte) : List Bool :=
  constrainedCode 0 ((alphabet.length : Int) - 1) (alphabet.idxOf c)

/-- The binary encoding of a finite double that is not 0. In the standard the mantissa is odd (X.691, clause 15 with X.690,
11.3.1). Deviation: the compiler's runtime leaves the mantissa at 53 bits. -/
def binaryOf (std : Bool) (d : BitVec 64) : BinaryReal :=
  let e : Nat := d.toNat / 2 ^ 52 % 2 ^ 11
  let m : Nat := if e = 0 then d.toNat % 2 ^ 52 else 2 ^ 52 + d.toNat % 2 ^ 52
  let twos : Nat := if std then (List.range 53).countP (fun k => decide (m % 2 ^ (k + 1) = 0)) else 0
  let x : Int := ((if e = 0 then 1 else e : Nat) : Int) - 1075 + (twos : Int)
  { neg := decide (d.toNat / 2 ^ 63 = 1), baseCode := 0, scale := 0, expOctets := octetsInt x, exponent := x,
    manOctets := octetsNat (m / 2 ^ twos), mantissa := m / 2 ^ twos }

/-- REAL (X.691, clause 15): the contents octets behind their number. -/
def realCode (std : Bool) (d : BitVec 64) : List Bool :=
  if d = 0#64 then bitsMsb 8 0
  else if d = 0x8000000000000000#64 then bitsMsb 8 1 ++ bitsMsb 8 0x43
  else if d = 0x7FF0000000000000#64 then bitsMsb 8 1 ++ bitsMsb 8 0x40
  else if d = 0xFFF0000000000000#64 then bitsMsb 8 1 ++ bitsMsb 8 0x41
  else if d.toNat / 2 ^ 52 % 2 ^ 11 = 2047 then bitsMsb 8 1 ++ bitsMsb 8 0x42
  else (binaryOf std d).code

/-- The doubles that the runtime can transmit: zero, the infinities, one NaN, and finite numbers of at least `2 ^ -971` (C19
shows what happens to the others). -/
def RealHeld (d : BitVec 64) : Prop :=
  d = 0#64 ∨ d = 0x7FF0000000000000#64 ∨ d = 0xFFF0000000000000#64 ∨ d = 0x7FF8000000000000#64 ∨
    (52 ≤ d.toNat / 2 ^ 52 % 2 ^ 11 ∧ IsFinite d)

/-- The presence bits of a SEQUENCE (X.691, 19.2): one for each component that is not mandatory. -/
def presenceCode : Fields → List (Bool × Val) → List Bool
  | .cons .mandatory _ rest, _ :: vs => presenceCode rest vs
  | .cons _ _ rest, (e, _) :: vs => e :: presenceCode rest vs
  | _, _ => []

mutual
/-- The bits of a value. -/
def code (std : Bool) : Ty → Val → List Bool
  | .int _ r, .int v => intCode r v
  | .intExt root inRoot _, .int v => intExtCode root inRoot v
  | .bool, .bool b => [b]
  | .null, .null => []
  | .enum items _ table, .enum v => enumCode std items table v
  | .octets lo hi, .octets arr => sizedCodeGen std lo hi (arr.map byteBits)
  | .bits lo hi _ _, .bits n arr => sizedCodeGen std lo hi (((bytesBits arr).take n).map fun b => [b])
  | .str alphabet lo hi, .str chars => sizedCodeGen std lo hi (chars.map (charCode alphabet))
  | .oid, .oid o => oidCode (oidOctets (oidSubids ((o.values.take o.nCount).map BitVec.toNat)))
  | .relOid, .oid o => oidCode (oidOctets ((o.values.take o.nCount).map BitVec.toNat))
  | .real _, .real d => realCode std d
  | .seq fs, .seq vs => presenceCode fs vs ++ fieldsCode std fs vs
  | .seqOf lo hi t, .seqOf vs => sizedCodeGen std lo hi (vs.map (code std t))
  | .choice alts, .choice i v => constrainedCode 0 ((alts.length : Int) - 1) i ++ altCode std alts i v
  | .ref t, v => code std t v
  | _, _ => []
/-- The components that are present. -/
def fieldsCode (std : Bool) : Fields → List (Bool × Val) → List Bool
  | .cons _ t rest, (e, v) :: vs => (if e then code std t v else []) ++ fieldsCode std rest vs
  | _, _ => []
/-- The content of the chosen alternative. -/
def altCode (std : Bool) : Alts → Nat → Val → List Bool
  | .nil, _, _ => []
  | .cons t _, 0, v => code std t v
  | .cons _ rest, i + 1, v => altCode std rest i v
end

/-! ### Valid values -/

/-- The values of a range. -/
def Rng.contains : Rng → Int → Prop
  | .full, _ => True
  | .posInf a, v => a ≤ v
  | .negInf b, v => v ≤ b
  | .concrete a b, v => a ≤ v ∧ v ≤ b

/-- What the 64 bit runtime can hold of a value of a range without upper or lower bound. `ext`: the range is the root of
an extensible constraint, which makes the compiler use signed numbers. -/
def Rng.holds64 (ext : Bool) : Rng → Int → Prop
  | .concrete _ _, _ => True
  | .posInf a, v => if 0 ≤ a ∧ ext = false then v < 2 ^ 64 else v < 2 ^ 63 ∧ v - a < 2 ^ 63
  | .negInf _, v => -(2 ^ 63) < v ∧ v < 2 ^ 63
  | .full, v => -(2 ^ 63) < v ∧ v < 2 ^ 63

/-- The C array of an object identifier holds exactly these components, and zeros behind them. -/
def Oid.holdsComps (o : Oid) (l : List U64) : Prop :=
  o = ⟨l.length, l ++ List.replicate (20 - l.length) 0#64⟩

mutual
/-- `v` is a value of the type `t`, in the form a decoder produces: the bits behind the end of a BIT STRING and the
unused elements of an OBJECT IDENTIFIER are zero, a component that is not there has no content (`null`), or the
value of its DEFAULT. -/
def Valid : Ty → Val → Prop
  | .int _ r, .int v => r.contains v ∧ r.holds64 false v
  | .intExt root inRoot more, .int v =>
    (inRoot v = true ∧ root.holds64 true v) ∨
    (inRoot v = false ∧ (∃ f, more = some f ∧ f v = true) ∧ -(2 ^ 63) < v ∧ v < 2 ^ 63)
  | .bool, .bool _ => True
  | .null, .null => True
  | .enum _ valid _, .enum v => v ∈ valid
  | .octets lo hi, .octets arr => lo ≤ arr.length ∧ arr.length ≤ hi
  | .bits lo hi alo ahi, .bits n arr => lo ≤ n ∧ n ≤ hi ∧ alo ≤ n ∧ n ≤ ahi ∧ ∃ w : List Bool, w.length = n ∧ Packed w arr
  | .str alphabet lo hi, .str chars => lo ≤ chars.length ∧ chars.length ≤ hi ∧ ∀ c ∈ chars, c ∈ alphabet ∧ c ≠ 0#8
  | .oid, .oid o => ∃ a b l, o.holdsComps (a :: b :: l) ∧ a.toNat ≤ 2 ∧ b.toNat ≤ 39 ∧ l.length ≤ 18
  | .relOid, .oid o => ∃ l, o.holdsComps l ∧ 1 ≤ l.length ∧ l.length ≤ 20
  | .real holds, .real d => holds d = true ∧ RealHeld d
  | .seq fs, .seq vs => ValidFields fs vs
  | .seqOf lo hi t, .seqOf vs => lo ≤ vs.length ∧ vs.length ≤ hi ∧ ∀ v ∈ vs, Valid t v
  | .choice alts, .choice i v => ValidAlt alts i v
  | .ref t, v => Valid t v
  | _, _ => False
/-- The components of a SEQUENCE value. -/
def ValidFields : Fields → List (Bool × Val) → Prop
  | .nil, [] => True
  | .cons .mandatory t rest, (e, v) :: vs => (e = true ∧ Valid t v) ∧ ValidFields rest vs
  | .cons .optional t rest, (e, v) :: vs => ((e = true ∧ Valid t v) ∨ (e = false ∧ v = .null)) ∧ ValidFields rest vs
  | .cons (.default d) t rest, (e, v) :: vs => ((e = true ∧ Valid t v) ∨ (e = false ∧ v = d)) ∧ ValidFields rest vs
  | .cons .absent _ rest, (e, v) :: vs => (e = false ∧ v = .null) ∧ ValidFields rest vs
  | .cons .present t rest, (e, v) :: vs => (e = true ∧ Valid t v) ∧ ValidFields rest vs
  | _, _ => False
/-- The chosen alternative of a CHOICE value. -/
def ValidAlt : Alts → Nat → Val → Prop
  | .nil, _, _ => False
  | .cons t _, 0, v => Valid t v
  | .cons _ rest, i + 1, v => ValidAlt rest i v
end

/-! ### Admissible types -/

/-- The range fits the runtime and the C integer of `w` bits. A signed range may not be wider than `2 ^ 63`
(C10 and C11 show what happens otherwise). -/
def Rng.ok (w : Nat) (ext : Bool) : Rng → Prop
  | .concrete a b => a ≤ b ∧
    (if 0 ≤ a ∧ ext = false then (w = 8 ∨ w = 16 ∨ w = 32 ∨ w = 64) ∧ b < 2 ^ w
     else (w = 8 ∨ w = 16 ∨ w = 32 ∨ w = 64) ∧ -(2 ^ (w - 1)) ≤ a ∧ b < 2 ^ (w - 1) ∧ b - a < 2 ^ 63)
  | .posInf a => -(2 ^ 63) ≤ a
  | .negInf _ => True
  | .full => True

mutual
/-- Types the compiler accepts and the runtime can handle. A searched table must be that of an unconstrained
type assignment (`C46` shows what happens otherwise). -/
def Ok : Ty → Prop
  | .int w r => r.ok w false
  | .intExt root inRoot _ => root.ok 64 true ∧ ∀ v, inRoot v = true → root.contains v
  | .bool => True
  | .null => True
  | .enum items valid table => items.Nodup ∧ items.length < 2 ^ 31 ∧ (∀ v ∈ valid, v ∈ items) ∧
    ∀ allowed, table = some allowed → allowed.Perm items
  | .octets lo hi => lo ≤ hi
  | .bits lo hi _ _ => lo ≤ hi
  | .str alphabet lo hi => lo ≤ hi ∧ alphabet.length < 2 ^ 31 ∧ 1 ≤ alphabet.length ∧
    (alphabet.length = 128 → alphabet = (List.range 128).map (BitVec.ofNat 8))
  | .oid => True
  | .relOid => True
  | .real _ => True
  | .seq fs => OkFields fs
  | .seqOf lo hi t => lo ≤ hi ∧ Ok t
  | .choice alts => 1 ≤ alts.length ∧ alts.length < 2 ^ 31 ∧ OkAlts alts
  | .ref t => Ok t
def OkFields : Fields → Prop
  | .nil => True
  | .cons _ t rest => Ok t ∧ OkFields rest
def OkAlts : Alts → Prop
  | .nil => True
  | .cons t rest => Ok t ∧ OkAlts rest
end

end Asn1
