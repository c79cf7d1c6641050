import Verif.Spec.Acn
import Mathlib.Algebra.Order.Field.Rat
import Mathlib.Algebra.Field.Rat
import Mathlib.Tactic.NormNum
/-!
# Specification: doubles and X.690 REAL contents octets as numbers, independent of the C code
-/
namespace Asn1

/-- IEEE 754 binary64: the number that a bit image with an exponent field below 2047 stands for. -/
def doubleValue (d : BitVec 64) : ℚ :=
  let sign : ℚ := if d.toNat / 2 ^ 63 = 1 then -1 else 1
  let exponent : ℕ := d.toNat / 2 ^ 52 % 2 ^ 11
  let fraction : ℕ := d.toNat % 2 ^ 52
  if exponent = 0 then sign * fraction * (2 : ℚ) ^ (-1074 : ℤ)
  else sign * (2 ^ 52 + fraction : ℕ) * (2 : ℚ) ^ ((exponent : ℤ) - 1075)

/-- The exponent field is not 2047: neither infinite nor NaN. -/
def IsFinite (d : BitVec 64) : Prop := d.toNat / 2 ^ 52 % 2 ^ 11 ≠ 2047

/-- `d` is what IEEE 754 rounding to nearest, ties to even, makes of the number `v`: no finite double is closer, and if another
one is as close, the last bit of `d` is 0. -/
def Nearest (d : BitVec 64) (v : ℚ) : Prop :=
  IsFinite d ∧ ∀ d', IsFinite d' → |doubleValue d - v| ≤ |doubleValue d' - v| ∧
    (|doubleValue d' - v| = |doubleValue d - v| → doubleValue d' ≠ doubleValue d → d.toNat % 2 = 0)

/-- A REAL in the binary encoding of X.690, 8.5.7, with an exponent of one to three octets. -/
structure BinaryReal where
  /-- bit 7: the number is negative -/
  neg : Bool
  /-- bits 6 and 5: 0 is base 2, 1 is base 8, 2 is base 16 -/
  baseCode : Nat
  /-- bits 4 and 3: the scaling factor F -/
  scale : Nat
  /-- bits 2 and 1, plus one: number of exponent octets -/
  expOctets : Nat
  /-- the exponent E -/
  exponent : Int
  /-- number of mantissa octets -/
  manOctets : Nat
  /-- the integer N -/
  mantissa : Nat

/-- The fields fit. -/
structure BinaryReal.Ok (r : BinaryReal) : Prop where
  base : r.baseCode < 3
  scale : r.scale < 4
  octets : 1 ≤ r.expOctets ∧ r.expOctets ≤ 3
  exponent : FitsTwos (8 * r.expOctets) r.exponent
  mantissa : r.mantissa < 2 ^ (8 * r.manOctets)
  length : 1 + r.expOctets + r.manOctets ≤ 255

/-- The contents octets. -/
def BinaryReal.contents (r : BinaryReal) : List Bool :=
  [true, r.neg] ++ bitsMsb 2 r.baseCode ++ bitsMsb 2 r.scale ++ bitsMsb 2 (r.expOctets - 1) ++
    twosCode (8 * r.expOctets) r.exponent ++ bitsMsb (8 * r.manOctets) r.mantissa

/-- The contents octets behind a length octet. -/
def BinaryReal.code (r : BinaryReal) : List Bool :=
  bitsMsb 8 (1 + r.expOctets + r.manOctets) ++ r.contents

/-- log2 of the base. -/
def BinaryReal.baseLog (r : BinaryReal) : Nat := if r.baseCode = 0 then 1 else if r.baseCode = 1 then 3 else 4

/-- The number it stands for: `± N * 2 ^ F * base ^ E`. -/
def BinaryReal.value (r : BinaryReal) : ℚ :=
  (if r.neg then -1 else 1) * (r.mantissa : ℚ) * 2 ^ r.scale * ((2 : ℚ) ^ r.baseLog) ^ r.exponent

/-- Canonical (DER and CER, X.690 11.3.1, and PER): base 2, F = 0, the mantissa odd, exponent and mantissa in as few octets
as possible. -/
def BinaryReal.Canonical (r : BinaryReal) : Prop :=
  r.baseCode = 0 ∧ r.scale = 0 ∧ r.mantissa % 2 = 1 ∧
    (∀ n, 1 ≤ n → FitsTwos (8 * n) r.exponent → r.expOctets ≤ n) ∧
    (∀ n, r.mantissa < 2 ^ (8 * n) → r.manOctets ≤ n)

end Asn1
