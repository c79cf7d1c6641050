import Verif.Spec.Real
/-!
# Specification: numbers of IEEE 754 binary32
-/
namespace Asn1

/-- IEEE 754 binary32: the number that a bit image with an exponent field below 255 stands for. -/
def floatValue (f : BitVec 32) : ℚ :=
  let sign : ℚ := if f.toNat / 2 ^ 31 = 1 then -1 else 1
  let exponent : ℕ := f.toNat / 2 ^ 23 % 2 ^ 8
  let fraction : ℕ := f.toNat % 2 ^ 23
  if exponent = 0 then sign * fraction * (2 : ℚ) ^ (-149 : ℤ)
  else sign * (2 ^ 23 + fraction : ℕ) * (2 : ℚ) ^ ((exponent : ℤ) - 150)

/-- The exponent field is not 255: neither infinite nor NaN. -/
def FiniteFloat (f : BitVec 32) : Prop := f.toNat / 2 ^ 23 % 2 ^ 8 ≠ 255

/-- Not a NaN: finite or an infinity. -/
def NumberFloat (f : BitVec 32) : Prop := f.toNat / 2 ^ 23 % 2 ^ 8 ≠ 255 ∨ f.toNat % 2 ^ 23 = 0

/-- `f` is what IEEE 754 rounding to nearest, ties to even, makes of the number `v`: no finite `float` is closer, and if another
one is as close, the last bit of `f` is 0. -/
def NearestFloat (f : BitVec 32) (v : ℚ) : Prop :=
  FiniteFloat f ∧ ∀ f', FiniteFloat f' → |floatValue f - v| ≤ |floatValue f' - v| ∧
    (|floatValue f' - v| = |floatValue f - v| → floatValue f' ≠ floatValue f → f.toNat % 2 = 0)

end Asn1
