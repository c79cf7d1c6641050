import Verif.Model.Integer
/-!
# The C type `double`

`asn1Real` is `double` (asn1crt/asn1crt.h:119, `FP_WORD_SIZE == 8`), represented by its IEEE 754 binary64 bit image. The
operations are those of IEEE 754 in the default rounding mode (nearest, ties to even), which C implementations with
`__STDC_IEC_559__` and `FLT_EVAL_METHOD == 0` perform. Not modelled: signs and payloads of NaN results (always the same NaN).
-/
namespace Asn1

/-- `asn1Real`, asn1crt/asn1crt.h:119. -/
abbrev Dbl := BitVec 64

/-- The sign bit (the representation that asn1crt/asn1crt_encoding.c:1077-1110 relies on). -/
def dblSign (d : Dbl) : Bool := decide (2 ^ 63 ≤ d.toNat)

/-- The bits without the sign, as a number: for numbers that are not NaN, larger means farther from 0. -/
def dblMag (d : Dbl) : Nat := d.toNat % 2 ^ 63

/-- The biased exponent. -/
def dblExp (d : Dbl) : Nat := dblMag d / 2 ^ 52

/-- The fraction. -/
def dblFrac (d : Dbl) : Nat := dblMag d % 2 ^ 52

/-- `isnan(d)`, asn1crt/asn1crt_encoding.c:1150. -/
def dblIsNan (d : Dbl) : Bool := decide (2047 * 2 ^ 52 < dblMag d)

/-- Infinite. -/
def dblIsInf (d : Dbl) : Bool := decide (dblMag d = 2047 * 2 ^ 52)

/-- The integer `m` of the value `± m * 2 ^ dblPow d` of a finite number: with the hidden bit unless it is subnormal. -/
def dblMant (d : Dbl) : Nat := if dblExp d = 0 then dblFrac d else 2 ^ 52 + dblFrac d

/-- The exponent of the value of a finite number. -/
def dblPow (d : Dbl) : Int := (if dblExp d = 0 then 1 else (dblExp d : Int)) - 1075

/-- Sign and magnitude together. -/
def dblMake (sign : Bool) (mag : Nat) : Dbl := BitVec.ofNat 64 ((if sign then 2 ^ 63 else 0) + mag)

/-- `INFINITY`, asn1crt/asn1crt_encoding.c:1029-1033. -/
def dblInf : Dbl := 0x7FF0000000000000#64

/-- `NAN`, asn1crt/asn1crt_encoding.c:1251. -/
def dblNan : Dbl := 0x7FF8000000000000#64

/-- `n / d` rounded to an integer, ties to even. -/
def rne (n d : Nat) : Nat :=
  if 2 * (n % d) < d ∨ (2 * (n % d) = d ∧ n / d % 2 = 0) then n / d else n / d + 1

/-- The largest `k` with `2 ^ k ≤ n / d`. -/
def floorLog2 (n d : Nat) : Int :=
  let k : Int := (Nat.log2 n : Int) - Nat.log2 d
  if d * 2 ^ k.toNat ≤ n * 2 ^ (-k).toNat then k else k - 1

/-- The magnitude of the number nearest to `n / d * 2 ^ e` (for `n`, `d` not 0): 53 significant bits, fewer below
`2 ^ -1022`, infinity from `2 ^ 1024` (after rounding) on. -/
def roundMag (n d : Nat) (e : Int) : Nat :=
  let x : Int := max (floorLog2 n d + e - 52) (-1074)
  min ((x + 1074).toNat * 2 ^ 52 + rne (n * 2 ^ (e - x).toNat) (d * 2 ^ (x - e).toNat)) (2047 * 2 ^ 52)

/-- `(asn1Real)n` for an unsigned integer. -/
def dblOfU64 (n : U64) : Dbl := if n = 0#64 then 0#64 else dblMake false (roundMag n.toNat 1 0)

/-- `a * b`. -/
def dblMul (a b : Dbl) : Dbl :=
  if dblIsNan a || dblIsNan b then dblNan
  else if dblIsInf a || dblIsInf b then
    if dblMag a = 0 ∨ dblMag b = 0 then dblNan else dblMake (dblSign a != dblSign b) (2047 * 2 ^ 52)
  else if dblMag a = 0 ∨ dblMag b = 0 then dblMake (dblSign a != dblSign b) 0
  else dblMake (dblSign a != dblSign b) (roundMag (dblMant a * dblMant b) 1 (dblPow a + dblPow b))

/-- `a / b`. -/
def dblDiv (a b : Dbl) : Dbl :=
  if dblIsNan a || dblIsNan b then dblNan
  else if dblIsInf a then
    if dblIsInf b then dblNan else dblMake (dblSign a != dblSign b) (2047 * 2 ^ 52)
  else if dblIsInf b then dblMake (dblSign a != dblSign b) 0
  else if dblMag b = 0 then
    if dblMag a = 0 then dblNan else dblMake (dblSign a != dblSign b) (2047 * 2 ^ 52)
  else if dblMag a = 0 then dblMake (dblSign a != dblSign b) 0
  else dblMake (dblSign a != dblSign b) (roundMag (dblMant a) (dblMant b) (dblPow a - dblPow b))

/-- `-a`. -/
def dblNeg (a : Dbl) : Dbl := a ^^^ 0x8000000000000000#64

/-- `fabs(a)`. -/
def dblAbs (a : Dbl) : Dbl := a &&& 0x7FFFFFFFFFFFFFFF#64

/-- A number that orders the doubles that are not NaN; both zeros have the same. -/
def dblKey (a : Dbl) : Int := if dblSign a then -(dblMag a : Int) else dblMag a

/-- `a == b`. -/
def dblEq (a b : Dbl) : Bool := !dblIsNan a && !dblIsNan b && decide (dblKey a = dblKey b)

/-- `a < b`. -/
def dblLt (a b : Dbl) : Bool := !dblIsNan a && !dblIsNan b && decide (dblKey a < dblKey b)

/-- `a <= b`. -/
def dblLe (a b : Dbl) : Bool := !dblIsNan a && !dblIsNan b && decide (dblKey a ≤ dblKey b)

end Asn1
