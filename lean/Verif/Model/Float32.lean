import Verif.Model.Real
import Verif.Model.AcnInt
/-!
# REAL in a C `float`

asn1crt/asn1crt_encoding.c:1803-1809, asn1crt/asn1crt_encoding_acn.c:1020-1149. The conversions between `float` and `double` are those of
IEEE 754, rounding to nearest, ties to even.
-/
namespace Asn1

/-- The bits of a `float`. -/
abbrev Flt := BitVec 32

/-- Sign and magnitude of a `float` together (`dat1.f`, asn1crt/asn1crt_encoding_acn.c:1020-1030). -/
def fltMake (sign : Bool) (mag : Nat) : Flt := BitVec.ofNat 32 ((if sign then 2 ^ 31 else 0) + mag)

/-- `(double)f`: the argument of `BitStream_EncodeReal` for a `float` (BackendAst/DAstUPer.fs:249, `castRPp`), `*pRealValue = dat1.f` in
asn1crt/asn1crt_encoding_acn.c:1062. A NaN becomes a quiet NaN. -/
def floatToDouble (f : Flt) : Dbl :=
  let s := decide (2 ^ 31 ≤ f.toNat)
  let e := f.toNat / 2 ^ 23 % 2 ^ 8
  let m := f.toNat % 2 ^ 23
  if e = 255 then
    if m = 0 then dblMake s (2047 * 2 ^ 52) else dblMake s (2047 * 2 ^ 52 + 2 ^ 51 + m % 2 ^ 22 * 2 ^ 29)
  else if e = 0 then
    if m = 0 then dblMake s 0
    else dblMake s ((Nat.log2 m + 874) * 2 ^ 52 + (m * 2 ^ (52 - Nat.log2 m) - 2 ^ 52))
  else dblMake s ((e + 896) * 2 ^ 52 + m * 2 ^ 29)

/-- `(float)d`: asn1crt/asn1crt_encoding.c:1807, `dat1.f = (type)realValue` in asn1crt/asn1crt_encoding_acn.c:1029. What is too large
becomes infinite. -/
def doubleToFloat (d : Dbl) : Flt :=
  if dblIsNan d then fltMake (dblSign d) (255 * 2 ^ 23 + 2 ^ 22)
  else if dblIsInf d then fltMake (dblSign d) (255 * 2 ^ 23)
  else if dblMant d = 0 then fltMake (dblSign d) 0
  else
    let q : Int := max ((Nat.log2 (dblMant d) : Int) + dblPow d - 23) (-149)
    fltMake (dblSign d) (min ((q + 149).toNat * 2 ^ 23 + rne (dblMant d * 2 ^ (dblPow d - q).toNat) (2 ^ (q - dblPow d).toNat)) (255 * 2 ^ 23))

/-- `BitStream_DecodeReal_fp32`, asn1crt/asn1crt_encoding.c:1803-1809. On failure C converts a `double` that has never been set; the model
converts 0. -/
def decodeRealFp32 : M (Bool × Flt) := do
  let r ← decodeReal
  pure (r.1, doubleToFloat r.2)

/-- `Acn_Enc_Real_IEEE754_32_big_endian`, asn1crt/asn1crt_encoding_acn.c:1065-1068, with the conversion. -/
def acnEncReal32Big (d : Dbl) : M Unit := acnEncRealBig 4 (doubleToFloat d)

/-- `Acn_Dec_Real_IEEE754_32_big_endian`, asn1crt/asn1crt_encoding_acn.c:1070-1073, with the conversion. -/
def acnDecReal32Big : M (Bool × Dbl) := do
  let r ← acnDecRealBig 4
  pure (r.1, floatToDouble r.2)

/-- `Acn_Enc_Real_IEEE754_32_little_endian`, asn1crt/asn1crt_encoding_acn.c:1126-1129, with the conversion. -/
def acnEncReal32Little (d : Dbl) : M Unit := acnEncRealLittle 4 (doubleToFloat d)

/-- `Acn_Dec_Real_IEEE754_32_little_endian`, asn1crt/asn1crt_encoding_acn.c:1131-1134, with the conversion. -/
def acnDecReal32Little : M (Bool × Dbl) := do
  let r ← acnDecRealLittle 4
  pure (r.1, floatToDouble r.2)

end Asn1
