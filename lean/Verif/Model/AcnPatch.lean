import Verif.Model.AcnStrings

/-!
# ACN determinants that are reserved first and patched later (`--acn-deferred`)

Models `/repo/asn1crt/asn1crt_encoding_acn.h` lines 300-505, `/repo/asn1crt/asn1crt_encoding_acn.c` lines 2061-2096
and the parts of `/repo/StgC/acn_c.stg` that call them, build without `ASN1SCC_STREAMING`.
Simplification: `AcnInsertedFieldRef* det` is passed by value and returned; `int* err` is an optional result that is
`some` exactly when `*err` is assigned (the pointer is never null in generated code).
-/
namespace Asn1

/-- `ERR_ACN_DET_CONSISTENCY_MISMATCH`, asn1crt/asn1crt.h:200. -/
def errDetMismatch : Nat := 203

/-- `AcnBitStreamPos`, asn1crt/asn1crt_encoding_acn.h:306-309. -/
structure AcnPos where
  currentByte : Nat
  currentBit : Nat
  deriving DecidableEq, Repr

/-- `AcnInsertedFieldRef`, asn1crt/asn1crt_encoding_acn.h:313-318. -/
structure AcnRef where
  pos : AcnPos
  isSet : Bool
  value : U64
  strValue : List Byte
  deriving DecidableEq, Repr

/-- `AcnInsertedFieldRef det = {0};`, StgC/acn_c.stg:1562. -/
def acnRefZero : AcnRef := ⟨⟨0, 0⟩, false, 0#64, List.replicate 256 0#8⟩

/-- `Acn_BitStream_GetPos`, asn1crt/asn1crt_encoding_acn.h:320-325. -/
def acnGetPos : M AcnPos := do
  let s ← getS
  pure ⟨s.currentByte, s.currentBit⟩

/-- `Acn_BitStream_SetPos`, asn1crt/asn1crt_encoding_acn.h:327-330. -/
def acnSetPos (p : AcnPos) : M Unit := modS fun s => { s with currentByte := p.currentByte, currentBit := p.currentBit }

/-- `Acn_BitStream_DistanceInBytes`, asn1crt/asn1crt_encoding_acn.h:332-336. -/
def acnDistanceInBytes (a b : AcnPos) : U64 :=
  BitVec.ofInt 64 (Int.tdiv ((b.currentByte * 8 + b.currentBit : Int) - (a.currentByte * 8 + a.currentBit) + 7) 8)

/-- `Acn_BitStream_DistanceInBits`, asn1crt/asn1crt_encoding_acn.h:338-342. -/
def acnDistanceInBits (a b : AcnPos) : U64 :=
  BitVec.ofInt 64 ((b.currentByte * 8 + b.currentBit : Int) - (a.currentByte * 8 + a.currentBit))

/-- The suffixes for which `Acn_InitDet_…`, `Acn_PatchDet_…` are defined, asn1crt/asn1crt_encoding_acn.h:381-387, 418-421,
428, 502-503: `U8`; `U16_BE`, `U32_BE`, `U64_BE` (`uBig` with 2, 4, 8 octets); `U16_LE`, `U32_LE`, `U64_LE` (`uLittle`);
`I8`; `I16_BE`, `I32_BE`, `I64_BE` (`iBig`); `BOOL1`; `ConstSize` and `TwosComplement_ConstSize` with their `nBits`. -/
inductive DetKind where
  | u8
  | uBig (size : Nat)
  | uLittle (size : Nat)
  | i8
  | iBig (size : Nat)
  | bool1
  | constSize (nBits : Nat)
  | twosConstSize (nBits : Nat)
  deriving DecidableEq, Repr

/-- The call `encoder_fn(bs, v)`, for the signed kinds `encoder_fn(bs, (asn1SccSint)v)`,
asn1crt/asn1crt_encoding_acn.h:353-387, 390-428. -/
def detEncoder : DetKind → U64 → M Unit
  | .u8, v => acnEncUIntConstSize8 v
  | .uBig size, v => acnEncUIntBig v size
  | .uLittle size, v => acnEncUIntLittle v size
  | .i8, v => acnEncSIntConstSize8 v.toInt
  | .iBig size, v => acnEncSIntBig v.toInt size
  | .bool1, v => appendBit (v != 0#64)
  | .constSize n, v => acnEncUIntConstSize v n
  | .twosConstSize n, v => acnEncSIntConstSize v.toInt n

/-- The loop of `Acn_PatchDet_ConstSize`, asn1crt/asn1crt_encoding_acn.h:454-455 (and 486-487): `k` iterations left,
that is `nBits - _i`, so that the shift `nBits - 1 - _i` is `k - 1`. A shift by 64 or more is undefined. -/
def patchBitsLoop (v : U64) : (k : Nat) → M Unit
  | 0 => pure ()
  | k + 1 => do
    (if k < 64 then appendBit (((v >>> k) &&& 1#64) != 0#64) else mUb)
    patchBitsLoop v k

/-- What `Acn_PatchDet_…` writes at the reserved place, asn1crt/asn1crt_encoding_acn.h:366, 403, 451-455, 485-487. -/
def detOverwrite : DetKind → U64 → M Unit
  | .constSize n, v => patchBitsLoop v n
  | .twosConstSize n, v => patchBitsLoop v n
  | k, v => detEncoder k v

/-- `Acn_InitDet_…`, asn1crt/asn1crt_encoding_acn.h:354-360, 391-397, 437-444, 471-478. `str_value` is not assigned. -/
def initDet (k : DetKind) (det : AcnRef) : M AcnRef := do
  let p ← acnGetPos
  detEncoder k 0#64
  pure { det with pos := p, isSet := false, value := 0#64 }

/-- `Acn_PatchDet_…`, asn1crt/asn1crt_encoding_acn.h:361-378, 398-415, 445-468, 479-500. Result: the flag returned, the
error code if one is assigned, and the updated reference. -/
def patchDet (k : DetKind) (v : U64) (det : AcnRef) : M ((Bool × Option Nat) × AcnRef) :=
  if det.isSet = false then do
    let cur ← acnGetPos
    acnSetPos det.pos
    detOverwrite k v
    acnSetPos cur
    pure ((true, none), { det with value := v, isSet := true })
  else if det.value ≠ v then pure ((false, some errDetMismatch), det)
  else pure ((true, none), det)

/-- The decoding counterpart of a determinant: the ACN decoder of the same class, the value stored by
`det.value = (asn1SccUint)tmp`, StgC/acn_c.stg:1735-1737. The default encoding of a BOOLEAN is one bit. -/
def detDecoder : DetKind → M (Bool × U64)
  | .u8 => acnDecUIntConstSize8
  | .uBig size => acnDecUIntBig size 0#64
  | .uLittle size => acnDecUIntLittle size 0 0#64
  | .i8 => do
    let r ← acnDecSIntConstSize8
    pure (r.1, BitVec.ofInt 64 r.2)
  | .iBig size => do
    let r ← acnDecSIntBig size
    pure (r.1, BitVec.ofInt 64 r.2)
  | .bool1 => do
    let r ← readBit
    pure (r.1, if r.2 then 1#64 else 0#64)
  | .constSize n => acnDecUIntConstSize n
  | .twosConstSize n => do
    let r ← acnDecSIntConstSize n
    pure (r.1, BitVec.ofInt 64 r.2)

/-- A run of generated patch calls on one determinant, StgC/acn_c.stg:1584-1588:
`ret = PatchDet(v, …); *pErrCode = ERR_ACN_DET_CONSISTENCY_MISMATCH; if (!ret) return FALSE;`. The error code reported
here is the one left when the function returns FALSE. -/
def patchRun (k : DetKind) : List U64 → AcnRef → M ((Bool × Option Nat) × AcnRef)
  | [], det => pure ((true, none), det)
  | v :: vs, det => do
    let r ← patchDet k v det
    if r.1.1 then patchRun k vs r.2 else pure r

/-- A run of generated patch calls on different determinants, StgC/acn_c.stg:1584-1598. Simplification: the updated
references are not returned (each is patched once). -/
def patchAll : List (DetKind × U64 × AcnRef) → M Bool
  | [] => pure true
  | j :: js => do
    let r ← patchDet j.1 j.2.1 j.2.2
    if r.1.1 then patchAll js else pure false

/-! ### IA5String determinants -/

/-- `for (i = 0; i < nChars * 7; i++) BitStream_AppendBit(bs, 0);`, asn1crt/asn1crt_encoding_acn.c:2068-2069. -/
def appendZeros : Nat → M Unit
  | 0 => pure ()
  | k + 1 => do
    appendBit false
    appendZeros k

/-- `Acn_InitDet_IA5String_FixSize`, asn1crt/asn1crt_encoding_acn.c:2062-2070. -/
def initDetIa5 (nChars : Nat) (det : AcnRef) : M AcnRef := do
  let p ← acnGetPos
  appendZeros (nChars * 7)
  pure ⟨p, false, 0#64, det.strValue.set 0 0#8⟩

/-- The inner loop of `Acn_PatchDet_IA5String_FixSize`, asn1crt/asn1crt_encoding_acn.c:2080-2081: `k` bits left, the next
one is bit `k - 1`. -/
def patchCharLoop (c : Byte) : (k : Nat) → M Unit
  | 0 => pure ()
  | k + 1 => do
    appendBit (((c >>> k) &&& 1#8) != 0#8)
    patchCharLoop c k

/-- The outer loop of `Acn_PatchDet_IA5String_FixSize`, asn1crt/asn1crt_encoding_acn.c:2078-2082: `k` characters left. -/
def patchStrLoop (str : List Byte) (slen : Nat) : (k i : Nat) → M Unit
  | 0, _ => pure ()
  | k + 1, i => do
    let c ← (if i < slen then tblGet str i else pure 0x20#8)
    patchCharLoop c 7
    patchStrLoop str slen k (i + 1)

/-- The bytes that `strncpy(det->str_value, strVal, 255); det->str_value[255] = 0;` leaves in `str_value`,
asn1crt/asn1crt_encoding_acn.c:2084-2085, for a string of `slen` characters. -/
def strnCopy (str : List Byte) (slen : Nat) : List Byte :=
  str.take (min slen 255) ++ List.replicate (256 - min slen 255) 0#8

/-- `strncmp(a, b, n) == 0` of the C library; reading outside an object is undefined. -/
def strnEq : (a b : List Byte) → (n : Nat) → M Bool
  | _, _, 0 => pure true
  | x :: a, y :: b, n + 1 => if x ≠ y then pure false else if x = 0#8 then pure true else strnEq a b n
  | _, _, _ => mUb

/-- `Acn_PatchDet_IA5String_FixSize`, asn1crt/asn1crt_encoding_acn.c:2072-2096. -/
def patchDetIa5 (str : List Byte) (nChars : Nat) (det : AcnRef) : M ((Bool × Option Nat) × AcnRef) :=
  if det.isSet = false then do
    let slen ← strLen str
    let cur ← acnGetPos
    acnSetPos det.pos
    patchStrLoop str slen nChars 0
    acnSetPos cur
    pure ((true, none), { det with strValue := strnCopy str slen, isSet := true })
  else do
    let e ← strnEq det.strValue str nChars
    if e then pure ((true, none), det) else pure ((false, some errDetMismatch), det)

/-! ### OCTET STRING (CONTAINING T) and BIT STRING (CONTAINING T)

`inner` is the ACN encoder or decoder of the contained type (`sFuncName`, or the inlined `sBody`). -/

/-- `octet_string_containing_deferred_func_encode` and `…_wrapper_encode`, StgC/acn_c.stg:1227-1239, 1298-1309. -/
def octContainingEncode (inner : M Bool) (k : DetKind) (det : AcnRef) : M (Bool × AcnRef) := do
  let a ← acnGetPos
  let ret ← inner
  if ret then do
    let b ← acnGetPos
    let r ← patchDet k (acnDistanceInBytes a b) det
    pure (r.1.1, r.2)
  else pure (false, det)

/-- `bit_string_containing_deferred_func_encode` and `…_wrapper_encode`, StgC/acn_c.stg:1325-1337, 1397-1408. -/
def bitContainingEncode (inner : M Bool) (k : DetKind) (det : AcnRef) : M (Bool × AcnRef) := do
  let a ← acnGetPos
  let ret ← inner
  if ret then do
    let b ← acnGetPos
    let r ← patchDet k (acnDistanceInBits a b) det
    pure (r.1.1, r.2)
  else pure (false, det)

/-- The common body of `octet_string_containing_deferred_func_decode`, `…_wrapper_decode` and of the `if (ret)` part of
`…_embedded_func_decode`, StgC/acn_c.stg:1242-1252, 1312-1321, 1283-1291; `value` is `(long)det->value` or
`(long)acn_nCount`. Simplification: positions of the model are natural numbers; a negative `acn_expected_end`, which C
stores in `count` and `currentByte`, is undefined in the model (the next access to the buffer would be). -/
def octContainingDecode {α : Type} (inner : M (Bool × α)) (value : Int) : M (Bool × α) := do
  let s ← getS
  let e : Int := s.currentByte + value
  if e < 0 then mUb else do
    modS fun s => { s with count := e.toNat }
    let r ← inner
    modS fun t => { t with count := s.count, currentByte := e.toNat, currentBit := 0 }
    pure r

/-- The common body of `bit_string_containing_deferred_func_decode`, `…_wrapper_decode` and of the `if (ret)` part of
`…_embedded_func_decode`, StgC/acn_c.stg:1340-1350, 1411-1420, 1382-1391. Same simplification as
`octContainingDecode`. -/
def bitContainingDecode {α : Type} (inner : M (Bool × α)) (value : Int) : M (Bool × α) := do
  let s ← getS
  let e : Int := s.currentByte * 8 + s.currentBit + value
  if e < 0 then mUb else do
    modS fun s => { s with count := (e.toNat + 7) / 8 }
    let r ← inner
    modS fun t => { t with count := s.count, currentByte := e.toNat / 8, currentBit := e.toNat % 8 }
    pure r

/-- `octet_string_containing_deferred_embedded_func_encode`, StgC/acn_c.stg:1264-1278. -/
def octEmbeddedEncode (inner : M Bool) (lo hi : Int) : M Bool := do
  let p ← acnGetPos
  encodeConstraintWholeNumber lo lo hi
  let a ← acnGetPos
  let ret ← inner
  if ret then do
    let b ← acnGetPos
    acnSetPos p
    encodeConstraintWholeNumber (acnDistanceInBytes a b).toInt lo hi
    acnSetPos b
    pure true
  else pure false

/-- `bit_string_containing_deferred_embedded_func_encode`, StgC/acn_c.stg:1363-1377. -/
def bitEmbeddedEncode (inner : M Bool) (lo hi : Int) : M Bool := do
  let p ← acnGetPos
  encodeConstraintWholeNumber lo lo hi
  let a ← acnGetPos
  let ret ← inner
  if ret then do
    let b ← acnGetPos
    acnSetPos p
    encodeConstraintWholeNumber (acnDistanceInBits a b).toInt lo hi
    acnSetPos b
    pure true
  else pure false

/-- `octet_string_containing_deferred_embedded_func_decode`, StgC/acn_c.stg:1280-1293. -/
def octEmbeddedDecode {α : Type} (inner : M (Bool × α)) (dflt : α) (lo hi : Int) : M (Bool × α) := do
  let n ← decodeConstraintWholeNumber lo hi
  if n.1 then octContainingDecode inner n.2 else pure (false, dflt)

/-- `bit_string_containing_deferred_embedded_func_decode`, StgC/acn_c.stg:1379-1393. -/
def bitEmbeddedDecode {α : Type} (inner : M (Bool × α)) (dflt : α) (lo hi : Int) : M (Bool × α) := do
  let n ← decodeConstraintWholeNumber lo hi
  if n.1 then bitContainingDecode inner n.2 else pure (false, dflt)

/-! ### The default for a determinant that nothing referred to -/

/-- `acn_deferred_det_fallback_value_encode` and `…_with_size_encode`, StgC/acn_c.stg:1709-1713, 1717-1721, with the
default of `computeDeferredFallbackValue` for an integer, StgC/LangGeneric_c.fs:843-846: the lower bound of the range if
that is positive, else 0. `offset` is `uperMinOffset` (LangGeneric_c.fs:817-822): the lower bound for the class
`Integer_uPER`, else 0. The flag returned by `PatchDet` is ignored, as in C. -/
def fallbackPatch (k : DetKind) (offset : Int) (det : AcnRef) : M AcnRef :=
  if det.isSet = false then do
    let r ← patchDet k (BitVec.ofInt 64 (if offset > 0 then offset else 0)) det
    pure r.2
  else pure det

end Asn1
