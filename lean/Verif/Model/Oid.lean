import Verif.Model.Strings
/-!
# Object identifiers: asn1crt/asn1crt_encoding_uper.c and asn1crt/asn1crt.c:110-142
-/
namespace Asn1

/-- `OBJECT_IDENTIFIER_MAX_LENGTH`, asn1crt/asn1crt.h:89. -/
def oidMaxLength : Nat := 20

/-- `Asn1ObjectIdentifier`, asn1crt/asn1crt.h:188-191. `values` is the C array (20 elements). -/
structure Oid where
  nCount : Nat
  values : List U64
  deriving DecidableEq, Repr

/-- `ObjectIdentifier_Init`, asn1crt/asn1crt.c:110-116. -/
def oidInit : Oid := ⟨0, List.replicate oidMaxLength 0#64⟩

/-- `ObjectIdentifier_isValid`, asn1crt/asn1crt.c:118-120. -/
def oidIsValid (o : Oid) : M Bool :=
  if o.nCount ≥ 2 then do
    let a ← tblGet o.values 0
    let b ← tblGet o.values 1
    pure (decide (a ≤ 2#64) && decide (b ≤ 39#64))
  else pure false

/-- `RelativeOID_isValid`, asn1crt/asn1crt.c:122-124. -/
def relOidIsValid (o : Oid) : Bool := decide (o.nCount > 0)

/-- Loop of `ObjectIdentifier_equal`, asn1crt/asn1crt.c:130-133: `n` components left. -/
def oidEqualLoop (a b : Oid) : (n i : Nat) → M Bool
  | 0, _ => pure true
  | n + 1, i => do
    let x ← tblGet a.values i
    let y ← tblGet b.values i
    if x = y then oidEqualLoop a b n (i + 1) else pure false

/-- `ObjectIdentifier_equal`, asn1crt/asn1crt.c:126-142 (both pointers not NULL). -/
def oidEqual (a b : Oid) : M Bool :=
  if a.nCount = b.nCount ∧ a.nCount ≤ oidMaxLength then oidEqualLoop a b a.nCount 0 else pure false

/-- The `while (!lastOctet)` loop of `ObjectIdentifier_subidentifiers_uper_encode`,
asn1crt/asn1crt_encoding_uper.c:15-22. `tmp` is the used part of `byte tmp[16]`; `room` is what is left of it,
storing past it is undefined. -/
def subidLoop : (room : Nat) → (v : U64) → (tmp : List Byte) → M (List Byte)
  | 0, _, _ => mUb
  | room + 1, v, tmp =>
    let cur : Byte := (v % 128#64).setWidth 8
    let v' := v / 128#64
    if v' = 0#64 then pure (tmp ++ [cur]) else subidLoop room v' (tmp ++ [cur])

/-- The `for` loop of `ObjectIdentifier_subidentifiers_uper_encode`, asn1crt/asn1crt_encoding_uper.c:23-28: from index
`i`, `n` iterations left. `buf` is the used part of the caller's array of `20 * 10` bytes. -/
def subidEmit (tmp : List Byte) : (n i : Nat) → (buf : List Byte) → M (List Byte)
  | 0, _, buf => pure buf
  | n + 1, i, buf => do
    let t ← tblGet tmp (tmp.length - i - 1)
    let cur := if i = tmp.length - 1 then t else t ||| 0x80#8
    if buf.length < oidMaxLength * 10 then subidEmit tmp n (i + 1) (buf ++ [cur]) else mUb

/-- `ObjectIdentifier_subidentifiers_uper_encode`, asn1crt/asn1crt_encoding_uper.c:10-29. -/
def subidEncode (buf : List Byte) (v : U64) : M (List Byte) := do
  let tmp ← subidLoop 16 v []
  subidEmit tmp tmp.length 0 buf

/-- `for (...; i < nCount; i++) ObjectIdentifier_subidentifiers_uper_encode(tmp, &totalSize, values[i]);`,
asn1crt/asn1crt_encoding_uper.c:40-42 and 65-67; `n` components left. -/
def subidsEncode (o : Oid) : (n i : Nat) → (buf : List Byte) → M (List Byte)
  | 0, _, buf => pure buf
  | n + 1, i, buf => do
    let v ← tblGet o.values i
    let buf ← subidEncode buf v
    subidsEncode o n (i + 1) buf

/-- Length and bytes, asn1crt/asn1crt_encoding_uper.c:44-54 and 70-81. The results of `BitStream_AppendByte0` are
ignored, as in C. -/
def oidEmit (tmp : List Byte) : M Unit := do
  (if tmp.length ≤ 0x7F then encodeConstraintWholeNumber tmp.length 0 0xFF
   else do
    appendBit true
    encodeConstraintWholeNumber tmp.length 0 0x7FFF)
  tmp.forM fun b => do
    let _ ← appendByte0 b
    pure ()

/-- `ObjectIdentifier_uper_encode`, asn1crt/asn1crt_encoding_uper.c:32-56. -/
def oidEncode (o : Oid) : M Unit := do
  let a ← tblGet o.values 0
  let b ← tblGet o.values 1
  let tmp ← subidEncode [] (a * 40#64 + b)
  let tmp ← subidsEncode o (o.nCount - 2) 2 tmp
  oidEmit tmp

/-- `RelativeOID_uper_encode`, asn1crt/asn1crt_encoding_uper.c:58-82. -/
def relOidEncode (o : Oid) : M Unit := do
  let tmp ← subidsEncode o o.nCount 0 []
  oidEmit tmp

/-- `ObjectIdentifier_subidentifiers_uper_decode`, asn1crt/asn1crt_encoding_uper.c:84-102: `rem` is
`*pRemainingOctets`, `v` is `*siValue`. Result: flag, remaining octets, value. -/
def subidDecode : (rem : Nat) → (v : U64) → M (Bool × (Nat × U64))
  | 0, v => pure (true, (0, v))
  | rem + 1, v => do
    let p ← readByte
    if p.1 then
      let v' := (v <<< 7) ||| (p.2 &&& 0x7F#8).setWidth 64
      if p.2 &&& 0x80#8 = 0#8 then pure (true, (rem, v')) else subidDecode rem v'
    else pure (false, (rem, v))

/-- `ObjectIdentifier_uper_decode_length`, asn1crt/asn1crt_encoding_uper.c:104-116. -/
def oidDecodeLength : M (Bool × Nat) := do
  let t ← decodeConstraintWholeNumber 0 0xFF
  if t.1 then
    if t.2 > 0x7F then do
      let l ← decodeConstraintWholeNumber 0 0xFF
      if l.1 then pure (true, ((t.2.toNat <<< 8) ||| l.2.toNat) &&& 0x7FFF) else pure (false, t.2.toNat)
    else pure (true, t.2.toNat)
  else pure (false, 0)

/-- `pVal->values[pVal->nCount] = si; pVal->nCount++;`, asn1crt/asn1crt_encoding_uper.c:136-137 and 157-158. -/
def oidPush (o : Oid) (si : U64) : M Oid :=
  if o.nCount < o.values.length then pure ⟨o.nCount + 1, o.values.set o.nCount si⟩ else mUb

/-- The `while` loop of the decoders, asn1crt/asn1crt_encoding_uper.c:131-138 and 152-159, with a step budget (each
step adds a component, so `oidMaxLength + 1` steps suffice). -/
def oidDecodeLoop : (fuel rem : Nat) → Oid → M (Bool × (Nat × Oid))
  | 0, _, _ => mUb
  | fuel + 1, rem, o =>
    if rem > 0 ∧ o.nCount < oidMaxLength then do
      let r ← subidDecode rem 0#64
      if r.1 then do
        let o ← oidPush o r.2.2
        oidDecodeLoop fuel r.2.1 o
      else pure (false, (r.2.1, o))
    else pure (true, (rem, o))

/-- `ObjectIdentifier_uper_decode`, asn1crt/asn1crt_encoding_uper.c:118-142. -/
def oidDecode : M (Bool × Oid) := do
  let t ← oidDecodeLength
  if t.1 then do
    let r ← subidDecode t.2 0#64
    if r.1 then do
      let o : Oid := ⟨2, (oidInit.values.set 0 (r.2.2 / 40#64)).set 1 (r.2.2 % 40#64)⟩
      let l ← oidDecodeLoop (oidMaxLength + 1) r.2.1 o
      if l.1 then pure (decide (l.2.1 = 0), l.2.2) else pure (false, l.2.2)
    else pure (false, oidInit)
  else pure (false, oidInit)

/-- `RelativeOID_uper_decode`, asn1crt/asn1crt_encoding_uper.c:144-162. -/
def relOidDecode : M (Bool × Oid) := do
  let t ← oidDecodeLength
  if t.1 then do
    let l ← oidDecodeLoop (oidMaxLength + 1) t.2 oidInit
    if l.1 then pure (decide (l.2.1 = 0), l.2.2) else pure (false, l.2.2)
  else pure (false, oidInit)

end Asn1
