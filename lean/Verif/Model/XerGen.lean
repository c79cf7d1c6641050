import Verif.Model.Xer
/-!
# Model: the generated XER codecs (StgC/xer_c.stg, BackendAst/DAstXer.fs)

The bodies that the back end composes for a type: `<Type>_XER_Encode_aux` and `<Type>_XER_Decode_aux` without the check of the
constraints before encoding (`bCheckConstraints` FALSE), and `<Type>_REQUIRED_BYTES_FOR_XER_ENCODING`.

Not modelled: REAL, OBJECT IDENTIFIER and the time types inside a type; `*pErrCode`.
-/
namespace Asn1

/-- A value as the generated C structures hold it. `enum i`: item number `i`. `octets n arr`, `bits n arr`: `nCount` (the size, if it is
fixed) and the whole array. `str`: the characters before the terminating zero. `seq`: for each component its `exist` flag (true for a mandatory
one) and its content. `choice i v`: alternative number `i`. `unset`: whatever was there before the call. -/
inductive XVal where
  | int (v : Int)
  | bool (b : Bool)
  | null
  | enum (i : Nat)
  | str (chars : List Byte)
  | octets (n : Nat) (arr : List Byte)
  | bits (n : Nat) (arr : List Byte)
  | seq (fs : List (Bool × XVal))
  | seqOf (vs : List XVal)
  | choice (i : Nat) (v : XVal)
  | unset

/-- Optionality of a component, BackendAst/DAstXer.fs:336-347. The markings of WITH COMPONENTS (always present, always absent) are
treated like OPTIONAL there. -/
inductive XOpt where
  | mandatory
  | optional
  | default (d : XVal)

mutual
/-- A type, as far as the XER back end looks at it. `level` is the level of indentation, `t.id.AcnAbsPath.Length - 2`. -/
inductive XTy where
  /-- INTEGER held in a signed (`uint`: unsigned) C integer; the test of the range that the decoder makes, if there is one
  (BackendAst/DAstXer.fs:126-138). -/
  | int (level : Int) (check : Option (Int → Bool))
  | uint (level : Int) (check : Option (Int → Bool))
  | bool (level : Int)
  | null (level : Int)
  | enum (level : Int) (labels : List (List Byte))
  /-- `max`: the size of the array is `max + 1`; `sizeOf`: the value of `sizeof(p)`. -/
  | str (level : Int) (numeric : Bool) (max sizeOf : Nat)
  | octets (level : Int) (lo hi : Nat)
  | bits (level : Int) (lo hi : Nat)
  /-- `childTag`: the tag that is passed for the elements, BackendAst/DAstXer.fs:290-302. -/
  | seqOf (level : Int) (lo hi : Nat) (childTag : Option (List Byte)) (elem : XTy)
  | seq (level : Int) (fs : XFields)
  | choice (level : Int) (alts : XAlts)
  /-- A reference to the type assignment `name`. -/
  | ref (name : List Byte) (t : XTy)
inductive XFields where
  | nil
  | cons (name : List Byte) (o : XOpt) (t : XTy) (rest : XFields)
inductive XAlts where
  | nil
  | cons (name : List Byte) (t : XTy) (rest : XAlts)
end

/-- `o.resolvedType.Kind` is `Choice`, BackendAst/DAstXer.fs:445. -/
def XTy.isChoice : XTy → Bool
  | .choice .. => true
  | _ => false

/-- The tag a call of `<name>_XER_Encode_aux`, `<name>_XER_Decode_aux` passes, BackendAst/DAstXer.fs:440-448: the tag there is, or else
the name, or else (CHOICE) `NULL`, which the functions of the run time take for an empty string. -/
def refTag (name : List Byte) (t : XTy) : Option (List Byte) → List Byte
  | some tag => tag
  | none => if t.isChoice then [] else name

/-- `XerLiteralConstant "INTEGER"`, BackendAst/DAstXer.fs:125. -/
def tagInteger : List Byte := chars ['I', 'N', 'T', 'E', 'G', 'E', 'R']

/-- `XerLiteralConstant "NULL"`, BackendAst/DAstXer.fs:215. -/
def tagNull : List Byte := chars ['N', 'U', 'L', 'L']

/-- `XerLiteralConstant (if o.isNumeric then "NumericString" else "IA5String")`, BackendAst/DAstXer.fs:242. -/
def tagString (numeric : Bool) : List Byte :=
  if numeric then chars ['N', 'u', 'm', 'e', 'r', 'i', 'c', 'S', 't', 'r', 'i', 'n', 'g']
  else chars ['I', 'A', '5', 'S', 't', 'r', 'i', 'n', 'g']

/-- `XerLiteralConstant "OCTET-STRING"`, BackendAst/DAstXer.fs:255. -/
def tagOctets : List Byte := chars ['O', 'C', 'T', 'E', 'T', '-', 'S', 'T', 'R', 'I', 'N', 'G']

/-- `XerLiteralConstant "BIT-STRING"`, BackendAst/DAstXer.fs:267. -/
def tagBits : List Byte := chars ['B', 'I', 'T', '-', 'S', 'T', 'R', 'I', 'N', 'G']

/-- `XerLiteralConstant "SEQUENCE-OF"`, BackendAst/DAstXer.fs:279. -/
def tagSeqOf : List Byte := chars ['S', 'E', 'Q', 'U', 'E', 'N', 'C', 'E', '-', 'O', 'F']

/-- `XerLiteralConstant "SEQUENCE"`, BackendAst/DAstXer.fs:323. -/
def tagSeq : List Byte := chars ['S', 'E', 'Q', 'U', 'E', 'N', 'C', 'E']

/-! ## Encoders -/

/-- `for (i = 0; i < n && ret; i++) { child }`, StgC/xer_c.stg:246-249. The list: the first `nCount` elements of the array, or the whole
array if the size is fixed. -/
def xEncLoop (enc : XVal → XM Unit) : List XVal → XM Unit
  | [] => pure ()
  | v :: vs => do
    enc v
    xEncLoop enc vs

mutual
/-- The body of `<Type>_XER_Encode_aux` (StgC/xer_c.stg:20-41). Nested `if (ret)` is what `none` does in `XM`.
- INTEGER: 80-83, 90-93; BOOLEAN: 100-103; NULL: 150-153; strings: 163-166
- ENUMERATED: 175-190; OCTET STRING: 216-219; BIT STRING: 228-231
- SEQUENCE OF: 241-255; SEQUENCE: 338-352; CHOICE: 377-400, 416-427; references: 444

In the last line: a value of another type. -/
def xEnc : XTy → Option (List Byte) → XVal → XM Unit
  | .int l _, tag, .int v => xerEncodeInteger (tag.getD tagInteger) v l
  | .uint l _, tag, .int v => xerEncodePosInteger (tag.getD tagInteger) v.toNat l
  | .bool l, tag, .bool b => xerEncodeBoolean (tag.getD []) b l
  | .null l, tag, .null => xerEncodeNull (tag.getD tagNull) l
  | .enum l labels, tag, .enum i =>
    match labels[i]? with
    | some label => xerEncodeEnumerated (tag.getD []) label l
    | none => xFail
  | .str l numeric _ _, tag, .str c => xerEncodeString (tag.getD (tagString numeric)) c l
  | .octets l lo hi, tag, .octets n arr => xerEncodeOctetString (tag.getD tagOctets) arr (if lo = hi then hi else n) l
  | .bits l lo hi, tag, .bits n arr => xerEncodeBitString (tag.getD tagBits) arr (if lo = hi then hi else n) l
  | .seqOf l _ _ childTag t, tag, .seqOf vs => do
    encodeElementStart (tag.getD tagSeqOf) [] l
    xEncLoop (xEnc t childTag) vs
    encodeElementEnd (tag.getD tagSeqOf) l
  | .seq l fs, tag, .seq vs => do
    encodeElementStart (tag.getD tagSeq) [] l
    xEncFields fs vs
    encodeElementEnd (tag.getD tagSeq) l
  | .choice l alts, tag, .choice i v =>
    match tag with
    | none => xEncAlt alts i v
    | some tag => do
      encodeElementStart tag [] l
      xEncAlt alts i v
      encodeElementEnd tag l
  | .ref name t, tag, v => xEnc t (some (refTag name t tag)) v
  | _, _, _ => xUb
/-- The components of a SEQUENCE, StgC/xer_c.stg:292-295, 305-310, 321-323: one that does not exist is left out. -/
def xEncFields : XFields → List (Bool × XVal) → XM Unit
  | .nil, _ => pure ()
  | .cons name o t rest, (e, v) :: vs => do
    (match o with
      | .mandatory => xEnc t (some name) v
      | .optional | .default _ => if e then xEnc t (some name) v else pure ())
    xEncFields rest vs
  | .cons .., [] => xUb
/-- `switch (kind)`, StgC/xer_c.stg:377-400. -/
def xEncAlt : XAlts → Nat → XVal → XM Unit
  | .nil, _, _ => xFail
  | .cons name t _, 0, v => xEnc t (some name) v
  | .cons _ _ rest, i + 1, v => xEncAlt rest i v
end

/-! ## Decoders -/

/-- `ret = f(…);`: the flag as a value. -/
def attempt {α : Type} (f : XM α) : XM (Option α) := fun s =>
  match f s with
  | .ok (r, s') => .ok (some r, s')
  | .ub => .ub
  | .abort => .abort

/-- `ret = Xer_DecodeInteger(…, &v); ret = <check of v>;`, StgC/xer_c.stg:84-88, 94-98: if the call fails `v` is what it was before
(`old`), and the check decides alone; without a check the call decides. -/
def checkedInt (check : Option (Int → Bool)) (old : Int) (r : Option Int) : Bool × XVal :=
  ((match check with
    | none => r.isSome
    | some f => f (r.getD old)), .int (r.getD old))

/-- What a call without a check of the value leaves. -/
def uncheckedVal {α : Type} (f : α → XVal) (r : Option α) : Bool × XVal :=
  match r with
  | some a => (true, f a)
  | none => (false, .unset)

/-- `if (strcmp(enmLabel, "…") == 0) p = …; else …`, StgC/xer_c.stg:193-213: a label that is not in the list changes neither `ret`
nor the value. -/
def enumVal (labels : List (List Byte)) (r : Option (List Byte)) : Bool × XVal :=
  match r with
  | none => (false, .unset)
  | some label =>
    match labels.findIdx? (· == label) with
    | some i => (true, .enum i)
    | none => (true, .unset)

/-- `while (ret && !Xer_NextEndElementIs(…)) { if (i >= max) { ret = FALSE; break; } child; i++; nCount++; }`,
StgC/xer_c.stg:264-274. The first number is `max - i`. -/
def xDecLoop (dec : Nat → XM (Bool × XVal)) (tag : List Byte) : (n i : Nat) → XM (Bool × List XVal)
  | 0, _ => do
    let e ← nextEndElementIs tag
    pure (e, [])
  | n + 1, i => do
    let e ← nextEndElementIs tag
    if e then pure (true, [])
    else do
      let p ← dec i
      if p.1 then do
        let q ← xDecLoop dec tag n (i + 1)
        pure (q.1, p.2 :: q.2)
      else pure (false, [p.2])

/-- A component: StgC/xer_c.stg:297-303, 312-318, 326-334. -/
def xDecField (o : XOpt) (name : List Byte) (dec : XM (Bool × XVal)) : XM (Bool × Bool × XVal) := do
  let b ← nextStartElementIs name
  if b then do
    let p ← dec
    pure (p.1, true, p.2)
  else
    match o with
    | .mandatory => pure (false, true, .unset)
    | .optional => pure (true, false, .unset)
    | .default d => pure (true, false, d)

mutual
/-- The body of `<Type>_XER_Decode_aux` (StgC/xer_c.stg:57-70): `ret` and the value; it never fails in `XM`.
`old` gives for each place in the destination the integer that is there before the call (only looked at for INTEGER). Simplification: the arrays of
strings hold zeros before the call.
- INTEGER: 84-88, 94-98; BOOLEAN: 105-109; NULL: 155-159; strings: 168-172
- ENUMERATED: 198-213; OCTET STRING: 221-225; BIT STRING: 233-237
- SEQUENCE OF: 258-286; SEQUENCE: 343-346, 354-357; CHOICE: 402-413, 430-438; references: 445 -/
def xDec (old : List Nat → Int) : XTy → Option (List Byte) → List Nat → XM (Bool × XVal)
  | .int _ check, tag, path => do
    let r ← attempt (xerDecodeInteger (tag.getD tagInteger))
    pure (checkedInt check (old path) r)
  | .uint _ check, tag, path => do
    let r ← attempt (xerDecodePosInteger (tag.getD tagInteger))
    pure (checkedInt check (old path) (r.map Int.ofNat))
  | .bool _, tag, _ => do
    let r ← attempt (xerDecodeBoolean (tag.getD []))
    pure (uncheckedVal .bool r)
  | .null _, tag, _ => do
    let r ← attempt (xerDecodeNull (tag.getD tagNull))
    pure (uncheckedVal (fun _ => .null) r)
  | .enum _ labels, tag, _ => do
    let r ← attempt (xerDecodeEnumerated (tag.getD []))
    pure (enumVal labels r)
  | .str _ numeric max sizeOf, tag, _ => do
    let r ← attempt (xerDecodeString (tag.getD (tagString numeric)) (List.replicate (max + 1) 0#8) sizeOf)
    pure (uncheckedVal (fun a => .str (cstr a)) r)
  | .octets _ lo hi, tag, _ => do
    let r ← attempt (xerDecodeOctetString (tag.getD tagOctets) (List.replicate hi 0#8) hi)
    pure (uncheckedVal (fun a => .octets (if lo = hi then hi else a.2) a.1) r)
  | .bits _ lo hi, tag, _ => do
    let r ← attempt (xerDecodeBitString (tag.getD tagBits) (List.replicate ((hi + 7) / 8) 0#8) hi)
    pure (uncheckedVal (fun a => .bits (if lo = hi then hi else a.2) a.1) r)
  | .seqOf _ lo hi childTag t, tag, path => do
    let r ← attempt (decodeElementStart (tag.getD tagSeqOf) none)
    if r.isSome then do
      let p ← xDecLoop (fun i => xDec old t childTag (path ++ [i])) (tag.getD tagSeqOf) hi 0
      let vs := if lo = hi then p.2 ++ List.replicate (hi - p.2.length) .unset else p.2
      if p.1 then do
        let e ← attempt (decodeElementEnd (tag.getD tagSeqOf))
        pure (e.isSome, .seqOf vs)
      else pure (false, .seqOf vs)
    else pure (false, .unset)
  | .seq _ fs, tag, path => do
    let r ← attempt (decodeElementStart (tag.getD tagSeq) none)
    if r.isSome then do
      let p ← xDecFields old fs path 0
      if p.1 then do
        let e ← attempt (decodeElementEnd (tag.getD tagSeq))
        pure (e.isSome, .seq p.2)
      else pure (false, .seq p.2)
    else pure (false, .unset)
  | .choice _ alts, tag, path =>
    match tag with
    | none => do
      let r ← attempt laNextElementTag
      match r with
      | none => pure (false, .unset)
      | some next => xDecAlts old alts next path 0
    | some tag => do
      let r ← attempt (decodeElementStart tag none)
      if r.isSome then do
        let r ← attempt laNextElementTag
        let p ← (match r with
          | none => pure (false, .unset)
          | some next => xDecAlts old alts next path 0)
        let e ← attempt (decodeElementEnd tag)
        pure (e.isSome, p.2)
      else pure (false, .unset)
  | .ref name t, tag, path => xDec old t (some (refTag name t tag)) path
/-- The components of a SEQUENCE, nested in `if (ret)`. -/
def xDecFields (old : List Nat → Int) : XFields → List Nat → Nat → XM (Bool × List (Bool × XVal))
  | .nil, _, _ => pure (true, [])
  | .cons name o t rest, path, j => do
    let p ← xDecField o name (xDec old t (some name) (path ++ [j]))
    if p.1 then do
      let q ← xDecFields old rest path (j + 1)
      pure (q.1, p.2 :: q.2)
    else pure (false, [p.2])
/-- `if (strcmp(nextTag, "…") == 0) { kind = …; child } else if … else ret = FALSE;`, StgC/xer_c.stg:384-389, 406-411. -/
def xDecAlts (old : List Nat → Int) : XAlts → List Byte → List Nat → Nat → XM (Bool × XVal)
  | .nil, _, _, _ => pure (false, .unset)
  | .cons name t rest, next, path, j =>
    if next = name then do
      let p ← xDec old t (some name) (path ++ [j])
      pure (p.1, .choice j p.2)
    else xDecAlts old rest next path (j + 1)
end

/-- `<Type>_XER_Encode` for the type assignment `name` with `bCheckConstraints` FALSE, StgC/xer_c.stg:43-46. -/
def xerEncodeType (name : List Byte) (t : XTy) (v : XVal) : XM Unit := xEnc t (some name) v

/-- `<Type>_XER_Decode` for the type assignment `name`, StgC/xer_c.stg:72-75. -/
def xerDecodeType (old : List Nat → Int) (name : List Byte) (t : XTy) : XM (Bool × XVal) := xDec old t (some name) []

/-! ## Sizes -/

/-- `getMaxSizeInBytesForXER`, BackendAst/DAstXer.fs:58-67; the argument is the length of the tag. -/
def tagSize (tag : List Byte) (contentSize : Nat) : Nat := 2 * (tag.length + 2) + 1 + contentSize + 1

/-- `String.CompareOrdinal(a, b) < 0`. -/
def strLt : List Byte → List Byte → Bool
  | [], [] => false
  | [], _ :: _ => true
  | _ :: _, [] => false
  | a :: l, b :: m => decide (a.toNat < b.toNat) || (a == b && strLt l m)

/-- `itemNames |> Seq.max`, BackendAst/DAstXer.fs:49: the greatest in the order of strings, not the longest. -/
def strMax : List (List Byte) → List Byte
  | [] => []
  | [a] => a
  | a :: l => if strLt (strMax l) a then a else strMax l

mutual
/-- `encodingSizeInBytes`, `<Type>_REQUIRED_BYTES_FOR_XER_ENCODING` (StgC/xer_c.stg:12): INTEGER BackendAst/DAstXer.fs:47, 140-141;
BOOLEAN 46, 164-165; NULL 217; ENUMERATED 44, 48-50, 230-231; strings 55, 245-246; OCTET STRING 52, 257-258; BIT STRING 51,
269-270; SEQUENCE OF 304-306; SEQUENCE 354, 364; CHOICE 396-402; references 439, 449. -/
def xSize : XTy → Option (List Byte) → Nat
  | .int .., tag => tagSize (tag.getD tagInteger) 20
  | .uint .., tag => tagSize (tag.getD tagInteger) 20
  | .bool _, tag => tagSize (tag.getD []) 8
  | .null _, tag => tagSize (tag.getD tagNull) 0
  | .enum _ labels, tag => tagSize (tag.getD []) (2 * ((strMax labels).length + 1) + 1)
  | .str _ numeric max _, tag => tagSize (tag.getD (tagString numeric)) max
  | .octets _ _ hi, tag => tagSize (tag.getD tagOctets) (hi * 2)
  | .bits _ _ hi, tag => tagSize (tag.getD tagBits) (hi * 8)
  | .seqOf _ _ hi childTag t, tag => tagSize (tag.getD tagSeqOf) (hi * xSize t childTag)
  | .seq _ fs, tag => tagSize (tag.getD tagSeq) (xSizeFields fs)
  | .choice _ alts, tag =>
    match tag with
    | none => xSizeAlts alts
    | some tag => tagSize tag (xSizeAlts alts)
  | .ref _ t, tag => xSize t tag
/-- `List.fold (+) 0I`. -/
def xSizeFields : XFields → Nat
  | .nil => 0
  | .cons name _ t rest => xSize t (some name) + xSizeFields rest
/-- `List.fold max 0I`. -/
def xSizeAlts : XAlts → Nat
  | .nil => 0
  | .cons name t rest => max (xSize t (some name)) (xSizeAlts rest)
end

end Asn1
