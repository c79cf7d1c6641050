import Verif.Model.Types
import Verif.Model.Strings
import Verif.Model.Oid
import Verif.Model.Search
import Verif.Model.Real
/-!
# Generated uPER encoders and decoders

What the compiler emits for a type: `BackendAst/DAstUPer.fs` picks the templates, `StgC/uper_c.stg` holds them.
The model interprets a description of the type (`Ty`) in the way the emitted C code runs.

Simplifications (all definitions of this file):
* the C structures are values `Val`; a value whose shape does not fit the type is the outcome `ub`
  (the C type system excludes it);
* error codes (`*pErrCode`) are not modelled, only the returned flag;
* integers are 64 bits wide in the runtime (`WORD_SIZE == 8`), `w` is the width of the C field;
* the class (signed, unsigned) of an INTEGER is computed from the range the codec uses.
-/
namespace Asn1

/-! ### INTEGER -/

/-- `IntBod`, BackendAst/DAstUPer.fs:185-193, encoding: StgC/uper_c.stg:148, 155, 163, 170, 179, 187, 195. -/
def encInt (r : Rng) (ext : Bool) (v : Int) : M Unit :=
  match r with
  | .concrete a b =>
    if a = b then pure ()
    else if r.unsigned && !ext then encodeConstraintPosWholeNumber (BitVec.ofInt 64 v) (BitVec.ofInt 64 a) (BitVec.ofInt 64 b)
    else encodeConstraintWholeNumber v a b
  | .posInf a =>
    if decide (a ≥ 0) && !ext then encodeSemiConstraintPosWholeNumber (BitVec.ofInt 64 v) (BitVec.ofInt 64 a)
    else encodeSemiConstraintWholeNumber v a
  | .negInf _ => encodeUnConstraintWholeNumber v
  | .full => encodeUnConstraintWholeNumber v

/-- The result of an unsigned decoder, as an integer. -/
def decU {w : Nat} (f : M (Bool × BitVec w)) : M (Bool × Int) := do
  let r ← f
  pure (r.1, (r.2.toNat : Int))

/-- `IntBod`, BackendAst/DAstUPer.fs:185-193, decoding: StgC/uper_c.stg:149-203; the suffix of the decoder is that of
`getIntDecFuncSuffix`, BackendAst/DAstUPer.fs:131-142. -/
def decInt (w : Nat) (r : Rng) (ext : Bool) : M (Bool × Int) :=
  match r with
  | .concrete a b =>
    if a = b then pure (true, a)
    else if r.unsigned && !ext then
      if w = 64 then decU (decodeConstraintPosWholeNumber (BitVec.ofInt 64 a) (BitVec.ofInt 64 b))
      else decU (decodeConstraintPosWholeNumberNarrow w (BitVec.ofInt w a) (BitVec.ofInt w b))
    else if w = 64 then decodeConstraintWholeNumber a b
    else decodeConstraintWholeNumberNarrow w a b
  | .posInf a =>
    if decide (a ≥ 0) && !ext then decU (decodeSemiConstraintPosWholeNumber (BitVec.ofInt 64 a))
    else decodeSemiConstraintWholeNumber a
  | .negInf _ => decodeUnConstraintWholeNumber
  | .full => decodeUnConstraintWholeNumber

/-- `IntRootExt_encode` and `IntRootExt2_encode`, StgC/uper_c.stg:208-211 and 232-241. -/
def encIntExt (root : Rng) (inRoot : Int → Bool) (more : Option (Int → Bool)) (v : Int) : M Unit :=
  match more with
  | none => do
    appendBitZero
    encInt root true v
  | some _ =>
    if inRoot v then do
      appendBitZero
      encInt root true v
    else do
      appendBitOne
      encodeUnConstraintWholeNumber v

/-- `IntRootExt_decode` and `IntRootExt2_decode`, StgC/uper_c.stg:214-228 and 243. -/
def decIntExt (root : Rng) : M (Bool × Int) := do
  let b ← readBit
  if b.1 then
    if b.2 then decodeUnConstraintWholeNumber else decInt 64 root true
  else pure (false, 0)

/-! ### ENUMERATED -/

/-- The table of a type assignment, StgC/header_c.stg:143-153: the *allowed* values, in increasing order
(FrontEndAst/DAstTypeDefinition.fs:393). -/
def enumTable (valid : List Int) : List Int := valid.mergeSort (fun a b => decide (a ≤ b))

/-- `Enumerated_encode` (StgC/uper_c.stg:284-304) and `Enumerated_no_switch_encode` (325-333). The table search
is told that the table has as many entries as there are *items* (StgC/header_c.stg:152). -/
def encEnum (items : List Int) (table : Option (List Int)) (v : Int) : M Bool :=
  match table with
  | some allowed => do
    let i ← binarySearch (enumTable allowed) items.length v
    if 0 ≤ i ∧ i ≤ (items.length : Int) - 1 then do
      encodeConstraintWholeNumber i 0 ((items.length : Int) - 1)
      pure true
    else pure false
  | none =>
    match items.idxOf? v with
    | some i => do
      encodeConstraintWholeNumber (i : Int) 0 ((items.length : Int) - 1)
      pure true
    | none => pure false

/-- `Enumerated_decode` (StgC/uper_c.stg:290-323) and `Enumerated_no_switch_decode` (335-340). -/
def decEnum (items : List Int) (table : Option (List Int)) : M (Bool × Int) := do
  let p ← decodeConstraintWholeNumber 0 ((items.length : Int) - 1)
  match table with
  | some allowed =>
    if p.1 ∧ 0 ≤ p.2 ∧ p.2 ≤ (items.length : Int) - 1 then do
      let v ← tblGet (enumTable allowed) p.2.toNat
      pure (true, v)
    else pure (false, items.headD 0)
  | none =>
    if p.1 then
      match items[p.2.toNat]? with
      | some v => pure (true, v)
      | none => pure (false, 0)
    else pure (false, items.headD 0)

/-! ### Loops over items -/

/-- `loopFixedItem`, StgC/uper_c.stg:446-451: `for (i = off; i < off + n && ret; i++) item`. -/
def encLoop (item : Nat → M Bool) : (n off : Nat) → M Bool
  | 0, _ => pure true
  | n + 1, off => do
    let ret ← item off
    if ret then encLoop item n (off + 1) else pure false

/-- The item loops of the fragmentation templates, which do not look at `ret` (StgC/uper_c.stg:560-563, 578-581,
601-604, 644-647, 665-668). Simplification: every item assigns `ret`; the C encoders of some types assign it
only when they fail, which matters for values that are not valid. -/
def encLoopAll (item : Nat → M Bool) (ret : Bool) : (n off : Nat) → M Bool
  | 0, _ => pure ret
  | n + 1, off => do
    let r ← item off
    encLoopAll item r n (off + 1)

/-- `loopFixedItem`, StgC/uper_c.stg:446-451, and the loops of `Fragmentation_sqf_decode` (787-790, 819-822): the
items read so far are collected in `acc`. -/
def decLoop {α : Type} (item : M (Bool × α)) : (n : Nat) → List α → M (Bool × List α)
  | 0, acc => pure (true, acc)
  | n + 1, acc => do
    let p ← item
    if p.1 then decLoop item n (acc ++ [p.2]) else pure (false, acc)

/-- The item loops of the fixed size fragmentation templates, which do not look at `ret`
(StgC/uper_c.stg:688-690, 711-713, 737-740): `ret` is what the last item left there. -/
def decLoopAll {α : Type} (item : M (Bool × α)) : (ret : Bool) → (n : Nat) → List α → M (Bool × List α)
  | ret, 0, acc => pure (ret, acc)
  | _, n + 1, acc => do
    let p ← item
    decLoopAll item p.1 n (acc ++ [p.2])

/-! ### Fragmentation -/

/-- The `while` loop of `Fragmentation_sqf_encode`, StgC/uper_c.stg:613-652. The second loop condition
(`nBlockIndex < nCount`) always holds. Result: `ret`, items left, offset. -/
def genFragEncodeLoop (blk : Bool → (off n : Nat) → M Bool) : (fuel : Nat) → (ret : Bool) → (rem off : Nat) → M (Bool × Nat × Nat)
  | 0, _, _, _ => mUb
  | fuel + 1, ret, rem, off =>
    if rem ≥ 0x4000 then do
      encodeConstraintWholeNumber (blockFor rem).2 0 0xFF
      let ret ← blk ret off (blockFor rem).1
      genFragEncodeLoop blk fuel ret (rem - (blockFor rem).1) (off + (blockFor rem).1)
    else pure (ret, rem, off)

/-- `Fragmentation_sqf_encode`, StgC/uper_c.stg:613-670. -/
def genFragEncode (blk : Bool → (off n : Nat) → M Bool) (nCount : Nat) : M Bool := do
  let r ← genFragEncodeLoop blk (nCount + 1) true nCount 0
  fragLastLength r.2.1
  blk r.1 r.2.2 r.2.1

/-- `Fragmentation_sqf_decode` for a variable size (`bIsVariableSize`; the fixed size goes to other templates,
BackendAst/DAstUPer.fs:405-409), StgC/uper_c.stg:755-852. The loop is that of the runtime
(`fragDecodeLoop`: the same statements). -/
def genFragDecode {σ : Type} (blk : (off n : Nat) → σ → M (Bool × σ)) (lo hi : Nat) (st : σ) : M (Bool × σ) := do
  let q ← decodeConstraintWholeNumber 0 0xFF
  if q.1 then do
    let r ← fragDecodeLoop blk hi (hi + 1) q.2.toNat 0 st
    if r.1 then do
      let l ← fragDecodeLast r.2.1
      if l.1 then
        if r.2.2.1 + l.2 ≤ hi then do
          let p ← blk r.2.2.1 l.2 r.2.2.2
          if p.1 then
            if lo ≤ r.2.2.1 + l.2 ∧ r.2.2.1 + l.2 ≤ hi then pure (true, p.2) else pure (false, p.2)
          else pure (false, p.2)
        else pure (false, r.2.2.2)
      else pure (false, r.2.2.2)
    else pure (false, r.2.2.2)
  else pure (false, st)

/-- `FragmentationParts`, BackendAst/DAstUPer.fs:349-362, as the list of the small blocks (size, length octet) and
the number of items behind the last block. The number of 64K blocks is `size / 0x10000`. -/
def fragSmall (size : Nat) : List (Nat × Int) × Nat :=
  let r1 := size % 0x10000
  let h48 := decide (r1 ≥ 0xC000)
  let r2 := if h48 then r1 - 0xC000 else r1
  let h32 := decide (r2 ≥ 0x8000)
  let r3 := if h32 then r2 - 0x8000 else r2
  let h16 := decide (r3 ≥ 0x4000)
  let r4 := if h16 then r3 - 0x4000 else r3
  ((if h48 then [(0xC000, 0xC3)] else []) ++ (if h32 then [(0x8000, 0xC2)] else []) ++
    (if h16 then [(0x4000, 0xC1)] else []), r4)

/-- `FixedSize_Fragmentation_sqf_64K_encode`, StgC/uper_c.stg:550-568: `k` blocks of 64K items. -/
def fix64Encode (blk : Bool → (off n : Nat) → M Bool) : (k : Nat) → (ret : Bool) → (off : Nat) → M (Bool × Nat)
  | 0, ret, off => pure (ret, off)
  | k + 1, ret, off => do
    encodeConstraintWholeNumber 0xC4 0 0xFF
    let ret ← blk ret off 0x10000
    fix64Encode blk k ret (off + 0x10000)

/-- `FixedSize_Fragmentation_sqf_small_block_encode`, StgC/uper_c.stg:570-585, for each small block, nested in
`if (ret)` (BackendAst/DAstUPer.fs:402, StgC/isvalid_c.stg:22-27), then
`FixedSize_Fragmentation_sqf_remaining_encode` (587-607) when items remain. -/
def fixRestEncode (blk : Bool → (off n : Nat) → M Bool) (rem : Nat) : List (Nat × Int) → (ret : Bool) → (off : Nat) → M Bool
  | [], ret, off =>
    if ret then
      if rem > 0 then do
        fragLastLength rem
        blk ret off rem
      else pure ret
    else pure false
  | (sz, id) :: parts, ret, off =>
    if ret then do
      encodeConstraintWholeNumber id 0 0xFF
      let ret ← blk ret off sz
      fixRestEncode blk rem parts ret (off + sz)
    else pure false

/-- `handleFixedSizeFragmentation`, BackendAst/DAstUPer.fs:365-403, encoding. -/
def fixFragEncode (blk : Bool → (off n : Nat) → M Bool) (size : Nat) : M Bool := do
  let r ← fix64Encode blk (size / 0x10000) true 0
  fixRestEncode blk (fragSmall size).2 (fragSmall size).1 r.1 r.2

/-- `FixedSize_Fragmentation_sqf_64K_decode`, StgC/uper_c.stg:673-696. -/
def fix64Decode {σ : Type} (blk : (off n : Nat) → σ → M (Bool × σ)) : (k off : Nat) → σ → M (Bool × (Nat × σ))
  | 0, off, st => pure (true, (off, st))
  | k + 1, off, st => do
    let q ← decodeConstraintWholeNumber 0 0xFF
    if q.1 ∧ q.2 = 0xC4 then do
      let p ← blk off 0x10000 st
      if p.1 then fix64Decode blk k (off + 0x10000) p.2 else pure (false, (off + 0x10000, p.2))
    else pure (false, (off, st))

/-- `FixedSize_Fragmentation_sqf_remaining_decode`, StgC/uper_c.stg:720-744. -/
def fixRemDecode {σ : Type} (blk : (off n : Nat) → σ → M (Bool × σ)) (rem off : Nat) (st : σ) : M (Bool × σ) := do
  let q ← (if rem ≤ 127 then do
      let q ← decodeConstraintWholeNumber 0 0xFF
      pure (q.1 && decide (q.2 = (rem : Int)))
    else do
      let q ← decodeConstraintWholeNumber 0 0xFFFF
      pure (q.1 && decide (0x8000 &&& q.2.toNat > 0) && decide (0x7FFF &&& q.2.toNat = rem)))
  if q then blk off rem st else pure (false, st)

/-- `FixedSize_Fragmentation_sqf_small_block_decode`, StgC/uper_c.stg:699-718, for each small block, nested in
`if (ret)`, then the remaining items. -/
def fixRestDecode {σ : Type} (blk : (off n : Nat) → σ → M (Bool × σ)) (rem : Nat) : List (Nat × Int) → (off : Nat) → σ → M (Bool × σ)
  | [], off, st => if rem > 0 then fixRemDecode blk rem off st else pure (true, st)
  | (sz, id) :: parts, off, st => do
    let q ← decodeConstraintWholeNumber 0 0xFF
    if q.1 ∧ q.2 = id then do
      let p ← blk off sz st
      if p.1 then fixRestDecode blk rem parts (off + sz) p.2 else pure (false, p.2)
    else pure (false, st)

/-- `handleFixedSizeFragmentation`, BackendAst/DAstUPer.fs:365-403, decoding. -/
def fixFragDecode {σ : Type} (blk : (off n : Nat) → σ → M (Bool × σ)) (size : Nat) (st : σ) : M (Bool × σ) := do
  let r ← fix64Decode blk (size / 0x10000) 0 st
  if r.1 then fixRestDecode blk (fragSmall size).2 (fragSmall size).1 r.2.1 r.2.2 else pure (false, r.2.2)

/-- `handleFragmentation`, BackendAst/DAstUPer.fs:405-427, encoding. -/
def fragAnyEncode (blk : Bool → (off n : Nat) → M Bool) (lo hi nCount : Nat) : M Bool :=
  if lo = hi then fixFragEncode blk lo else genFragEncode blk nCount

/-- `handleFragmentation`, BackendAst/DAstUPer.fs:405-427, decoding: the item loops of the two sets of templates
differ. -/
def fragAnyDecode {σ : Type} (blkFix blkVar : (off n : Nat) → σ → M (Bool × σ)) (lo hi : Nat) (st : σ) : M (Bool × σ) :=
  if lo = hi then fixFragDecode blkFix lo st else genFragDecode blkVar lo hi st

/-! ### OCTET STRING, BIT STRING, character strings -/

/-- `createOctetStringFunction_funcBody`, BackendAst/DAstUPer.fs:499-530, encoding: StgC/uper_c.stg:504, 512-515; items
of fragments 105-107 (the result of `BitStream_AppendByte0` is ignored). -/
def encOctets (lo hi : Nat) (arr : List Byte) : M Bool :=
  if hi < 65536 then
    if lo = hi then encodeOctetStringNoLength arr lo
    else do
      encodeConstraintWholeNumber (arr.length : Int) lo hi
      encodeOctetStringNoLength arr arr.length
  else fragAnyEncode (fun ret off n => encLoopAll (fun i => do
    let b ← tblGet arr i
    let _ ← appendByte0 b
    pure ret) ret n off) lo hi arr.length

/-- The same, decoding: StgC/uper_c.stg:508, 517-522 (the first `ret` is overwritten), items 109-112. -/
def decOctets (lo hi : Nat) : M (Bool × List Byte) :=
  if hi < 65536 then
    if lo = hi then decodeOctetStringNoLength lo
    else do
      let q ← decodeConstraintWholeNumber lo hi
      decodeOctetStringNoLength q.2.toNat
  else fragAnyDecode (fun _ n acc => decLoopAll readByte true n acc) (fun _ n acc => decLoop readByte n acc) lo hi []

/-- `createBitStringFunction_funcBody`, BackendAst/DAstUPer.fs:549-576, encoding: StgC/uper_c.stg:530, 536-539, and the
`bIsBitStringType` branches of the fragmentation templates. -/
def encBits (lo hi n : Nat) (arr : List Byte) : M Bool :=
  if hi < 65536 then
    if lo = hi then do
      appendBits arr lo
      pure true
    else do
      encodeConstraintWholeNumber (n : Int) lo hi
      appendBits arr n
      pure true
  else fragAnyEncode (fun ret off k => do
    appendBits (arr.drop (off / 8)) k
    pure ret) lo hi n

/-- The same, decoding: StgC/uper_c.stg:531-534, 541-547. Result: `nCount` and the bytes. -/
def decBits (lo hi : Nat) : M (Bool × (Nat × List Byte)) :=
  if hi < 65536 then
    if lo = hi then do
      let p ← readBits lo
      pure (p.1, (lo, p.2))
    else do
      let q ← decodeConstraintWholeNumber lo hi
      if q.1 then do
        let p ← readBits q.2.toNat
        pure (p.1, (q.2.toNat, p.2))
      else pure (false, (0, []))
  else
    let blk := fun (_ n : Nat) (st : Nat × List Byte) => do
      let p ← readBits n
      pure (p.1, (st.1 + n, st.2 ++ p.2))
    fragAnyDecode blk blk lo hi (0, [])

/-- `InternalItem_string_with_alpha_encode` (StgC/uper_c.stg:118-121) and `InternalItem_string_no_alpha_encode`
(132-134, when the alphabet has all 128 characters, BackendAst/DAstUPer.fs:450-456). -/
def encChar (alphabet : List Byte) (c : Byte) : M Unit :=
  if alphabet.length = 128 then encodeConstraintWholeNumber c.toInt 0 127
  else do
    let i ← getCharIndex c alphabet alphabet.length
    encodeConstraintWholeNumber (i : Int) 0 ((alphabet.length : Int) - 1)

/-- `InternalItem_string_with_alpha_decode` (StgC/uper_c.stg:123-130) and `InternalItem_string_no_alpha_decode`
(136-141). -/
def decChar (alphabet : List Byte) : M (Bool × Byte) :=
  if alphabet.length = 128 then do
    let q ← decodeConstraintWholeNumber 0 127
    pure (q.1, BitVec.ofInt 8 q.2)
  else do
    let q ← decodeConstraintWholeNumber 0 ((alphabet.length : Int) - 1)
    if q.1 ∧ ¬ (q.2 < 0 ∨ q.2 > (alphabet.length : Int) - 1) then do
      let c ← tblGet alphabet q.2.toNat
      pure (true, c)
    else pure (false, 0#8)

/-- `createIA5StringFunction`, BackendAst/DAstUPer.fs:429-496, encoding: StgC/uper_c.stg:456-471. The C array holds the
characters and a terminating zero. -/
def encStr (alphabet : List Byte) (lo hi : Nat) (chars : List Byte) : M Bool :=
  let item := fun (ret : Bool) (i : Nat) => do
    let c ← tblGet (chars ++ [0#8]) i
    encChar alphabet c
    pure ret
  if hi < 65536 then
    if lo = hi then encLoop (item true) lo 0
    else do
      encodeConstraintWholeNumber (chars.length : Int) lo hi
      encLoop (item true) chars.length 0
  else fragAnyEncode (fun ret off n => encLoopAll (item ret) ret n off) lo hi chars.length

/-- The same, decoding: StgC/uper_c.stg:460-463, 473-477. The C string ends at the first zero. -/
def decStr (alphabet : List Byte) (lo hi : Nat) : M (Bool × List Byte) := do
  let p ← (if hi < 65536 then
      if lo = hi then decLoop (decChar alphabet) lo []
      else do
        let q ← decodeConstraintWholeNumber lo hi
        if q.1 then decLoop (decChar alphabet) q.2.toNat [] else pure (false, [])
    else fragAnyDecode (fun _ n acc => decLoopAll (decChar alphabet) true n acc)
      (fun _ n acc => decLoop (decChar alphabet) n acc) lo hi [])
  pure (p.1, p.2.takeWhile (· ≠ 0#8))

/-! ### SEQUENCE OF -/

/-- `createSequenceOfFunction`, BackendAst/DAstUPer.fs:588-672, encoding: StgC/uper_c.stg:482-493. -/
def encSeqOf (item : Val → M Bool) (lo hi : Nat) (vs : List Val) : M Bool :=
  let it := fun (i : Nat) => do
    let v ← tblGet vs i
    item v
  if hi < 65536 then
    if lo = hi then encLoop it lo 0
    else do
      encodeConstraintWholeNumber (vs.length : Int) lo hi
      encLoop it vs.length 0
  else fragAnyEncode (fun ret off n => encLoopAll it ret n off) lo hi vs.length

/-- The same, decoding: StgC/uper_c.stg:486-500. -/
def decSeqOf {α : Type} (item : M (Bool × α)) (lo hi : Nat) : M (Bool × List α) :=
  if hi < 65536 then
    if lo = hi then decLoop item lo []
    else do
      let q ← decodeConstraintWholeNumber lo hi
      if q.1 then decLoop item q.2.toNat [] else pure (false, [])
  else fragAnyDecode (fun _ n acc => decLoopAll item true n acc) (fun _ n acc => decLoop item n acc) lo hi []

/-! ### Validity -/

mutual
/-- The function `<type>_IsConstraintValid` that the compiler emits (BackendAst/DastValidate2.fs, templates of
StgC/isvalid_c.stg): range, size, alphabet, allowed items, components that are present, markings
(StgC/isvalid_c.stg:281-284), the chosen alternative (318-325), the elements (335-348).
Simplifications: single value constraints and constraints combined in other ways than these are not modelled;
a fixed size is checked as well (in C there is no count to check); the shape is checked too. -/
def isValid : Ty → Val → Bool
  | .int _ r, .int v => r.holds v
  | .intExt _ inRoot more, .int v => inRoot v || (more.map (fun f => f v)).getD false
  | .bool, .bool _ => true
  | .null, .null => true
  | .enum _ valid _, .enum v => valid.contains v
  | .octets lo hi, .octets arr => decide (lo ≤ arr.length ∧ arr.length ≤ hi)
  | .bits lo hi alo ahi, .bits n _ => decide (lo ≤ n ∧ n ≤ hi ∧ alo ≤ n ∧ n ≤ ahi)
  | .str alphabet lo hi, .str chars => decide (lo ≤ chars.length ∧ chars.length ≤ hi) && chars.all alphabet.contains
  | .oid, .oid o => decide (2 ≤ o.nCount) && decide ((o.values.getD 0 0#64).toNat ≤ 2) && decide ((o.values.getD 1 0#64).toNat ≤ 39)
  | .relOid, .oid o => decide (0 < o.nCount)
  | .real holds, .real d => holds d
  | .seq fs, .seq vs => validFields fs vs
  | .seqOf lo hi t, .seqOf vs => decide (lo ≤ vs.length ∧ vs.length ≤ hi) && vs.all (isValid t)
  | .choice alts, .choice i v => validAlt alts i v
  | .ref t, v => isValid t v
  | _, _ => false
/-- The components of a SEQUENCE. -/
def validFields : Fields → List (Bool × Val) → Bool
  | .nil, [] => true
  | .cons o t rest, (e, v) :: vs =>
    (match o with
      | .mandatory => isValid t v
      | .optional | .default _ => !e || isValid t v
      | .absent => !e
      | .present => e && isValid t v) && validFields rest vs
  | _, _ => false
/-- The chosen alternative of a CHOICE. -/
def validAlt : Alts → Nat → Val → Bool
  | .nil, _, _ => false
  | .cons t _, 0, v => isValid t v
  | .cons _ rest, i + 1, v => validAlt rest i v
end

/-! ### The generated functions -/

/-- The presence bits, written before the components (BackendAst/DAstUPer.fs:711-733): StgC/uper_c.stg:387, 394. -/
def encPresence : Fields → List (Bool × Val) → M Unit
  | .nil, _ => pure ()
  | .cons o _ rest, (e, _) :: vs => do
    (match o with
      | .mandatory => pure ()
      | .optional | .default _ => appendBit e
      | .absent => appendBit false
      | .present => appendBit true)
    encPresence rest vs
  | .cons .., [] => mUb

/-- The presence bits, decoding (StgC/uper_c.stg:388-398): one flag per component, true for a mandatory one. -/
def decPresence : Fields → M (Bool × List Bool)
  | .nil => pure (true, [])
  | .cons o _ rest => do
    let b ← (match o with
      | .mandatory => pure (true, true)
      | _ => readBit)
    if b.1 then do
      let p ← decPresence rest
      pure (p.1, b.2 :: p.2)
    else pure (false, [])

mutual
/-- The encoder of a type: the body of `<type>_Encode` (StgC/uper_c.stg:37-69) when `bCheckConstraints` is FALSE.
A reference calls the function of the referenced type with FALSE (StgC/uper_c.stg:7). -/
def encTy : Ty → Val → M Bool
  | .int _ r, .int v => do
    encInt r false v
    pure true
  | .intExt root inRoot more, .int v => do
    encIntExt root inRoot more v
    pure true
  | .bool, .bool b => do
    appendBit b
    pure true
  | .null, .null => pure true
  | .enum items _ table, .enum v => encEnum items table v
  | .octets lo hi, .octets arr => encOctets lo hi arr
  | .bits lo hi _ _, .bits n arr => encBits lo hi n arr
  | .str alphabet lo hi, .str chars => encStr alphabet lo hi chars
  | .oid, .oid o => do
    oidEncode o
    pure true
  | .relOid, .oid o => do
    relOidEncode o
    pure true
  | .real _, .real d => do
    encodeReal d
    pure true
  | .seq fs, .seq vs => do
    encPresence fs vs
    encFields fs vs
  | .seqOf lo hi t, .seqOf vs => encSeqOf (encTy t) lo hi vs
  | .choice alts, .choice i v =>
    if i < alts.length then do
      encodeConstraintWholeNumber (i : Int) 0 ((alts.length : Int) - 1)
      encAlt alts i v
    else pure false
  | .ref t, v => encTy t v
  | _, _ => mUb
/-- The components of a SEQUENCE, each nested in `if (ret)` (BackendAst/DAstUPer.fs:735-800): StgC/uper_c.stg:401-430.
A component marked absent is not encoded, one marked present always is. -/
def encFields : Fields → List (Bool × Val) → M Bool
  | .nil, _ => pure true
  | .cons o t rest, (e, v) :: vs => do
    let ret ← (match o with
      | .mandatory => encTy t v
      | .optional | .default _ => if e then encTy t v else pure true
      | .absent => pure true
      | .present => encTy t v)
    if ret then encFields rest vs else pure false
  | .cons .., [] => mUb
/-- The content of alternative number `i`, StgC/uper_c.stg:345-349. -/
def encAlt : Alts → Nat → Val → M Bool
  | .nil, _, _ => mUb
  | .cons t _, 0, v => encTy t v
  | .cons _ rest, i + 1, v => encAlt rest i v
end

mutual
/-- The decoder of a type: the body of `<type>_Decode` (StgC/uper_c.stg:76-96) without the final check. A reference
calls the function of the referenced type (StgC/uper_c.stg:8), which ends with the check. -/
def decTy : Ty → M (Bool × Val)
  | .int w r => do
    let p ← decInt w r false
    pure (p.1, .int p.2)
  | .intExt root _ _ => do
    let p ← decIntExt root
    pure (p.1, .int p.2)
  | .bool => do
    let p ← readBit
    pure (p.1, .bool p.2)
  | .null => pure (true, .null)
  | .enum items _ table => do
    let p ← decEnum items table
    pure (p.1, .enum p.2)
  | .octets lo hi => do
    let p ← decOctets lo hi
    pure (p.1, .octets p.2)
  | .bits lo hi _ _ => do
    let p ← decBits lo hi
    pure (p.1, .bits p.2.1 p.2.2)
  | .str alphabet lo hi => do
    let p ← decStr alphabet lo hi
    pure (p.1, .str p.2)
  | .oid => do
    let p ← oidDecode
    pure (p.1, .oid p.2)
  | .relOid => do
    let p ← relOidDecode
    pure (p.1, .oid p.2)
  | .real _ => do
    let p ← decodeReal
    pure (p.1, .real p.2)
  | .seq fs => do
    let b ← decPresence fs
    if b.1 then do
      let p ← decFields fs b.2
      pure (p.1, .seq p.2)
    else pure (false, .seq [])
  | .seqOf lo hi t => do
    let p ← decSeqOf (decTy t) lo hi
    pure (p.1, .seqOf p.2)
  | .choice alts => do
    let q ← decodeConstraintWholeNumber 0 ((alts.length : Int) - 1)
    if q.1 then do
      let p ← decAlt alts q.2.toNat
      pure (p.1, .choice q.2.toNat p.2)
    else pure (false, .choice 0 .null)
  | .ref t => do
    let p ← decTy t
    pure (p.1 && isValid t p.2, p.2)
/-- The components of a SEQUENCE, StgC/uper_c.stg:406-439: a component that is not there keeps whatever the structure
held (`null` here), one with a DEFAULT is set to it. -/
def decFields : Fields → List Bool → M (Bool × List (Bool × Val))
  | .nil, _ => pure (true, [])
  | .cons o t rest, e :: es => do
    let p ← (if e then decTy t
      else match o with
        | .default d => pure (true, d)
        | _ => pure (true, .null))
    if p.1 then do
      let q ← decFields rest es
      pure (q.1, (e, p.2) :: q.2)
    else pure (false, [])
  | .cons .., [] => mUb
/-- The content of alternative number `i`, StgC/uper_c.stg:351-380 (no such alternative: FALSE). -/
def decAlt : Alts → Nat → M (Bool × Val)
  | .nil, _ => pure (false, .null)
  | .cons t _, 0 => decTy t
  | .cons _ rest, i + 1 => decAlt rest i
end

/-- `<type>_Encode`, StgC/uper_c.stg:37-69, with its argument `bCheckConstraints`. -/
def encodeType (t : Ty) (v : Val) (bCheckConstraints : Bool) : M Bool :=
  if bCheckConstraints && !isValid t v then pure false else encTy t v

/-- `<type>_Decode`, StgC/uper_c.stg:76-96. -/
def decodeType (t : Ty) : M (Bool × Val) := decTy (.ref t)

end Asn1
