import Verif.Model.Gen
import Verif.Model.AcnInt
import Verif.Model.AcnDigits
import Verif.Model.AcnStrings
/-!
# Generated ACN encoders and decoders

What the compiler emits for a type with ACN properties: the files of `BackendAst/Acn/` pick the templates, `StgC/acn_c.stg` holds
them. The model interprets a description of the type (`ATy`) in the way the emitted C code runs.

The fields that ACN inserts (length fields, presence flags, alternative selectors: *determinants*) are local variables of the
emitted function, each with a flag `_is_initialized` in the encoder. Every determinant of a function has a number here.

Simplifications (all definitions of this file):
* as in `Verif.Model.Gen`: values are `Val`, a wrong shape is `ub`, error codes are not modelled;
* the local variables of determinants have 64 bits; a value is an integer (0 and 1 for a BOOLEAN);
* not modelled: string determinants, presence expressions, termination patterns, parameters other than determinants, `save-position` and
  the functions called after encoding, deferred encoding (`--acn-v2`), containing types, tables for enumerated types (`-eee`), alternatives
  marked absent.
-/
namespace Asn1

/-! ### Types -/

/-- `IntEncodingClass`, FrontEndAst/AcnEncodingClasses.fs:34-132: the encodings of an INTEGER. Signed and unsigned ranges use different
functions for the same class (BackendAst/Acn/AcnPrimitives.fs:75-136); sizes in bits (`const`), bytes (`big`, `little`: 2, 4, 8), digits
(`bcd`), characters (`ascii`). -/
inductive IntEnc where
  | uper
  | const (n : Nat)
  | const8
  | big (size : Nat)
  | little (size : Nat)
  | bcd (n : Nat)
  | bcdNull
  | ascii (n : Nat)
  | asciiNull (nul : List Byte)
deriving DecidableEq

/-- A pair of mapping functions (`<soMF>_encode`, `<soMF>_decode`, StgC/acn_c.stg:146-316). -/
structure Mapping where
  enc : Int → Int
  dec : Int → Int

/-- The encodings of a BOOLEAN: one bit, a pattern for one of the values (StgC/acn_c.stg:349-372), a pattern for both (375-392). -/
inductive BoolEnc where
  | uper
  | onePattern (encValIsTrue : Bool) (tp fp : List Byte) (n : Nat)
  | twoPatterns (tp fp : List Byte) (n : Nat)

/-- The types that an inserted field can have, which are also types of ASN.1 components: INTEGER in a C integer of `w` bits, BOOLEAN,
ENUMERATED (`items`: value and encoded value, `valid`: the values the constraints allow). -/
inductive ALeaf where
  | int (w : Nat) (r : Rng) (enc : IntEnc) (mf : Option Mapping)
  | bool (e : BoolEnc)
  | enum (items : List (Int × Int)) (valid : List Int) (enc : IntEnc)

/-- `AcnAlignment`, FrontEndAst/AcnGenericTypes.fs. -/
inductive Align where
  | byte
  | word
  | dword

/-- How the presence of an optional component is told: a bit before the components, or a BOOLEAN determinant. -/
inductive APres where
  | bit
  | whenBool (k : Nat)

/-- Optionality of a component; `optional p d` has the DEFAULT `d` if any. -/
inductive AOpt where
  | mandatory
  | optional (p : APres) (d : Option Val)
  | absent
  | present

mutual
/-- A type, as far as the ACN back end looks at it. A number `k` is that of the determinant. -/
inductive ATy where
  /-- A type without ACN properties that is not a SEQUENCE, SEQUENCE OF, CHOICE or reference: the uPER code. -/
  | prim (t : Ty)
  | leaf (l : ALeaf)
  /-- NULL with a pattern. -/
  | nullPat (pat : List Byte) (n : Nat)
  | real64 (little : Bool) (holds : BitVec 64 → Bool)
  /-- REAL in a C `float` (its bits are the low half of the value). -/
  | real32 (little : Bool) (holds : BitVec 64 → Bool)
  /-- OCTET STRING with an external length; `dmax`: the upper bound of the declared range of the determinant. -/
  | octets (lo hi k : Nat) (dmax : Option Int)
  | bits (lo hi k : Nat) (dmax : Option Int)
  | strAscii (alphabet : List Byte) (lo hi : Nat)
  | strNull (alphabet : List Byte) (lo hi : Nat) (nul : List Byte)
  | strExt (alphabet : List Byte) (lo hi k : Nat)
  | strIdx (alphabet : List Byte) (lo hi k : Nat)
  | seq (fs : AFields)
  /-- SEQUENCE OF with a length before it (`none`) or an external one. -/
  | seqOf (lo hi : Nat) (k : Option Nat) (elem : ATy)
  /-- CHOICE with an index before it (`byDet = false`), or selected by determinants. -/
  | choice (byDet : Bool) (alts : AAlts)
  /-- A reference to a type assignment with a function of its own; `args`: which determinant of this function is passed for
  which parameter. -/
  | ref (args : List (Nat × Nat)) (t : ATy)
  | align (a : Align) (t : ATy)
inductive AFields where
  | nil
  | asn1 (o : AOpt) (t : ATy) (rest : AFields)
  /-- An inserted determinant. -/
  | acn (k : Nat) (a : Option Align) (l : ALeaf) (rest : AFields)
  /-- An inserted NULL with a pattern. -/
  | acnNull (pat : List Byte) (n : Nat) (rest : AFields)
/-- Alternatives of a CHOICE, each with the values of the determinants that select it. -/
inductive AAlts where
  | nil
  | cons (conds : List (Nat × Int)) (t : ATy) (rest : AAlts)
end

/-- Number of alternatives. -/
def AAlts.length : AAlts → Nat
  | .nil => 0
  | .cons _ _ r => r.length + 1

/-- The determinants that select an alternative: every alternative must have a condition on each of them
(`Seq.find` in BackendAst/Acn/AcnDependencies.fs:211). -/
def AAlts.keys : AAlts → List Nat
  | .nil => []
  | .cons conds _ _ => conds.map (·.1)

/-- The value of determinant `k` that selects alternative `i`. -/
def AAlts.cond : AAlts → Nat → Nat → Option Int
  | .nil, _, _ => none
  | .cons conds _ _, 0, k => conds.lookup k
  | .cons _ _ rest, i + 1, k => rest.cond i k

/-! ### INTEGER, BOOLEAN, ENUMERATED -/

/-- `createAcnIntegerFunctionInternal`, BackendAst/Acn/AcnPrimitives.fs:75-136, encoding: the templates of StgC/acn_c.stg:146-326. -/
def encAInt (r : Rng) (enc : IntEnc) (v : Int) : M Unit :=
  match enc with
  | .uper => encInt r false v
  | .const n => if r.unsigned then acnEncUIntConstSize (BitVec.ofInt 64 v) n else acnEncSIntConstSize v n
  | .const8 => if r.unsigned then acnEncUIntConstSize8 (BitVec.ofInt 64 v) else acnEncSIntConstSize8 v
  | .big size => if r.unsigned then acnEncUIntBig (BitVec.ofInt 64 v) size else acnEncSIntBig v size
  | .little size => if r.unsigned then acnEncUIntLittle (BitVec.ofInt 64 v) size else acnEncSIntLittle v size
  | .bcd n => acnEncBcdConstSize (BitVec.ofInt 64 v) n
  | .bcdNull => acnEncBcdNullTerminated (BitVec.ofInt 64 v)
  | .ascii n => if r.unsigned then acnEncUIntAsciiConstSize (BitVec.ofInt 64 v) n else acnEncSIntAsciiConstSize v n
  | .asciiNull nul =>
    if r.unsigned then acnEncUIntAsciiNullTerminated (BitVec.ofInt 64 v) nul else acnEncSIntAsciiNullTerminated v nul

/-- The decoder of an unsigned integer with the suffix of `getIntDecFuncSuffix` (BackendAst/DAstUPer.fs:131-142). -/
def decAU (w : Nat) (f : M (Bool × U64)) : M (Bool × Int) := if w = 64 then decU f else decU (acnNarrowU w f)

/-- The decoder of a signed integer with the suffix of `getIntDecFuncSuffix` (BackendAst/DAstUPer.fs:131-142). -/
def decAS (w : Nat) (f : M (Bool × Int)) : M (Bool × Int) := if w = 64 then f else acnNarrowS w f

/-- `createAcnIntegerFunctionInternal`, BackendAst/Acn/AcnPrimitives.fs:75-136, decoding: the templates of StgC/acn_c.stg:146-326. -/
def decAInt (w : Nat) (r : Rng) (enc : IntEnc) : M (Bool × Int) :=
  match enc with
  | .uper => decInt w r false
  | .const n => if r.unsigned then decAU w (acnDecUIntConstSize n) else decAS w (acnDecSIntConstSize n)
  | .const8 => if r.unsigned then decAU w acnDecUIntConstSize8 else decAS w acnDecSIntConstSize8
  | .big size => if r.unsigned then decAU w (acnDecUIntBig size 0#64) else decAS w (acnDecSIntBig size)
  | .little size => if r.unsigned then decAU w (acnDecUIntLittle size 0 0#64) else decAS w (acnDecSIntLittle size)
  | .bcd n => decAU w (acnDecBcdConstSize n)
  | .bcdNull => decAU w acnDecBcdNullTerminated
  | .ascii n => if r.unsigned then decAU w (acnDecUIntAsciiConstSize n) else decAS w (acnDecSIntAsciiConstSize n)
  | .asciiNull nul =>
    if r.unsigned then decAU w (acnDecUIntAsciiNullTerminated nul) else decAS w (acnDecSIntAsciiNullTerminated nul)

/-- The value that goes to the encoder: `<soMF>_encode(<p>)`, StgC/acn_c.stg:146-326; the uPER class has no mapping function
(BackendAst/Acn/AcnPrimitives.fs:77). -/
def mapEnc (enc : IntEnc) (mf : Option Mapping) (v : Int) : Int :=
  match mf, enc with
  | none, _ => v
  | some _, .uper => v
  | some m, _ => m.enc v

/-- The mapping function on the decoded value, `MF` of StgC/acn_c.stg:144. The template for 16 bits, two's complement, big endian
(StgC/acn_c.stg:236-240) does not call it. -/
def mapDec (r : Rng) (enc : IntEnc) (mf : Option Mapping) (v : Int) : Int :=
  match mf, enc with
  | none, _ => v
  | some _, .uper => v
  | some m, .big 2 => if r.unsigned then m.dec v else v
  | some m, _ => m.dec v

/-- The least and the largest encoded value of an ENUMERATED, BackendAst/Acn/AcnEnum.fs:37-40. -/
def enumRng (items : List (Int × Int)) : Rng :=
  .concrete ((items.map (·.2)).min?.getD 0) ((items.map (·.2)).max?.getD 0)

/-- The bounds of a range, 0 where it has none. -/
def Rng.lower : Rng → Int
  | .concrete a _ => a
  | .posInf a => a
  | _ => 0

/-- The bounds of a range, 0 where it has none. -/
def Rng.upper : Rng → Int
  | .concrete _ b => b
  | .negInf b => b
  | _ => 0

/-- The integer of an ENUMERATED, BackendAst/Acn/AcnEnum.fs:52-66: as an INTEGER, but the uPER class uses the functions for
non-negative integers whatever the range is. Simplification: the local variable has 64 bits. -/
def encEnumInt (r : Rng) (enc : IntEnc) (v : Int) : M Unit :=
  match enc with
  | .uper => encodeConstraintPosWholeNumber (BitVec.ofInt 64 v) (BitVec.ofInt 64 r.lower) (BitVec.ofInt 64 r.upper)
  | _ => encAInt r enc v

/-- The same, decoding. -/
def decEnumInt (r : Rng) (enc : IntEnc) : M (Bool × Int) :=
  match enc with
  | .uper => do
    let p ← decodeConstraintPosWholeNumber (BitVec.ofInt 64 r.lower) (BitVec.ofInt 64 r.upper)
    pure (p.1, if r.unsigned then (p.2.toNat : Int) else p.2.toInt)
  | _ => decAInt 64 r enc

/-- The encoder of a BOOLEAN: StgC/uper_c.stg:252, StgC/acn_c.stg:349-356, 375-382. -/
def encABool (e : BoolEnc) (b : Bool) : M Unit :=
  match e with
  | .uper => appendBit b
  | .onePattern _ tp fp n => acnBoolEncode tp fp n b
  | .twoPatterns tp fp n => acnBoolEncode tp fp n b

/-- The decoder of a BOOLEAN: StgC/uper_c.stg:253-257, StgC/acn_c.stg:359-372, 384-392. -/
def decABool (e : BoolEnc) : M (Bool × Bool) :=
  match e with
  | .uper => readBit
  | .onePattern encValIsTrue tp fp n => acnBoolDecode encValIsTrue tp fp n
  | .twoPatterns tp fp n => decodeTrueFalseBoolean tp fp n

/-- The encoder of a leaf. ENUMERATED: `EnumeratedEncValues_encode`, StgC/acn_c.stg:468-478. -/
def encLeaf (l : ALeaf) (x : Int) : M Bool :=
  match l with
  | .int _ r enc mf => do
    encAInt r enc (mapEnc enc mf x)
    pure true
  | .bool e => do
    encABool e (decide (x ≠ 0))
    pure true
  | .enum items _ enc =>
    match items.lookup x with
    | some y => do
      encEnumInt (enumRng items) enc y
      pure true
    | none => pure false

/-- The decoder of a leaf. ENUMERATED: `EnumeratedEncValues_decode`, StgC/acn_c.stg:480-491. -/
def decLeaf (l : ALeaf) : M (Bool × Int) :=
  match l with
  | .int w r enc mf => do
    let p ← decAInt w r enc
    pure (p.1, if p.1 then mapDec r enc mf p.2 else p.2)
  | .bool e => do
    let p ← decABool e
    pure (p.1, if p.2 then 1 else 0)
  | .enum items _ enc => do
    let p ← decEnumInt (enumRng items) enc
    if p.1 then
      match items.find? (fun it => it.2 = p.2) with
      | some it => pure (true, it.1)
      | none => pure (false, 0)
    else pure (false, 0)

/-- The component that holds the integer `x` of a leaf. -/
def leafVal (l : ALeaf) (x : Int) : Val :=
  match l with
  | .int .. => .int x
  | .bool _ => .bool (decide (x ≠ 0))
  | .enum .. => .enum x

/-- The integer of a component. -/
def leafInt (l : ALeaf) (v : Val) : Option Int :=
  match l, v with
  | .int .., .int x => some x
  | .bool _, .bool b => some (if b then 1 else 0)
  | .enum .., .enum x => some x
  | _, _ => none

/-- The alignment functions that the templates of StgC/acn_c.stg:134-142 call. -/
def alignTo (a : Align) : M Unit :=
  match a with
  | .byte => acnAlignToNextByte
  | .word => acnAlignToNextWord
  | .dword => acnAlignToNextDWord

/-- Alignment if there is one. -/
def alignOpt (a : Option Align) : M Unit :=
  match a with
  | none => pure ()
  | some a => alignTo a

/-! ### Validity -/

/-- The constraint check of a leaf. -/
def validLeaf (l : ALeaf) (v : Val) : Bool :=
  match l, v with
  | .int _ r _ _, .int x => r.holds x
  | .bool _, .bool _ => true
  | .enum _ valid _, .enum x => valid.contains x
  | _, _ => false

mutual
/-- `<type>_IsConstraintValid` (see `isValid`): the ACN properties and the inserted fields play no role in it. -/
def validA : ATy → Val → Bool
  | .prim t, v => isValid t v
  | .leaf l, v => validLeaf l v
  | .nullPat .., .null => true
  | .real64 _ holds, .real d => holds d
  | .real32 _ holds, .real d => holds d
  | .octets lo hi _ _, .octets arr => decide (lo ≤ arr.length ∧ arr.length ≤ hi)
  | .bits lo hi _ _, .bits n _ => decide (lo ≤ n ∧ n ≤ hi)
  | .strAscii alphabet lo hi, .str chars => decide (lo ≤ chars.length ∧ chars.length ≤ hi) && chars.all alphabet.contains
  | .strNull alphabet lo hi _, .str chars => decide (lo ≤ chars.length ∧ chars.length ≤ hi) && chars.all alphabet.contains
  | .strExt alphabet lo hi _, .str chars => decide (lo ≤ chars.length ∧ chars.length ≤ hi) && chars.all alphabet.contains
  | .strIdx alphabet lo hi _, .str chars => decide (lo ≤ chars.length ∧ chars.length ≤ hi) && chars.all alphabet.contains
  | .seq fs, .seq vs => validAFields fs vs
  | .seqOf lo hi _ t, .seqOf vs => decide (lo ≤ vs.length ∧ vs.length ≤ hi) && vs.all (validA t)
  | .choice _ alts, .choice i v => validAAlt alts i v
  | .ref _ t, v => validA t v
  | .align _ t, v => validA t v
  | _, _ => false
/-- The components of a SEQUENCE. -/
def validAFields : AFields → List (Bool × Val) → Bool
  | .nil, [] => true
  | .asn1 o t rest, (e, v) :: vs =>
    (match o with
      | .mandatory => validA t v
      | .optional _ _ => !e || validA t v
      | .absent => !e
      | .present => e && validA t v) && validAFields rest vs
  | .acn _ _ _ rest, vs => validAFields rest vs
  | .acnNull _ _ rest, vs => validAFields rest vs
  | _, _ => false
/-- The chosen alternative of a CHOICE. -/
def validAAlt : AAlts → Nat → Val → Bool
  | .nil, _, _ => false
  | .cons _ t _, 0, v => validA t v
  | .cons _ _ rest, i + 1, v => validAAlt rest i v
end

/-! ### Determinants in the encoder -/

/-- What one update statement does: `skip` when the path to the dependent component does not exist (`checkAccessPath`,
StgC/acn_c.stg:1164-1168, has no `else`), `set` the variable and its flag, `fail` (`ret = FALSE`). -/
inductive Upd where
  | skip
  | set (x : Int)
  | fail
deriving DecidableEq

/-- The value an update sets. -/
def Upd.val? : Upd → Option Int
  | .set x => some x
  | _ => none

/-- The update statement of a determinant with these dependencies, BackendAst/Acn/AcnDependencies.fs:309-394: one alone is used as it is,
several go through `MultiAcnUpdate` (StgC/acn_c.stg:1138-1156): the first value that is set, and all others that are set must be equal. -/
def mergeUpd (us : List Upd) : Upd :=
  match us with
  | [] => .skip
  | [u] => u
  | us =>
    if us.contains .fail then .fail
    else
      match us.filterMap Upd.val? with
      | [] => .fail
      | x :: xs => if xs.all (fun y => decide (y = x)) then .set x else .fail

/-- Is the path to a component with this optionality and this `exist` flag taken? `SEQ_CHILD (name, isOptional)`:
FrontEndAst/AcnCreateFromAntlr.fs:1283-1288, FrontEndAst/DAstUtilFunctions.fs:15-46. -/
def AOpt.live (o : AOpt) (e : Bool) : Bool :=
  match o with
  | .mandatory => true
  | _ => e

/-- `PresenceDependency`, StgC/acn_c.stg:1099-1102. The path is that of the SEQUENCE (`e = none`: it does not exist). -/
def updPresence (o : AOpt) (k : Nat) (e : Option Bool) : List Upd :=
  match o with
  | .optional (.whenBool j) _ =>
    if j = k then
      match e with
      | some b => [.set (if b then 1 else 0)]
      | none => [.skip]
    else []
  | _ => []

/-- `SizeDependency` and `SizeDependencyFixedSize`, StgC/acn_c.stg:1070-1078; `n`: the count, if the path exists. -/
def updSize (lo hi j k : Nat) (n : Option Nat) : List Upd :=
  if j = k then
    match n with
    | some n => [.set (if lo = hi then (lo : Int) else (n : Int))]
    | none => [.skip]
  else []

/-- The size dependency of a character string, BackendAst/Acn/AcnDependencies.fs:160-167: always the length. -/
def updStr (j k : Nat) (n : Option Nat) : List Upd :=
  if j = k then
    match n with
    | some n => [.set (n : Int)]
    | none => [.skip]
  else []

/-- `ChoiceDependencyEnum` and `ChoiceDependencyPres`, StgC/acn_c.stg:1083-1096, 1104-1126; `i`: the alternative, if the path exists. -/
def updChoice (alts : AAlts) (k : Nat) (i : Option Nat) : List Upd :=
  if alts.keys.contains k then
    match i with
    | some i =>
      match alts.cond i k with
      | some x => [.set x]
      | none => [.fail]
    | none => [.skip]
  else []

mutual
/-- All update statements of determinant `k` for the components of a value (`none`: the path to the value does not exist), one for each
dependency: `handleSingleUpdateDependency`, BackendAst/Acn/AcnDependencies.fs:75-306. A parameter of a referenced type contributes
its own (merged) update statement (`handleRefTypeArgument`, 87-95). The elements of a SEQUENCE OF contribute nothing. -/
def upd : ATy → Nat → Option Val → List Upd
  | .octets lo hi j _, k, some (.octets arr) => updSize lo hi j k (some arr.length)
  | .octets lo hi j _, k, _ => updSize lo hi j k none
  | .bits lo hi j _, k, some (.bits n _) => updSize lo hi j k (some n)
  | .bits lo hi j _, k, _ => updSize lo hi j k none
  | .strExt _ _ _ j, k, some (.str chars) => updStr j k (some chars.length)
  | .strExt _ _ _ j, k, _ => updStr j k none
  | .strIdx _ _ _ j, k, some (.str chars) => updStr j k (some chars.length)
  | .strIdx _ _ _ j, k, _ => updStr j k none
  | .seq fs, k, some (.seq vs) => updFields fs k (some vs)
  | .seq fs, k, _ => updFields fs k none
  | .seqOf lo hi (some j) _, k, some (.seqOf vs) => updSize lo hi j k (some vs.length)
  | .seqOf lo hi (some j) _, k, _ => updSize lo hi j k none
  | .choice byDet alts, k, some (.choice i v) => (if byDet then updChoice alts k (some i) else []) ++ updAlts alts k (some (i, v))
  | .choice byDet alts, k, _ => (if byDet then updChoice alts k none else []) ++ updAlts alts k none
  | .ref args t, k, v => (args.filter (fun a => a.1 = k)).map (fun a => mergeUpd (upd t a.2 v))
  | .align _ t, k, v => upd t k v
  | _, _, _ => []
/-- The same for the components of a SEQUENCE. -/
def updFields : AFields → Nat → Option (List (Bool × Val)) → List Upd
  | .nil, _, _ => []
  | .asn1 o t rest, k, some ((e, v) :: vs) =>
    updPresence o k (some e) ++ upd t k (if o.live e then some v else none) ++ updFields rest k (some vs)
  | .asn1 o t rest, k, _ => updPresence o k none ++ upd t k none ++ updFields rest k none
  | .acn _ _ _ rest, k, vs => updFields rest k vs
  | .acnNull _ _ rest, k, vs => updFields rest k vs
/-- The same for the alternatives of a CHOICE: the path to one of them exists when it is the chosen one. -/
def updAlts : AAlts → Nat → Option (Nat × Val) → List Upd
  | .nil, _, _ => []
  | .cons _ t rest, k, some (0, v) => upd t k (some v) ++ updAlts rest k none
  | .cons _ t rest, k, some (i + 1, v) => upd t k none ++ updAlts rest k (some (i, v))
  | .cons _ t rest, k, none => upd t k none ++ updAlts rest k none
end

/-! ### The generated functions -/

/-- The local variables of the determinants; `none`: not initialised. -/
abbrev DetEnv := Nat → Option Int

/-- No variable is initialised. -/
def DetEnv.empty : DetEnv := fun _ => none

/-- Assignment to a variable. -/
def DetEnv.set (env : DetEnv) (k : Nat) (x : Int) : DetEnv := fun j => if j = k then some x else env j

/-- Reading a variable that is not initialised is undefined. -/
def envGet (env : DetEnv) (k : Nat) : M Int :=
  match env k with
  | some x => pure x
  | none => mUb

/-- `(int)<sExtFld>`, StgC/acn_c.stg:602, 657, 713. Simplification: a negative count is `ub` here. -/
def extCount (x : Int) : M Nat :=
  if 0 ≤ (BitVec.ofInt 32 x).toInt then pure (BitVec.ofInt 32 x).toInt.toNat else mUb

/-- The tests of the external length of an OCTET STRING or BIT STRING of variable size: `noSizeMin` is absent for 0, `noSizeMax` when the declared
range of the determinant ends at or below the size (BackendAst/Acn/AcnOctetBitStrings.fs:62-66; StgC/acn_c.stg:599-622, 709-728). -/
def extOk (lo hi : Nat) (dmax : Option Int) (x : Int) : Bool :=
  (decide (lo = 0) || decide ((lo : Int) ≤ x)) &&
    ((match dmax with
      | some m => decide (m ≤ (hi : Int))
      | none => false) || decide (x ≤ (hi : Int)))

/-- `oct_external_field_fix_size_encode`, StgC/acn_c.stg:624-626, and `oct_external_field_encode`, 594-596. -/
def encOctetsExt (lo hi : Nat) (arr : List Byte) : M Bool :=
  if lo = hi then encodeOctetStringNoLength arr hi else encodeOctetStringNoLength arr arr.length

/-- `oct_external_field_fix_size_decode`, StgC/acn_c.stg:629-635, and `oct_external_field_decode`, 599-622. The array has
`hi` elements: writing more of them is undefined. -/
def decOctetsExt (lo hi : Nat) (dmax : Option Int) (x : Int) : M (Bool × List Byte) :=
  if lo = hi then
    if (decide (lo = 0) || decide ((lo : Int) ≤ x)) && decide (x ≤ (hi : Int)) then decodeOctetStringNoLength hi
    else pure (false, [])
  else if extOk lo hi dmax x then do
    let n ← extCount x
    let p ← decodeOctetStringNoLength n
    if p.1 && decide (hi < n) then mUb else pure p
  else pure (false, [])

/-- `bit_string_external_field_encode`, StgC/acn_c.stg:705-707, and `bit_string_external_field_fixed_size_encode`, 731-733. -/
def encBitsExt (lo hi n : Nat) (arr : List Byte) : M Bool := do
  appendBits arr (if lo = hi then hi else n)
  pure true

/-- `bit_string_external_field_decode`, StgC/acn_c.stg:709-728, and `bit_string_external_field_fixed_size_decode`, 735-741. The array
has `(hi + 7) / 8` elements: writing more of them is undefined. Simplification: it is undefined here also when `BitStream_ReadBits` fails
behind the whole octets. -/
def decBitsExt (lo hi : Nat) (dmax : Option Int) (x : Int) : M (Bool × (Nat × List Byte)) :=
  if lo = hi then
    if (decide (lo = 0) || decide ((lo : Int) ≤ x)) && decide (x ≤ (hi : Int)) then do
      let p ← readBits hi
      pure (p.1, (hi, p.2))
    else pure (false, (0, []))
  else if extOk lo hi dmax x then do
    let n ← extCount x
    if hi < n then do
      let p ← readBits n
      if decide ((hi + 7) / 8 < (n + 7) / 8) then mUb else pure (p.1, (n, p.2))
    else do
      let p ← readBits n
      pure (p.1, (n, p.2))
  else pure (false, (0, []))

/-- The C array of a character string: `hi + 1` bytes, zero behind the characters. -/
def strObj (hi : Nat) (chars : List Byte) : M (List Byte) :=
  if chars.length ≤ hi then pure (chars ++ List.replicate (hi + 1 - chars.length) 0#8) else mUb

/-- `Acn_Enc_String_uPER_Ascii`: BackendAst/Acn/AcnStrings.fs:31-36; StgC/acn_c.stg:522, 540. -/
def encStrAscii (lo hi : Nat) (chars : List Byte) : M Bool := do
  let obj ← strObj hi chars
  (if lo = hi then acnEncStrAsciiFixSize hi obj else acnEncStrAsciiInternal hi lo obj)
  pure true

/-- The same, decoding: StgC/acn_c.stg:523-526, 541-544. -/
def decStrAscii (lo hi : Nat) : M (Bool × List Byte) := do
  let p ← (if lo = hi then acnDecStrAsciiFixSize hi (List.replicate (hi + 1) 0#8)
    else acnDecStrAsciiInternal hi lo (List.replicate (hi + 1) 0#8))
  pure (p.1, p.2.takeWhile (· ≠ 0#8))

/-- `Acn_String_Ascii_Null_Terminated_encode`, StgC/acn_c.stg:528. -/
def encStrNull (hi : Nat) (nul chars : List Byte) : M Bool := do
  let obj ← strObj hi chars
  acnEncStrAsciiNullTerminatedMult hi nul obj
  pure true

/-- `Acn_String_Ascii_Null_Terminated_decode`, StgC/acn_c.stg:529-532. -/
def decStrNull (hi : Nat) (nul : List Byte) : M (Bool × List Byte) := do
  let p ← acnDecStrAsciiNullTerminatedMult hi nul (List.replicate (hi + 1) 0#8)
  pure (p.1, p.2.takeWhile (· ≠ 0#8))

/-- `Acn_String_Ascii_External_Field_Determinant_encode`, StgC/acn_c.stg:534. -/
def encStrExt (hi : Nat) (chars : List Byte) : M Bool := do
  let obj ← strObj hi chars
  acnEncStrAsciiExternal hi obj
  pure true

/-- `Acn_String_Ascii_External_Field_Determinant_decode`, StgC/acn_c.stg:535-538. -/
def decStrExt (hi : Nat) (x : Int) : M (Bool × List Byte) := do
  let p ← acnDecStrAsciiExternal hi x (List.replicate (hi + 1) 0#8)
  pure (p.1, p.2.takeWhile (· ≠ 0#8))

/-- `Acn_String_CharIndex_External_Field_Determinant_encode`, StgC/acn_c.stg:562-565, and for 128 characters
`Acn_IA5String_CharIndex_External_Field_Determinant_encode`, 574-576 (BackendAst/Acn/AcnStrings.fs:43-50). -/
def encStrIdx (alphabet : List Byte) (hi : Nat) (chars : List Byte) : M Bool := do
  let obj ← strObj hi chars
  (if alphabet.length = 128 then acnEncIa5External hi obj else acnEncStrIndexExternal hi alphabet alphabet.length obj)
  pure true

/-- The same, decoding: StgC/acn_c.stg:567-571, 578-581. -/
def decStrIdx (alphabet : List Byte) (hi : Nat) (x : Int) : M (Bool × List Byte) := do
  let p ← (if alphabet.length = 128 then acnDecIa5External hi x (List.replicate (hi + 1) 0#8)
    else acnDecStrIndexExternal hi alphabet alphabet.length x (List.replicate (hi + 1) 0#8))
  pure (p.1, p.2.takeWhile (· ≠ 0#8))

/-- `loopFixedItem`, StgC/uper_c.stg:446-451, in an encoder: `n` items. The variables of the determinants keep their values from one item to the
next (they are declared at the beginning of the function, BackendAst/Acn/AcnSequence.fs:386-398). -/
def encItemsA (item : DetEnv → Val → M (Bool × DetEnv)) : List Val → (n : Nat) → DetEnv → M (Bool × DetEnv)
  | _, 0, env => pure (true, env)
  | [], _ + 1, _ => mUb
  | v :: vs, n + 1, env => do
    let r ← item env v
    if r.1 then encItemsA item vs n r.2 else pure (false, r.2)

/-- `loopFixedItem`, StgC/uper_c.stg:446-451, in a decoder. -/
def decItemsA (item : DetEnv → M (Bool × (Val × DetEnv))) : (n : Nat) → DetEnv → List Val → M (Bool × (List Val × DetEnv))
  | 0, env, acc => pure (true, (acc, env))
  | n + 1, env, acc => do
    let r ← item env
    if r.1 then decItemsA item n r.2.2 (acc ++ [r.2.1]) else pure (false, (acc, r.2.2))

/-- The number of elements that a SEQUENCE OF decoder reads; embedded: `seqOf_VarSize_decode`, StgC/acn_c.stg:644-650; external:
`sqf_external_field_decode`, 657-664, and `sqf_external_field_fix_size_decode`, 672-678. -/
def decCount (lo hi : Nat) (k : Option Nat) (env : DetEnv) : M (Bool × Nat) :=
  match k with
  | none =>
    if lo = hi then pure (true, lo)
    else do
      let q ← decodeConstraintWholeNumber lo hi
      pure (q.1, q.2.toNat)
  | some k => do
    let x ← envGet env k
    if (decide (lo = 0) || decide ((lo : Int) ≤ x)) && decide (x ≤ (hi : Int)) then
      if lo = hi then pure (true, hi)
      else do
        let n ← extCount x
        pure (true, n)
    else pure (false, 0)

/-- The presence bits, written before the components (BackendAst/Acn/AcnSequence.fs:265-285): StgC/acn_c.stg:773. -/
def encPresA : AFields → List (Bool × Val) → M Unit
  | .nil, _ => pure ()
  | .asn1 o _ rest, (e, _) :: vs => do
    (match o with
      | .optional .bit _ => appendBit e
      | _ => pure ())
    encPresA rest vs
  | .asn1 .., [] => mUb
  | .acn _ _ _ rest, vs => encPresA rest vs
  | .acnNull _ _ rest, vs => encPresA rest vs

/-- The presence bits, decoding: StgC/acn_c.stg:774-778; one flag for each component that has such a bit. -/
def decPresA : AFields → M (Bool × List Bool)
  | .nil => pure (true, [])
  | .asn1 (.optional .bit _) _ rest => do
    let b ← readBit
    if b.1 then do
      let p ← decPresA rest
      pure (p.1, b.2 :: p.2)
    else pure (false, [])
  | .asn1 _ _ rest => decPresA rest
  | .acn _ _ _ rest => decPresA rest
  | .acnNull _ _ rest => decPresA rest

mutual
/-- The encoder of a type: the body of `<type>_ACN_Encode` (StgC/acn_c.stg:30-60) when `bCheckConstraints` is FALSE. `need k`: the update
statements of determinant `k` with the value they find; `env`: the variables. A reference calls the function of the referenced type
(StgC/acn_c.stg:762-765), which has its own variables. -/
def encA : ATy → (Nat → List Upd) → DetEnv → Val → M (Bool × DetEnv)
  | .prim t, _, env, v => do
    let r ← encTy t v
    pure (r, env)
  | .leaf l, _, env, v =>
    match leafInt l v with
    | some x => do
      let r ← encLeaf l x
      pure (r, env)
    | none => mUb
  | .nullPat pat n, _, env, .null => do
    appendBits pat n
    pure (true, env)
  | .real64 little _, _, env, .real d => do
    (if little then acnEncRealLittle 8 d else acnEncRealBig 8 d)
    pure (true, env)
  | .real32 little _, _, env, .real d => do
    (if little then acnEncRealLittle 4 (d.setWidth 32) else acnEncRealBig 4 (d.setWidth 32))
    pure (true, env)
  | .octets lo hi _ _, _, env, .octets arr => do
    let r ← encOctetsExt lo hi arr
    pure (r, env)
  | .bits lo hi _ _, _, env, .bits n arr => do
    let r ← encBitsExt lo hi n arr
    pure (r, env)
  | .strAscii _ lo hi, _, env, .str chars => do
    let r ← encStrAscii lo hi chars
    pure (r, env)
  | .strNull _ _ hi nul, _, env, .str chars => do
    let r ← encStrNull hi nul chars
    pure (r, env)
  | .strExt _ _ hi _, _, env, .str chars => do
    let r ← encStrExt hi chars
    pure (r, env)
  | .strIdx alphabet _ hi _, _, env, .str chars => do
    let r ← encStrIdx alphabet hi chars
    pure (r, env)
  | .seq fs, need, env, .seq vs => do
    encPresA fs vs
    encAFields fs need env vs
  | .seqOf lo hi k t, _, env, .seqOf vs => do
    (match k with
      | none => if lo = hi then pure () else encodeConstraintWholeNumber (vs.length : Int) lo hi
      | some _ => pure ())
    encItemsA (fun env v => encA t (fun k => upd t k (some v)) env v) vs (if lo = hi then hi else vs.length) env
  | .choice byDet alts, need, env, .choice i v =>
    if i < alts.length then do
      (if byDet then pure () else encodeConstraintWholeNumber (i : Int) 0 ((alts.length : Int) - 1))
      encAAlt alts i need env v
    else pure (false, env)
  | .ref _ t, _, env, v => do
    let r ← encA t (fun k => upd t k (some v)) DetEnv.empty v
    pure (r.1, env)
  | .align a t, need, env, v => do
    alignTo a
    encA t need env v
  | _, _, _, _ => mUb
/-- The components of a SEQUENCE, each nested in `if (ret)`: StgC/acn_c.stg:826-905. An inserted determinant is first updated, then written if its flag
is set (826-836). -/
def encAFields : AFields → (Nat → List Upd) → DetEnv → List (Bool × Val) → M (Bool × DetEnv)
  | .nil, _, env, _ => pure (true, env)
  | .asn1 o t rest, need, env, (e, v) :: vs => do
    let r ← (match o with
      | .mandatory => encA t need env v
      | .optional _ _ => if e then encA t need env v else pure (true, env)
      | .absent => pure (true, env)
      | .present => encA t need env v)
    if r.1 then encAFields rest need r.2 vs else pure (false, r.2)
  | .asn1 .., _, _, [] => mUb
  | .acn k a l rest, need, env, vs =>
    match mergeUpd (need k) with
    | .fail => pure (false, env)
    | u =>
      let env' := match u with
        | .set x => env.set k x
        | _ => env
      match env' k with
      | none => pure (false, env')
      | some x => do
        alignOpt a
        let r ← encLeaf l x
        if r then encAFields rest need env' vs else pure (false, env')
  | .acnNull pat n rest, need, env, vs => do
    appendBits pat n
    encAFields rest need env vs
/-- The content of alternative number `i`: StgC/acn_c.stg:958-963, 993-997, 1043-1047. -/
def encAAlt : AAlts → Nat → (Nat → List Upd) → DetEnv → Val → M (Bool × DetEnv)
  | .nil, _, _, _, _ => mUb
  | .cons _ t _, 0, need, env, v => encA t need env v
  | .cons _ _ rest, i + 1, need, env, v => encAAlt rest i need env v
end

/-- The conditions of an alternative, joined by `&&`: StgC/acn_c.stg:999-1008; a `switch` over an ENUMERATED (1049-1066) is the same for one
determinant. -/
def condsHold (env : DetEnv) : List (Nat × Int) → M Bool
  | [] => pure true
  | (k, x) :: cs => do
    let y ← envGet env k
    if y = x then condsHold env cs else pure false

/-- The arguments of a decoder of a referenced type, StgC/acn_c.stg:767-770. -/
def passArgs (env : DetEnv) : List (Nat × Nat) → M DetEnv
  | [] => pure DetEnv.empty
  | (k, j) :: args => do
    let x ← envGet env k
    let env' ← passArgs env args
    pure (env'.set j x)

/-- Is a component there, and the presence bits behind its own: StgC/acn_c.stg:783-809, 840-905. `bs`: the presence bits that are left. -/
def presFlag (o : AOpt) (bs : List Bool) (env : DetEnv) : M (Bool × List Bool) :=
  match o with
  | .mandatory => pure (true, bs)
  | .optional .bit _ =>
    match bs with
    | b :: bs => pure (b, bs)
    | [] => mUb
  | .optional (.whenBool k) _ => do
    let x ← envGet env k
    pure (decide (x ≠ 0), bs)
  | .absent => pure (false, bs)
  | .present => pure (true, bs)

/-- What the structure holds for a component that is not there: its DEFAULT (StgC/acn_c.stg:884-905), or what it held before (`null` here). -/
def absentVal (o : AOpt) : Val :=
  match o with
  | .optional _ (some d) => d
  | _ => .null

mutual
/-- The decoder of a type: the body of `<type>_ACN_Decode` (StgC/acn_c.stg:68-88) without the final check. A reference calls the function of
the referenced type (StgC/acn_c.stg:767-770), which ends with the check. -/
def decA : ATy → DetEnv → M (Bool × (Val × DetEnv))
  | .prim t, env => do
    let p ← decTy t
    pure (p.1, (p.2, env))
  | .leaf l, env => do
    let p ← decLeaf l
    pure (p.1, (leafVal l p.2, env))
  | .nullPat pat n, env => do
    let p ← readBitPattern pat n
    pure (p.1 && p.2, (.null, env))
  | .real64 little _, env => do
    let p ← (if little then acnDecRealLittle 8 else acnDecRealBig 8)
    pure (p.1, (.real p.2, env))
  | .real32 little _, env =>
    if little then do
      -- StgC/acn_c.stg:336-339: the result is not assigned to `ret`
      let p ← acnDecRealLittle 4
      pure (true, (.real (p.2.setWidth 64), env))
    else do
      let p ← acnDecRealBig 4
      pure (p.1, (.real (p.2.setWidth 64), env))
  | .octets lo hi k dmax, env => do
    let x ← envGet env k
    let p ← decOctetsExt lo hi dmax x
    pure (p.1, (.octets p.2, env))
  | .bits lo hi k dmax, env => do
    let x ← envGet env k
    let p ← decBitsExt lo hi dmax x
    pure (p.1, (.bits p.2.1 p.2.2, env))
  | .strAscii _ lo hi, env => do
    let p ← decStrAscii lo hi
    pure (p.1, (.str p.2, env))
  | .strNull _ _ hi nul, env => do
    let p ← decStrNull hi nul
    pure (p.1, (.str p.2, env))
  | .strExt _ _ hi k, env => do
    let x ← envGet env k
    let p ← decStrExt hi x
    pure (p.1, (.str p.2, env))
  | .strIdx alphabet _ hi k, env => do
    let x ← envGet env k
    let p ← decStrIdx alphabet hi x
    pure (p.1, (.str p.2, env))
  | .seq fs, env => do
    let b ← decPresA fs
    if b.1 then do
      let p ← decAFields fs b.2 env
      pure (p.1, (.seq p.2.1, p.2.2))
    else pure (false, (.seq [], env))
  | .seqOf lo hi k t, env => do
    let n ← decCount lo hi k env
    if n.1 then do
      let p ← decItemsA (fun env => decA t env) n.2 env []
      pure (p.1, (.seqOf p.2.1, p.2.2))
    else pure (false, (.seqOf [], env))
  | .choice byDet alts, env =>
    if byDet then decAAltDet alts 0 env
    else do
      let q ← decodeConstraintWholeNumber 0 ((alts.length : Int) - 1)
      if q.1 then do
        let p ← decAAlt alts q.2.toNat env
        pure (p.1, (.choice q.2.toNat p.2.1, p.2.2))
      else pure (false, (.choice 0 .null, env))
  | .ref args t, env => do
    let env' ← passArgs env args
    let p ← decA t env'
    pure (p.1 && validA t p.2.1, (p.2.1, env))
  | .align a t, env => do
    alignTo a
    decA t env
/-- The components of a SEQUENCE: StgC/acn_c.stg:774-910. A component that is not there keeps whatever the structure held (`null` here), one with
a DEFAULT is set to it. -/
def decAFields : AFields → List Bool → DetEnv → M (Bool × (List (Bool × Val) × DetEnv))
  | .nil, _, env => pure (true, ([], env))
  | .asn1 o t rest, bs, env => do
    let e ← presFlag o bs env
    let p ← (if e.1 then decA t env else pure (true, (absentVal o, env)))
    if p.1 then do
      let q ← decAFields rest e.2 p.2.2
      pure (q.1, ((e.1, p.2.1) :: q.2.1, q.2.2))
    else pure (false, ([], p.2.2))
  | .acn k a l rest, bs, env => do
    alignOpt a
    let p ← decLeaf l
    if p.1 then decAFields rest bs (env.set k p.2) else pure (false, ([], env))
  | .acnNull pat n rest, bs, env => do
    let p ← readBitPattern pat n
    if p.1 && p.2 then decAFields rest bs env else pure (false, ([], env))
/-- The content of alternative number `i`: StgC/acn_c.stg:964-987. -/
def decAAlt : AAlts → Nat → DetEnv → M (Bool × (Val × DetEnv))
  | .nil, _, env => pure (false, (.null, env))
  | .cons _ t _, 0, env => decA t env
  | .cons _ _ rest, i + 1, env => decAAlt rest i env
/-- The first alternative whose conditions hold: StgC/acn_c.stg:1003-1030, 1049-1066. -/
def decAAltDet : AAlts → (i : Nat) → DetEnv → M (Bool × (Val × DetEnv))
  | .nil, _, env => pure (false, (.choice 0 .null, env))
  | .cons conds t rest, i, env => do
    let b ← condsHold env conds
    if b then do
      let p ← decA t env
      pure (p.1, (.choice i p.2.1, p.2.2))
    else decAAltDet rest (i + 1) env
end

/-- `<type>_ACN_Encode`, StgC/acn_c.stg:30-60, of a type without parameters. -/
def encodeAcn (t : ATy) (v : Val) (bCheckConstraints : Bool) : M Bool :=
  if bCheckConstraints && !validA t v then pure false
  else do
    let r ← encA (.ref [] t) (fun _ => []) DetEnv.empty v
    pure r.1

/-- `<type>_ACN_Decode`, StgC/acn_c.stg:68-88, of a type without parameters. -/
def decodeAcn (t : ATy) : M (Bool × Val) := do
  let p ← decA (.ref [] t) DetEnv.empty
  pure (p.1, p.2.1)

end Asn1
