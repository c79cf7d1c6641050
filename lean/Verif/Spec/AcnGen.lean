import Verif.Model.AcnGen
import Verif.Spec.Uper
import Verif.Spec.UperSafe
import Verif.Spec.Acn
import Verif.Spec.Digits
import Verif.Spec.CStrings
/-!
# Specification: the ACN encoding of a value, valid values, admissible types

Of `Verif.Model.AcnGen` only the syntax of types is used here (`ATy` and what it is made of, `Rng.unsigned`, `enumRng`), none of the
functions that encode or decode.

The bits of a value depend on the position at which they begin, because of alignment; so an encoding is a function of the position.
-/
namespace Asn1

/-! ### Encodings that depend on the position -/

/-- `Appends`, where the bits depend on the position at which they begin. -/
def AppendsAt {α : Type} (f : M α) (a : α) (w : Nat → List Bool) : Prop :=
  ∀ s bs, EncSt s bs → bs.length + (w bs.length).length ≤ 8 * s.count →
    ∃ s', f s = .ok (a, s') ∧ EncSt s' (bs ++ w bs.length) ∧ Frame s s'

/-- `RoundTrip`, where the number of bits depends on the position. -/
def RoundTripAt {ε α : Type} (enc : M ε) (e : ε) (dec : M (Bool × α)) (v : α) (len : Nat → Nat) : Prop :=
  ∀ s bs, EncSt s bs → bs.length + len bs.length ≤ 8 * s.count →
    ∃ s', enc s = .ok (e, s') ∧ s'.pos = s.pos + len s.pos ∧
      (∀ i, i < s.pos → bitAt s'.buf i = bitAt s.buf i) ∧ Frame s s' ∧
      ∀ t, Wf t → t.pos = s.pos → s'.pos ≤ 8 * t.count →
        (∀ i, s.pos ≤ i → i < s'.pos → bitAt t.buf i = bitAt s'.buf i) →
        ∃ t', dec t = .ok ((true, v), t') ∧ t'.pos = s'.pos ∧ t'.buf = t.buf ∧ t'.count = t.count

/-- `RejectsTruncated`, where the number of bits depends on the position. -/
def RejectsTruncatedAt {ε α : Type} (enc : M ε) (e : ε) (dec : M (Bool × α)) (len : Nat → Nat) : Prop :=
  ∀ s bs, EncSt s bs → bs.length + len bs.length ≤ 8 * s.count →
    ∃ s', enc s = .ok (e, s') ∧
      ∀ t, Wf t → t.pos = s.pos → t.pos ≤ 8 * t.count → 8 * t.count < s.pos + len s.pos → t.count + 1 ≤ t.buf.length →
        (∀ i, s.pos ≤ i → i < 8 * t.count → bitAt t.buf i = bitAt s'.buf i) →
        ∃ a t', dec t = .ok ((false, a), t') ∧ t'.buf = t.buf

/-! ### Encoding of integers, booleans, enumerated values -/

/-- The bits of an integer. `r` only tells whether the range is non-negative, except for the uPER encoding. -/
def aintCode (r : Rng) (enc : IntEnc) (x : Int) : List Bool :=
  match enc with
  | .uper => intCode r x
  | .const n => if r.unsigned then bitsMsb n x.toNat else twosCode n x
  | .const8 => if r.unsigned then bitsMsb 8 x.toNat else twosCode 8 x
  | .big size => if r.unsigned then bitsMsb (8 * size) x.toNat else twosCode (8 * size) x
  | .little size => littleCode size (x % 2 ^ (8 * size)).toNat
  | .bcd n => bcdCode n x.toNat
  | .bcdNull => bcdCode (decLen x.toNat) x.toNat ++ bitsMsb 4 15
  | .ascii n => if r.unsigned then bytesBits (digitChars n x.toNat) else bytesBits (signChar x :: digitChars (n - 1) x.natAbs)
  | .asciiNull nul =>
    if r.unsigned then bytesBits (digitChars (printLen x.toNat) x.toNat ++ nul)
    else bytesBits (signChar x :: (digitChars (printLen x.natAbs) x.natAbs ++ nul))

/-- `x` fits the C integer of `w` bits that a range calls for. -/
def FitsC (w : Nat) (r : Rng) (x : Int) : Prop :=
  (w = 8 ∨ w = 16 ∨ w = 32 ∨ w = 64) ∧
    if r.unsigned then 0 ≤ x ∧ x < 2 ^ w else -(2 ^ (w - 1)) ≤ x ∧ x < 2 ^ (w - 1) ∧ -(2 ^ 63) < x

/-- The encoding can hold `x`. -/
def IntEnc.holds (r : Rng) (enc : IntEnc) (x : Int) : Prop :=
  match enc with
  | .uper => True
  | .const n => n ≤ 64 ∧ if r.unsigned then x < 2 ^ n else FitsTwos n x
  | .const8 => if r.unsigned then x < 2 ^ 8 else FitsTwos 8 x
  | .big size => 1 ≤ size ∧ size ≤ 8 ∧ if r.unsigned then x < 2 ^ (8 * size) else FitsTwos (8 * size) x
  | .little size => 1 ≤ size ∧ size ≤ 8 ∧ if r.unsigned then x < 2 ^ (8 * size) else FitsTwos (8 * size) x
  | .bcd n => n ≤ 100 ∧ 0 ≤ x ∧ x < 10 ^ n
  | .bcdNull => 0 ≤ x
  | .ascii n => if r.unsigned then n ≤ 100 ∧ x < 10 ^ n else 1 ≤ n ∧ n ≤ 101 ∧ x.natAbs < 10 ^ (n - 1)
  | .asciiNull nul => nul ≠ [] ∧ nul.length ≤ 10 ∧ NoEarly nul (digitChars (printLen x.natAbs) x.natAbs)

/-- The encoding and the C type can hold `x`. -/
def AIntFits (w : Nat) (r : Rng) (enc : IntEnc) (x : Int) : Prop :=
  if enc = .uper then r.ok w false ∧ r.contains x ∧ r.holds64 false x else FitsC w r x ∧ enc.holds r x

/-- The bits of a BOOLEAN. -/
def aboolCode (e : BoolEnc) (b : Bool) : List Bool :=
  match e with
  | .uper => [b]
  | .onePattern _ tp fp n => (bytesBits (if b then tp else fp)).take n
  | .twoPatterns tp fp n => (bytesBits (if b then tp else fp)).take n

/-- Patterns that tell TRUE from FALSE. -/
def BoolEnc.ok : BoolEnc → Prop
  | .uper => True
  | .onePattern _ tp fp n => n ≤ 8 * tp.length ∧ n ≤ 8 * fp.length ∧ (bytesBits tp).take n ≠ (bytesBits fp).take n
  | .twoPatterns tp fp n => n ≤ 8 * tp.length ∧ n ≤ 8 * fp.length ∧ (bytesBits tp).take n ≠ (bytesBits fp).take n

/-- The integer that is encoded for `x`: with a mapping function what it makes of `x`. -/
def mapped (enc : IntEnc) (mf : Option Mapping) (x : Int) : Int :=
  match mf with
  | none => x
  | some m => if enc = .uper then x else m.enc x

/-- The bits of a leaf with the integer `x` (0 or 1 for a BOOLEAN). -/
def leafCode (l : ALeaf) (x : Int) : List Bool :=
  match l with
  | .int _ r enc mf => aintCode r enc (mapped enc mf x)
  | .bool e => aboolCode e (decide (x ≠ 0))
  | .enum items _ enc =>
    match items.lookup x with
    | some y => aintCode (enumRng items) enc y
    | none => []

/-- A leaf can hold the integer `x`. Mapping functions must be inverse on it, and the signed 16 bit big endian encoding must not have one (`C71` shows what happens
otherwise). -/
def LeafFits (l : ALeaf) (x : Int) : Prop :=
  match l with
  | .int w r enc mf => AIntFits w r enc (mapped enc mf x) ∧
    ∀ m, mf = some m → enc ≠ .uper → m.dec (m.enc x) = x ∧ (r.unsigned = true ∨ enc ≠ .big 2)
  | .bool e => (x = 0 ∨ x = 1) ∧ e.ok
  | .enum items _ enc =>
    ∃ y, (x, y) ∈ items ∧ (items.map (·.1)).Nodup ∧ (items.map (·.2)).Nodup ∧ AIntFits 64 (enumRng items) enc y ∧
      (enc = .uper → (enumRng items).unsigned = true)

/-- The bits of a component that is a leaf. -/
def leafValCode (l : ALeaf) (v : Val) : List Bool :=
  match l, v with
  | .int .., .int x => leafCode l x
  | .bool _, .bool b => leafCode l (if b then 1 else 0)
  | .enum .., .enum x => leafCode l x
  | _, _ => []

/-- A component that is a leaf satisfies its constraints and can be encoded. -/
def LeafValid (l : ALeaf) (v : Val) : Prop :=
  match l, v with
  | .int _ r _ _, .int x => r.contains x ∧ LeafFits l x
  | .bool _, .bool b => LeafFits l (if b then 1 else 0)
  | .enum _ valid _, .enum x => x ∈ valid ∧ LeafFits l x
  | _, _ => False

/-! ### What the components of a value require of the determinants -/

/-- The conditions of the alternatives. -/
def AAlts.conds : AAlts → List (List (Nat × Int))
  | .nil => []
  | .cons c _ rest => c :: rest.conds

/-- The determinant of the presence of a component, and the value it must have. -/
def reqPresence (o : AOpt) (e : Bool) : List (Nat × Int) :=
  match o with
  | .optional (.whenBool k) _ => [(k, if e then 1 else 0)]
  | _ => []

mutual
/-- `(k, x) ∈ required t v`: a component of `v` requires that determinant `k` is `x`. A length is required by a string or list that is there, a presence flag
by an optional component, a selector by a CHOICE. Through a reference the requirements on the parameters become requirements on the determinants that are
passed. -/
def required : ATy → Val → List (Nat × Int)
  | .octets _ _ k _, .octets arr => [(k, (arr.length : Int))]
  | .bits _ _ k _, .bits n _ => [(k, (n : Int))]
  | .strExt _ _ _ k, .str chars => [(k, (chars.length : Int))]
  | .strIdx _ _ _ k, .str chars => [(k, (chars.length : Int))]
  | .seq fs, .seq vs => requiredFields fs vs
  | .seqOf _ _ (some k) _, .seqOf vs => [(k, (vs.length : Int))]
  | .choice byDet alts, .choice i v => (if byDet then alts.conds.getD i [] else []) ++ requiredAlt alts i v
  | .ref args t, v => args.flatMap fun a => ((required t v).filter fun q => q.1 = a.2).map fun q => (a.1, q.2)
  | .align _ t, v => required t v
  | _, _ => []
/-- The requirements of the components of a SEQUENCE that are there. -/
def requiredFields : AFields → List (Bool × Val) → List (Nat × Int)
  | .asn1 o t rest, (e, v) :: vs => reqPresence o e ++ (if e then required t v else []) ++ requiredFields rest vs
  | .acn _ _ _ rest, vs => requiredFields rest vs
  | .acnNull _ _ rest, vs => requiredFields rest vs
  | _, _ => []
/-- The requirements of the chosen alternative. -/
def requiredAlt : AAlts → Nat → Val → List (Nat × Int)
  | .nil, _, _ => []
  | .cons _ t _, 0, v => required t v
  | .cons _ _ rest, i + 1, v => requiredAlt rest i v
end

/-- All requirements on determinant `k` say that it is `x`, and there is one. -/
def Demands (rq : List (Nat × Int)) (k : Nat) (x : Int) : Prop := (k, x) ∈ rq ∧ ∀ y, (k, y) ∈ rq → y = x

/-- The value that the requirements give a determinant. -/
def demanded (rq : List (Nat × Int)) (k : Nat) : Int := (rq.lookup k).getD 0

/-! ### The encoding -/

/-- The bits of an alignment. -/
def Align.size : Align → Nat
  | .byte => 8
  | .word => 16
  | .dword => 32

/-- Zeros from bit `p` up to the next multiple of `m`. -/
def padTo (m p : Nat) : List Bool := List.replicate ((m - p % m) % m) false

/-- The padding before an inserted field. -/
def padOpt (a : Option Align) (p : Nat) : List Bool :=
  match a with
  | none => []
  | some a => padTo a.size p

/-- One encoding behind another. -/
def followedBy (c d : Nat → List Bool) (p : Nat) : List Bool := c p ++ d (p + (c p).length)

/-- The elements of a SEQUENCE OF, one behind the other. -/
def itemsCode (c : Val → Nat → List Bool) : List Val → Nat → List Bool
  | [], _ => []
  | v :: vs, p => c v p ++ itemsCode c vs (p + (c v p).length)

/-- The presence bits of a SEQUENCE: one for each optional component whose presence no determinant tells. -/
def presACode : AFields → List (Bool × Val) → List Bool
  | .asn1 (.optional .bit _) _ rest, (e, _) :: vs => e :: presACode rest vs
  | .asn1 _ _ rest, _ :: vs => presACode rest vs
  | .acn _ _ _ rest, vs => presACode rest vs
  | .acnNull _ _ rest, vs => presACode rest vs
  | _, _ => []

mutual
/-- The bits of a value that begin at bit `p`; `rq`: what is required of the determinants of this type assignment. -/
def acode : ATy → List (Nat × Int) → Val → (p : Nat) → List Bool
  | .prim t, _, v, _ => code false t v
  | .leaf l, _, v, _ => leafValCode l v
  | .nullPat pat n, _, .null, _ => (bytesBits pat).take n
  | .real64 little _, _, .real d, _ => bytesBits (if little then (bigImage 8 d.toNat).reverse else bigImage 8 d.toNat)
  | .real32 little _, _, .real d, _ => bytesBits (if little then (bigImage 4 d.toNat).reverse else bigImage 4 d.toNat)
  | .octets _ _ _ _, _, .octets arr, _ => bytesBits arr
  | .bits _ _ _ _, _, .bits n arr, _ => (bytesBits arr).take n
  | .strAscii _ lo hi, _, .str chars, _ => constrainedCode lo hi chars.length ++ bytesBits chars
  | .strNull _ _ _ nul, _, .str chars, _ => bytesBits (chars ++ nul)
  | .strExt _ _ _ _, _, .str chars, _ => bytesBits chars
  | .strIdx alphabet _ _ _, _, .str chars, _ => indexCode alphabet chars
  | .seq fs, rq, .seq vs, p => followedBy (fun _ => presACode fs vs) (acodeFields fs rq vs) p
  | .seqOf lo hi none t, _, .seqOf vs, p =>
    followedBy (fun _ => constrainedCode lo hi vs.length) (itemsCode (fun v => acode t (required t v) v) vs) p
  | .seqOf _ _ (some _) t, _, .seqOf vs, p => itemsCode (fun v => acode t (required t v) v) vs p
  | .choice byDet alts, rq, .choice i v, p =>
    followedBy (fun _ => if byDet then [] else constrainedCode 0 ((alts.length : Int) - 1) i) (acodeAlt alts i rq v) p
  | .ref _ t, _, v, p => acode t (required t v) v p
  | .align a t, rq, v, p => followedBy (padTo a.size) (acode t rq v) p
  | _, _, _, _ => []
/-- The components that are there and the inserted fields, in order; an inserted determinant has the value that is required of it. -/
def acodeFields : AFields → List (Nat × Int) → List (Bool × Val) → (p : Nat) → List Bool
  | .asn1 _ t rest, rq, (e, v) :: vs, p => followedBy (fun p => if e then acode t rq v p else []) (acodeFields rest rq vs) p
  | .acn k a l rest, rq, vs, p =>
    followedBy (followedBy (padOpt a) (fun _ => leafCode l (demanded rq k))) (acodeFields rest rq vs) p
  | .acnNull pat n rest, rq, vs, p => followedBy (fun _ => (bytesBits pat).take n) (acodeFields rest rq vs) p
  | _, _, _, _ => []
/-- The content of the chosen alternative. -/
def acodeAlt : AAlts → Nat → List (Nat × Int) → Val → (p : Nat) → List Bool
  | .nil, _, _, _, _ => []
  | .cons _ t _, 0, rq, v, p => acode t rq v p
  | .cons _ _ rest, i + 1, rq, v, p => acodeAlt rest i rq v p
end

/-- The ACN encoding of a value of a type without parameters that begins at bit `p`. -/
def acnCode (t : ATy) (v : Val) (p : Nat) : List Bool := acode t (required t v) v p

/-! ### Valid values -/

/-- A character string with a permitted alphabet and a size. -/
def StrValid (alphabet : List Byte) (lo hi : Nat) (chars : List Byte) : Prop :=
  lo ≤ chars.length ∧ chars.length ≤ hi ∧ ∀ c ∈ chars, c ∈ alphabet ∧ c ≠ 0#8

mutual
/-- `v` satisfies the constraints of the type, in the form a decoder produces (as `Valid`), and ACN can transmit it: each inserted determinant that is written is
required to have one value and can hold it (`C72` shows what happens otherwise). -/
def AValid : ATy → List (Nat × Int) → Val → Prop
  | .prim t, _, v => Valid t v
  | .leaf l, _, v => LeafValid l v
  | .nullPat _ _, _, .null => True
  | .real64 _ holds, _, .real d => holds d = true
  | .real32 _ holds, _, .real d => holds d = true ∧ d.toNat < 2 ^ 32
  | .octets lo hi _ _, _, .octets arr => lo ≤ arr.length ∧ arr.length ≤ hi
  | .bits lo hi _ _, _, .bits n arr => lo ≤ n ∧ n ≤ hi ∧ ∃ w : List Bool, w.length = n ∧ Packed w arr
  | .strAscii alphabet lo hi, _, .str chars => StrValid alphabet lo hi chars
  | .strNull alphabet lo hi nul, _, .str chars => StrValid alphabet lo hi chars ∧ NoEarly nul chars
  | .strExt alphabet lo hi _, _, .str chars => StrValid alphabet lo hi chars
  | .strIdx alphabet lo hi _, _, .str chars => StrValid alphabet lo hi chars
  | .seq fs, rq, .seq vs => AValidFields fs rq vs
  | .seqOf lo hi _ t, _, .seqOf vs => lo ≤ vs.length ∧ vs.length ≤ hi ∧ ∀ v ∈ vs, AValid t (required t v) v
  | .choice _ alts, rq, .choice i v => AValidAlt alts i rq v
  | .ref _ t, _, v => AValid t (required t v) v
  | .align _ t, rq, v => AValid t rq v
  | _, _, _ => False
/-- The components of a SEQUENCE value and the determinants inserted between them. -/
def AValidFields : AFields → List (Nat × Int) → List (Bool × Val) → Prop
  | .nil, _, [] => True
  | .asn1 .mandatory t rest, rq, (e, v) :: vs => (e = true ∧ AValid t rq v) ∧ AValidFields rest rq vs
  | .asn1 (.optional _ none) t rest, rq, (e, v) :: vs =>
    ((e = true ∧ AValid t rq v) ∨ (e = false ∧ v = .null)) ∧ AValidFields rest rq vs
  | .asn1 (.optional _ (some d)) t rest, rq, (e, v) :: vs =>
    ((e = true ∧ AValid t rq v) ∨ (e = false ∧ v = d)) ∧ AValidFields rest rq vs
  | .asn1 .absent _ rest, rq, (e, v) :: vs => (e = false ∧ v = .null) ∧ AValidFields rest rq vs
  | .asn1 .present t rest, rq, (e, v) :: vs => (e = true ∧ AValid t rq v) ∧ AValidFields rest rq vs
  | .acn k _ l rest, rq, vs => (∃ x, Demands rq k x ∧ LeafFits l x) ∧ AValidFields rest rq vs
  | .acnNull _ _ rest, rq, vs => AValidFields rest rq vs
  | _, _, _ => False
/-- The chosen alternative of a CHOICE value. -/
def AValidAlt : AAlts → Nat → List (Nat × Int) → Val → Prop
  | .nil, _, _, _ => False
  | .cons _ t _, 0, rq, v => AValid t rq v
  | .cons _ _ rest, i + 1, rq, v => AValidAlt rest i rq v
end

/-- A value that ACN can transmit, of a type without parameters. -/
def AcnValid (t : ATy) (v : Val) : Prop := AValid t (required t v) v

mutual
/-- `v` satisfies the constraints of the type, in the form a decoder produces: `AValid` without the requirement that the determinants can be written. -/
def AHas : ATy → Val → Prop
  | .prim t, v => Valid t v
  | .leaf l, v => LeafValid l v
  | .nullPat _ _, .null => True
  | .real64 _ holds, .real d => holds d = true
  | .real32 _ holds, .real d => holds d = true ∧ d.toNat < 2 ^ 32
  | .octets lo hi _ _, .octets arr => lo ≤ arr.length ∧ arr.length ≤ hi
  | .bits lo hi _ _, .bits n arr => lo ≤ n ∧ n ≤ hi ∧ ∃ w : List Bool, w.length = n ∧ Packed w arr
  | .strAscii alphabet lo hi, .str chars => StrValid alphabet lo hi chars
  | .strNull alphabet lo hi nul, .str chars => StrValid alphabet lo hi chars ∧ NoEarly nul chars
  | .strExt alphabet lo hi _, .str chars => StrValid alphabet lo hi chars
  | .strIdx alphabet lo hi _, .str chars => StrValid alphabet lo hi chars
  | .seq fs, .seq vs => AHasFields fs vs
  | .seqOf lo hi _ t, .seqOf vs => lo ≤ vs.length ∧ vs.length ≤ hi ∧ ∀ v ∈ vs, AHas t v
  | .choice _ alts, .choice i v => AHasAlt alts i v
  | .ref _ t, v => AHas t v
  | .align _ t, v => AHas t v
  | _, _ => False
def AHasFields : AFields → List (Bool × Val) → Prop
  | .nil, [] => True
  | .asn1 .mandatory t rest, (e, v) :: vs => (e = true ∧ AHas t v) ∧ AHasFields rest vs
  | .asn1 (.optional _ none) t rest, (e, v) :: vs => ((e = true ∧ AHas t v) ∨ (e = false ∧ v = .null)) ∧ AHasFields rest vs
  | .asn1 (.optional _ (some d)) t rest, (e, v) :: vs => ((e = true ∧ AHas t v) ∨ (e = false ∧ v = d)) ∧ AHasFields rest vs
  | .asn1 .absent _ rest, (e, v) :: vs => (e = false ∧ v = .null) ∧ AHasFields rest vs
  | .asn1 .present t rest, (e, v) :: vs => (e = true ∧ AHas t v) ∧ AHasFields rest vs
  | .acn _ _ _ rest, vs => AHasFields rest vs
  | .acnNull _ _ rest, vs => AHasFields rest vs
  | _, _ => False
def AHasAlt : AAlts → Nat → Val → Prop
  | .nil, _, _ => False
  | .cons _ t _, 0, v => AHas t v
  | .cons _ _ rest, i + 1, v => AHasAlt rest i v
end

mutual
/-- The determinants that the encoder of a type assignment writes itself for a value (not those of referenced types or of the elements of a SEQUENCE OF). -/
def inserted : ATy → Val → List Nat
  | .seq fs, .seq vs => insertedFields fs vs
  | .choice _ alts, .choice i v => insertedAlt alts i v
  | .align _ t, v => inserted t v
  | _, _ => []
def insertedFields : AFields → List (Bool × Val) → List Nat
  | .asn1 _ t rest, (e, v) :: vs => (if e then inserted t v else []) ++ insertedFields rest vs
  | .acn k _ _ rest, vs => k :: insertedFields rest vs
  | .acnNull _ _ rest, vs => insertedFields rest vs
  | _, _ => []
def insertedAlt : AAlts → Nat → Val → List Nat
  | .nil, _, _ => []
  | .cons _ t _, 0, v => inserted t v
  | .cons _ _ rest, i + 1, v => insertedAlt rest i v
end

/-! ### Admissible types -/

/-- The types that `ATy.prim` stands for. From size 65536 on the ACN back end has its own code for OCTET STRING and BIT STRING, without fragments
(BackendAst/Acn/AcnOctetBitStrings.fs), which is not modelled. -/
def Ty.simple : Ty → Prop
  | .octets _ hi => hi < 65536
  | .bits _ hi _ _ => hi < 65536
  | .seq _ => False
  | .seqOf _ _ _ => False
  | .choice _ => False
  | .ref _ => False
  | _ => True

/-- The determinants that decide about the presence of a component. -/
def AOpt.uses : AOpt → List Nat
  | .optional (.whenBool k) _ => [k]
  | _ => []

mutual
/-- The number of components of a type that depend on determinant `k`. -/
def dependents : ATy → (k : Nat) → Nat
  | .octets _ _ j _, k => if j = k then 1 else 0
  | .bits _ _ j _, k => if j = k then 1 else 0
  | .strExt _ _ _ j, k => if j = k then 1 else 0
  | .strIdx _ _ _ j, k => if j = k then 1 else 0
  | .seq fs, k => dependentsFields fs k
  | .seqOf _ _ (some j) _, k => if j = k then 1 else 0
  | .choice byDet alts, k => (if byDet = true ∧ k ∈ alts.keys then 1 else 0) + dependentsAlts alts k
  | .ref args _, k => args.countP fun a => a.1 = k
  | .align _ t, k => dependents t k
  | _, _ => 0
def dependentsFields : AFields → (k : Nat) → Nat
  | .nil, _ => 0
  | .asn1 o t rest, k => o.uses.count k + dependents t k + dependentsFields rest k
  | .acn _ _ _ rest, k => dependentsFields rest k
  | .acnNull _ _ rest, k => dependentsFields rest k
def dependentsAlts : AAlts → (k : Nat) → Nat
  | .nil, _ => 0
  | .cons _ t rest, k => dependents t k + dependentsAlts rest k
end

/-- The conditions of the alternatives are about the same determinants and tell any two alternatives apart. -/
def AAlts.Told (alts : AAlts) : Prop :=
  (∀ c ∈ alts.conds, (c.map (·.1)).Nodup ∧ ∀ k, k ∈ c.map (·.1) ↔ k ∈ alts.keys) ∧
  alts.conds.Pairwise fun c d => ∃ k x y, (k, x) ∈ c ∧ (k, y) ∈ d ∧ x ≠ y

mutual
/-- Types the compiler accepts and the runtime can handle. A parameter of a referenced type may have one dependent component (`C72` shows what happens
with more). -/
def AOk : ATy → Prop
  | .prim t => Ok t ∧ t.simple
  | .leaf _ => True
  | .nullPat pat n => n ≤ 8 * pat.length
  | .real64 _ _ => True
  | .real32 _ _ => True
  | .octets lo hi _ _ => lo ≤ hi ∧ hi < 2 ^ 31
  | .bits lo hi _ _ => lo ≤ hi ∧ hi < 2 ^ 31
  | .strAscii _ lo hi => lo ≤ hi ∧ hi < 2 ^ 31
  | .strNull _ lo hi nul => lo ≤ hi ∧ hi < 2 ^ 31 ∧ nul ≠ [] ∧ nul.length ≤ 10
  | .strExt _ lo hi _ => lo ≤ hi ∧ hi < 2 ^ 31
  | .strIdx alphabet lo hi _ => lo ≤ hi ∧ hi < 2 ^ 31 ∧ 1 ≤ alphabet.length ∧ alphabet.length < 2 ^ 31 ∧
    (alphabet.length = 128 → alphabet = (List.range 128).map (BitVec.ofNat 8))
  | .seq fs => AOkFields fs
  | .seqOf lo hi _ t => lo ≤ hi ∧ hi < 2 ^ 31 ∧ AOk t
  | .choice byDet alts => 1 ≤ alts.length ∧ alts.length < 2 ^ 31 ∧ (byDet = true → alts.Told) ∧ AOkAlts alts
  | .ref args t => (args.map (·.2)).Nodup ∧ (∀ a ∈ args, dependents t a.2 ≤ 1) ∧ AOk t
  | .align _ t => AOk t
def AOkFields : AFields → Prop
  | .nil => True
  | .asn1 _ t rest => AOk t ∧ AOkFields rest
  | .acn _ _ _ rest => AOkFields rest
  | .acnNull pat n rest => n ≤ 8 * pat.length ∧ AOkFields rest
def AOkAlts : AAlts → Prop
  | .nil => True
  | .cons _ t rest => AOk t ∧ AOkAlts rest
end

/-- Is a component always there? -/
def AOpt.always : AOpt → Bool
  | .mandatory => true
  | .present => true
  | _ => false

mutual
/-- The determinants that are certainly decoded when the type has been decoded. -/
def provides : ATy → List Nat
  | .seq fs => providesFields fs
  | .align _ t => provides t
  | _ => []
def providesFields : AFields → List Nat
  | .nil => []
  | .asn1 o t rest => (if o.always then provides t else []) ++ providesFields rest
  | .acn k _ _ rest => k :: providesFields rest
  | .acnNull _ _ rest => providesFields rest
end

mutual
/-- Every component comes behind the determinants it depends on, and no determinant is inserted twice. `ctx`: the determinants that are known, `av`: those that
must not be inserted again (it contains `ctx`). -/
def Scoped (av ctx : List Nat) : ATy → Prop
  | .octets _ _ k _ => k ∈ ctx
  | .bits _ _ k _ => k ∈ ctx
  | .strExt _ _ _ k => k ∈ ctx
  | .strIdx _ _ _ k => k ∈ ctx
  | .seq fs => ScopedFields av ctx fs
  | .seqOf _ _ k t => (∀ j, k = some j → j ∈ ctx) ∧ Scoped av [] t
  | .choice byDet alts => (byDet = true → ∀ k ∈ alts.keys, k ∈ ctx) ∧ ScopedAlts av ctx alts
  | .ref args t => (∀ a ∈ args, a.1 ∈ ctx) ∧ Scoped (args.map (·.2)) (args.map (·.2)) t
  | .align _ t => Scoped av ctx t
  | _ => True
def ScopedFields (av ctx : List Nat) : AFields → Prop
  | .nil => True
  | .asn1 o t rest => (∀ k ∈ o.uses, k ∈ ctx) ∧ Scoped av ctx t ∧
    ScopedFields ((if o.always then provides t else []) ++ av) ((if o.always then provides t else []) ++ ctx) rest
  | .acn k _ _ rest => k ∉ av ∧ ScopedFields (k :: av) (k :: ctx) rest
  | .acnNull _ _ rest => ScopedFields av ctx rest
def ScopedAlts (av ctx : List Nat) : AAlts → Prop
  | .nil => True
  | .cons _ t rest => Scoped av ctx t ∧ ScopedAlts av ctx rest
end

/-- An admissible type without parameters. -/
def AcnOk (t : ATy) : Prop := AOk t ∧ Scoped [] [] t

mutual
/-- Types whose decoder refuses every truncated encoding. Excluded: a REAL of 32 bits, little endian (the emitted code ignores the result); alignment to 16 or
32 bits (an assertion fails instead); the uPER types that `Tight` excludes. -/
def ATight : ATy → Prop
  | .prim t => Tight true t
  | .real32 little _ => little = false
  | .seq fs => ATightFields fs
  | .seqOf _ _ _ t => ATight t
  | .choice _ alts => ATightAlts alts
  | .ref _ t => ATight t
  | .align a t => a = .byte ∧ ATight t
  | _ => True
def ATightFields : AFields → Prop
  | .nil => True
  | .asn1 _ t rest => ATight t ∧ ATightFields rest
  | .acn _ a _ rest => (∀ b, a = some b → b = .byte) ∧ ATightFields rest
  | .acnNull _ _ rest => ATightFields rest
def ATightAlts : AAlts → Prop
  | .nil => True
  | .cons _ t rest => ATight t ∧ ATightAlts rest
end

end Asn1
