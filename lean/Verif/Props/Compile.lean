import Verif.Proof.CompileObject
import Verif.Props.Object
import Verif.Props.Notation
/-!
# C100: from a type as written to the behaviour of the generated functions
-/
namespace Asn1

/-- C100 (part): the type that the compiler hands to the back end admits the values that the text admits: those that satisfy all
constraints of the type, of its parts and of the types it refers to. (For OBJECT IDENTIFIERs the back end also demands proper arcs.) Here also
for types with references that have constraints. Missing: what `compile` does not model. -/
theorem C100_meaning_partial (slim : Bool) (t : NTy) (ct : CTy) (h : compile slim [] t = some ct) (hd : t.Distinct) (hv : t.Valued) (a : AV) :
    ct.Sat a ↔ t.Sat a ∧ t.Formed a :=
  compile_sat slim t [] ct a h hd hv

/-- C100 (part): `_IsConstraintValid` of the generated code accepts an object exactly if the value that the object holds satisfies the
constraints as written in the ASN.1 file. Missing: what `CTy.Fits` excludes (C80), what `compile` does not model. -/
theorem C100_check_partial (slim : Bool) (t : NTy) (ct : CTy) (h : compile slim [] t = some ct) (hd : t.Distinct) (hv : t.Valued) (hf : ct.Fits)
    (v : CVal) (a : AV) (hm : meaning ct v = some a) (s : BitStream) :
    ∃ b err, isConstraintValid ct v none s = .ok ((b, err), s) ∧ (b = true ↔ t.Sat a ∧ t.Arcs a) ∧ (b = true ↔ err = none) := by
  obtain ⟨b, e, h1, h2, h3, h4⟩ := C80_valid_partial ct hf v a hm none s
  refine ⟨b, e, h1, ?_, ?_⟩
  · rw [h2, compile_sat slim t [] ct a h hd hv, formed_arcs slim t [] ct v a h hm]
  · constructor
    · intro hb
      rcases h3 hb with h | h <;> exact h
    · intro he
      cases b with
      | true => rfl
      | false =>
        obtain ⟨q, hq, _⟩ := h4 rfl
        rw [he] at hq
        cases hq

/-- C100 (part): every object whose value satisfies the constraints as written is encoded by the generated encoder, and the decoder gives the
value back. The object that the decoder has written denotes the same value, passes the check, and (in a type without REAL) equals the
one that was encoded. The sizes, the alphabet, the C integers and the marks of components are those that the compiler computes; no assumption about them is
left but `Ok` and that no reference fixes the size of a type of variable size (`CTy.Counted`; C94 is false otherwise). References with constraints of
their own are included. Missing: what `CTy.Fits`, `Ok`, `CTy.Counted` and `NTy.Ordinary` exclude, what `compile` does not model. -/
theorem C100_roundtrip_partial (slim : Bool) (t : NTy) (ct : CTy) (h : compile slim [] t = some ct) (hd : t.Distinct) (hv : t.Valued) (ho : t.Ordinary)
    (hf : ct.Fits) (hn : ct.Counted) (hok : Ok (uperTy ct)) (v : CVal) (a : AV) (hm : meaning ct v = some a) (hs : t.Sat a) (ha : t.Arcs a) (hh : Held ct a)
    (chk : Bool) :
    RoundTrip (encodeObject ct v chk) (true, none) (decodeType (uperTy ct)) (toVal ct a) (code false (uperTy ct) (toVal ct a)).length ∧
    ∀ w, Stored ct (toVal ct a) w → meaning ct w = some a ∧
      (∀ s, isConstraintValid ct w none s = .ok ((true, none), s)) ∧
      (ct.noReal = true → ∀ s, cEqual ct v w s = .ok (true, s)) := by
  have hcod := compile_codable slim t [] ct a h hd ho hs (by simp) hh
  obtain ⟨b, e, h1, h2, h3⟩ := C100_check_partial slim t ct h hd hv hf v a hm ⟨[], 0, 0, 0⟩
  obtain rfl := h2.2 ⟨hs, ha⟩
  obtain rfl := h3.1 rfl
  exact C94_roundtrip_partial ct hf (compile_computed slim t [] ct h ho hn) hok v a hm hcod none none ⟨[], 0, 0, 0⟩ h1 chk

/-- C100 (part): every value that the text admits can be stored in an object of the generated C type (which, by the other theorems, passes the check, is
encoded and comes back). Missing: numbers of more than 64 bits, OBJECT IDENTIFIERs of more than 20 arcs; what `NTy.Ordinary` excludes,
what `compile` does not model. -/
theorem C100_object_partial (slim : Bool) (t : NTy) (ct : CTy) (h : compile slim [] t = some ct) (hd : t.Distinct) (hv : t.Valued) (ho : t.Ordinary)
    (a : AV) (hs : t.Sat a) (hh : t.Has a) : ∃ v, meaning ct v = some a ∧ HasLayout ct v :=
  compile_object slim t [] ct a [] h hd hv ho hs hh

/-- C100 (part): an object whose value violates a constraint as written is refused by the generated encoder, and nothing is written. -/
theorem C100_refused_partial (slim : Bool) (t : NTy) (ct : CTy) (h : compile slim [] t = some ct) (hd : t.Distinct) (hv : t.Valued) (hf : ct.Fits)
    (v : CVal) (a : AV) (hm : meaning ct v = some a) (hs : ¬ t.Sat a) (s : BitStream) :
    ∃ q, encodeObject ct v true s = .ok ((false, some q), s) := by
  have : ¬ ct.Sat a := by
    rw [compile_sat slim t [] ct a h hd hv]
    exact fun h => hs h.1
  obtain ⟨q, hq, _⟩ := C94_refused_partial ct hf v a hm this s
  exact ⟨q, hq⟩

/-- C100 (part): different values that satisfy the constraints as written have different encodings, none of which is the beginning of the other. -/
theorem C100_injective_partial (slim : Bool) (t : NTy) (ct : CTy) (h : compile slim [] t = some ct) (hd : t.Distinct) (hv : t.Valued) (ho : t.Ordinary)
    (hf : ct.Fits) (hn : ct.Counted) (hok : Ok (uperTy ct)) (v w : CVal) (a b : AV) (hm : meaning ct v = some a) (hw : meaning ct w = some b)
    (hs : t.Sat a ∧ t.Arcs a ∧ Held ct a) (hs' : t.Sat b ∧ t.Arcs b ∧ Held ct b) (chk chk' : Bool) (bits bits' : List Bool)
    (hb : Appends (encodeObject ct v chk) (true, none) bits) (hb' : Appends (encodeObject ct w chk') (true, none) bits')
    (hp : bits <+: bits') : a = b :=
  C94_injective_partial ct hf (compile_computed slim t [] ct h ho hn) hok v w a b hm hw
    (compile_codable slim t [] ct a h hd ho hs.1 (by simp) hs.2.2) (compile_codable slim t [] ct b h hd ho hs'.1 (by simp) hs'.2.2)
    ((compile_sat slim t [] ct a h hd hv).2 ⟨hs.1, (formed_arcs slim t [] ct v a h hm).2 hs.2.1⟩)
    ((compile_sat slim t [] ct b h hd hv).2 ⟨hs'.1, (formed_arcs slim t [] ct w b h hw).2 hs'.2.1⟩) chk chk' bits bits' hb hb' hp

/-- C100 (part): a buffer of the generated size is enough for every object whose value satisfies the constraints as written, and the buffer decodes to
that value. -/
theorem C100_buffer_partial (slim : Bool) (t : NTy) (ct : CTy) (h : compile slim [] t = some ct) (hd : t.Distinct) (hv : t.Valued) (ho : t.Ordinary)
    (hf : ct.Fits) (hn : ct.Counted) (hok : Ok (uperTy ct)) (hp : PlainSizes (uperTy ct)) (v : CVal) (a : AV) (hm : meaning ct v = some a) (hs : t.Sat a)
    (ha : t.Arcs a) (hh : Held ct a) (chk : Bool) (buf : List Byte) (hb : buf.length = requiredBytes (uperTy ct)) :
    ∃ s0 s', bitStreamInit buf (requiredBytes (uperTy ct)) = .ok s0 ∧ encodeObject ct v chk s0 = .ok ((true, none), s') ∧
      bitStreamGetLength s' ≤ requiredBytes (uperTy ct) ∧ s'.buf.length = buf.length ∧
      ∃ t', decodeType (uperTy ct) { s' with currentByte := 0, currentBit := 0 } = .ok ((true, toVal ct a), t') :=
  C94_buffer_partial ct hf (compile_computed slim t [] ct h ho hn) hok hp v a hm (compile_codable slim t [] ct a h hd ho hs (by simp) hh)
    ((compile_sat slim t [] ct a h hd hv).2 ⟨hs, (formed_arcs slim t [] ct v a h hm).2 ha⟩) chk buf hb

/-- C100 (part): the DEFAULT of a component that the compiler has accepted becomes a value that satisfies the constraints of the component as written,
and that is the value the notation denotes. Missing: as in `C97_accepted_partial`. -/
theorem C100_default_partial (t : NTy) (v : VN) (m : Option Mark) (co : COpt) (hc : childOpt t (.default v) m = some co)
    (hacc : acceptsDefault t v = true) (hp : t.Plain) (hd : t.Distinct) (hi : t.Direct v) (h1 : v.OnceEach) (h2 : v.BuiltinGovernors) :
    (m = some .present ∧ co = .present) ∨ (m = some .absent ∧ co = .absent) ∨ ∃ a, co = .default a ∧ t.Denotes v a ∧ t.Sat a := by
  obtain ⟨a, ha, hs⟩ := (C97_accepted_partial t v hp hd hi h1 h2).1 hacc
  have hmv : (mapVal t v).map COpt.default = some (.default a) := by rw [complete t v a ha hd]; rfl
  match m, hc with
  | some .present, hc => cases hc; exact .inl ⟨rfl, rfl⟩
  | some .absent, hc => cases hc; exact .inr (.inl ⟨rfl, rfl⟩)
  | none, hc =>
    rw [childOpt, hmv] at hc
    · cases hc; exact .inr (.inr ⟨a, rfl, ha, hs⟩)
    all_goals simp
  | some .optional, hc =>
    rw [childOpt, hmv] at hc
    · cases hc; exact .inr (.inr ⟨a, rfl, ha, hs⟩)
    all_goals simp
  | some .noMark, hc =>
    rw [childOpt, hmv] at hc
    · cases hc; exact .inr (.inr ⟨a, rfl, ha, hs⟩)
    all_goals simp

/-! ## A type and objects that meet the hypotheses -/

/-- The number. -/
def num (x : Int) : VN := .int x

/-- `D ::= CHOICE { x BOOLEAN, y ENUMERATED { r(1), g(2) } }` -/
def srcD : NTy := .choice (.cons "x" (.bool []) (.cons "y" (.enum [("r", 1), ("g", 2)] []) .nil)) []

/-- `SEQUENCE { a INTEGER (0..10 | 20..30), b OCTET STRING (SIZE(1..4)) OPTIONAL, c SEQUENCE (SIZE(0..3)) OF IA5String
(SIZE(1..5)) (FROM ("a".."z")), d D, e BIT STRING (SIZE(3)), f INTEGER (0..255) DEFAULT 7, g BOOLEAN OPTIONAL } (WITH COMPONENTS { ..., b
PRESENT, g ABSENT })`. -/
def srcTy : NTy := .seq
  (.cons "a" .mandatory (.int [.union (.range (num 0) (num 10) true true) (.range (num 20) (num 30) true true)])
  (.cons "b" .optional (.octets [.size (.range (num 1) (num 4) true true)])
  (.cons "c" .mandatory (.seqOf (.str [.size (.range (num 1) (num 5) true true), .alphabet (.range (.str [97#8]) (.str [122#8]) true true)])
    [.size (.range (num 0) (num 3) true true)])
  (.cons "d" .mandatory (.ref "M" "D" srcD [])
  (.cons "e" .mandatory (.bits [.size (.single (num 3))])
  (.cons "f" (.default (num 7)) (.int [.range (num 0) (num 255) true true])
  (.cons "g" .optional (.bool []) .nil)))))))
  [.components (.bare "b" .present (.bare "g" .absent .nil))]

/-- The type of the back end. -/
def dstTy : CTy := .seq
  (.cons .mandatory (.int ⟨true, 0, 2 ^ 64 - 1⟩ [.union (.range (.range 0 10 true true)) (.range (.range 20 30 true true))])
  (.cons .present (.octets 1 4 [.size (.leaf (.range 1 4 true true))])
  (.cons .mandatory (.seqOf 0 3 (.str 1 5 ((List.range' 97 26).map (BitVec.ofNat 8))
      [.size (.leaf (.range 1 5 true true)), .alphabet (.leaf (.range 97 122 true true))])
    [.size (.leaf (.range 0 3 true true))])
  (.cons .mandatory (.ref (.choice (.cons (.bool []) (.cons (.enum [1, 2] []) .nil)) []) none [])
  (.cons .mandatory (.bits 3 3 [.size (.leaf (.single 3))])
  (.cons (.default (.int 7)) (.int ⟨true, 0, 2 ^ 64 - 1⟩ [.range (.range 0 255 true true)])
  (.cons .absent (.bool []) .nil)))))))
  [.components (.bare 1 .present (.bare 6 .absent .nil))]

theorem srcTy_chars : strChars [.size (.leaf (.range 1 5 true true)), .alphabet (.leaf (.range 97 122 true true))] =
    some ((List.range' 97 26).map (BitVec.ofNat 8)) := by decide +kernel

theorem srcTy_compiles : compile false [] srcTy = some dstTy := by
  have e1 : compile false [] (.int [.union (.range (num 0) (num 10) true true) (.range (num 20) (num 30) true true)]) =
    some (.int ⟨true, 0, 2 ^ 64 - 1⟩ [.union (.range (.range 0 10 true true)) (.range (.range 20 30 true true))]) := rfl
  have e2 : compile false [] (.octets [.size (.range (num 1) (num 4) true true)]) = some (.octets 1 4 [.size (.leaf (.range 1 4 true true))]) := rfl
  have e3 : compile false [] (.seqOf (.str [.size (.range (num 1) (num 5) true true), .alphabet (.range (.str [97#8]) (.str [122#8]) true true)])
    [.size (.range (num 0) (num 3) true true)]) = some (.seqOf 0 3 (.str 1 5 ((List.range' 97 26).map (BitVec.ofNat 8))
      [.size (.leaf (.range 1 5 true true)), .alphabet (.leaf (.range 97 122 true true))])
    [.size (.leaf (.range 0 3 true true))]) := by
    have h1 : mapAll (.str [.size (.range (num 1) (num 5) true true), .alphabet (.range (.str [97#8]) (.str [122#8]) true true)])
      [.size (.range (num 1) (num 5) true true), .alphabet (.range (.str [97#8]) (.str [122#8]) true true)] =
      some [.size (.leaf (.range 1 5 true true)), .alphabet (.leaf (.range 97 122 true true))] := rfl
    have h2 : strSize [.size (.leaf (.range 1 5 true true)), .alphabet (.leaf (.range 97 122 true true))] = some (1, 5) := rfl
    have h3 : compile false [] (.str [.size (.range (num 1) (num 5) true true), .alphabet (.range (.str [97#8]) (.str [122#8]) true true)]) =
      some (.str 1 5 ((List.range' 97 26).map (BitVec.ofNat 8)) [.size (.leaf (.range 1 5 true true)), .alphabet (.leaf (.range 97 122 true true))]) := by
      rw [compile, h1]
      simp only [Option.bind_eq_bind, Option.bind_some, h2, srcTy_chars]
    rw [compile]
    simp only [List.append_nil, elemCons, h3]
    rfl
  have e4 : compile false [] (.ref "M" "D" srcD []) = some (.ref (.choice (.cons (.bool []) (.cons (.enum [1, 2] []) .nil)) []) none []) := rfl
  have e5 : compile false [] (.bits [.size (.single (num 3))]) = some (.bits 3 3 [.size (.leaf (.single 3))]) := rfl
  have e6 : compile false [] (.int [.range (num 0) (num 255) true true]) = some (.int ⟨true, 0, 2 ^ 64 - 1⟩ [.range (.range 0 255 true true)]) := rfl
  have e7 : compile false [] (.bool []) = some (.bool []) := rfl
  have h0 : ∀ nm, (aboutPart nm [.components (.bare "b" .present (.bare "g" .absent .nil))]).filterMap (·.2) = ([] : List XC) := by
    intro nm
    simp only [aboutPart, XCs.about]
    split <;> split <;> rfl
  rw [srcTy, compile]
  simp only [List.append_nil, compileFields, h0, e1, e2, e3, e4, e5, e6, e7]
  rfl

theorem srcTy_distinct : srcTy.Distinct := by
  simp [srcTy, srcD, NTy.Distinct, NFields.Distinct, NAlts.Distinct, NFields.toList, NAlts.toList]

theorem srcTy_valued : srcTy.Valued := by
  simp [srcTy, srcD, NTy.Valued, NFields.Valued, NAlts.Valued, XC.Valued, XCs.Valued]

theorem srcTy_ordinary : srcTy.Ordinary := by
  simp [srcTy, srcD, NTy.Ordinary, NTy.OrdinaryIn, NFields.Ordinary, NAlts.Ordinary, XC.SerialNoMin, XC.NoMinInter, XC.SizeNoMinInter, XC.Leaves, XC.NotMin,
    XC.SizeNotMin, XC.notComponent, NOpt.Written]

theorem dstTy_fits : dstTy.Fits := by
  simp [dstTy, CTy.Fits, CFields.Fits, CAlts.Fits, AC.Fits, NCs.FitsSeq, AC.Definite, CTy.actual, CTy.layout, CTy.fixedSize, CTy.capacity,
    Con.Leaves, RLeaf.LitsFit, AlphaLeaf.Octets, Con.Sat, RLeaf.Sat, CFields.get, Mark.Strict, COpt.MayBeAbsent]

theorem dstTy_ok : Ok (uperTy dstTy) := by
  simp [dstTy, uperTy, uperIn, effLo, effHi, CTy.sameWithMore, uperFields, uperAlts, COpt.toOpt, Ok, OkFields, OkAlts]
  have h1 : intRangeOf [.union (.range (.range 0 10 true true)) (.range (.range 20 30 true true))] = some (.concrete 0 30) := by decide +kernel
  have h2 : intRangeOf [.range (.range 0 255 true true)] = some (.concrete 0 255) := by decide +kernel
  rw [h1, h2]
  refine ⟨?_, ⟨by decide, by decide, by decide⟩, ?_⟩ <;> simp [Rng.ok, IntClass.bits]

theorem dstTy_plain : PlainSizes (uperTy dstTy) := by
  simp [dstTy, uperTy, uperIn, effLo, effHi, CTy.sameWithMore, uperFields, uperAlts, COpt.toOpt, PlainSizes, PlainSizesFields, PlainSizesAlts]

/-- An object of this type. -/
def dstVal (x : Int) (junk : Byte) (b : Bool) : CVal :=
  .seq [(false, .int x), (b, .octets 3 [1#8, 2#8, 3#8, junk]),
    (true, .seqOf 2 [.str [97#8, 98#8, 0#8, junk, 0#8, junk], .str [122#8, 0#8, junk, 0#8, 0#8, 0#8], .str (List.replicate 6 junk)]),
    (true, .choice 2 (.enum 2)), (true, .bits junk.toNat [0xA0#8 ||| (junk &&& 0x1F#8)]), (false, .int 7), (false, .bool true)]

/-- Its value. -/
def srcAV (x : Int) (b : Bool) : AV := .seq [some (.int x), if b then some (.octets [1#8, 2#8, 3#8]) else none,
  some (.seqOf [.str [97#8, 98#8], .str [122#8]]), some (.choice 1 (.enum 2)), some (.bits [true, false, true]), none, none]

theorem srcAV_sat (x : Int) (b : Bool) : srcTy.Sat (srcAV x b) ↔ b = true ∧ (0 ≤ x ∧ x ≤ 10 ∨ 20 ≤ x ∧ x ≤ 30) := by
  have h := C100_meaning_partial false srcTy dstTy srcTy_compiles srcTy_distinct srcTy_valued (srcAV x b)
  have h1 : srcTy.Formed (srcAV x b) := by
    cases b <;> simp [srcTy, srcD, srcAV, NTy.Formed, NFields.Formed, NAlts.Formed]
  rw [and_iff_left h1] at h
  rw [← h]
  cases b <;>
    simp [dstTy, srcAV, CTy.Sat, CFields.Sat, CAlts.Sat, AC.Sat, NCs.Sat, Mark.Sat, AV.part, AV.size, Con.Sat, RLeaf.Sat, AlphaLeaf.Sat]

/-- With 25 in `a`: all hypotheses of the theorems hold. -/
example : compile false [] srcTy = some dstTy ∧ srcTy.Distinct ∧ srcTy.Valued ∧ srcTy.Ordinary ∧ dstTy.Fits ∧ dstTy.Counted ∧ Ok (uperTy dstTy) ∧
    PlainSizes (uperTy dstTy) ∧ meaning dstTy (dstVal 25 0xFF#8 true) = some (srcAV 25 true) ∧ srcTy.Sat (srcAV 25 true) ∧
    srcTy.Arcs (srcAV 25 true) ∧ Held dstTy (srcAV 25 true) ∧ srcTy.Has (srcAV 25 true) := by
  refine ⟨srcTy_compiles, srcTy_distinct, srcTy_valued, srcTy_ordinary, dstTy_fits, ?_, dstTy_ok, dstTy_plain, rfl, ?_, ?_, ?_, ?_⟩
  · simp [dstTy, CTy.Counted, CTy.CountedIn, CFields.Counted, CAlts.Counted, effLo, effHi]
  · rw [srcAV_sat]; simp
  · simp [srcTy, srcD, srcAV, NTy.Arcs, NFields.Arcs, NAlts.Arcs]
  · have h1 : intRangeOf [.union (.range (.range 0 10 true true)) (.range (.range 20 30 true true))] = some (.concrete 0 30) := by decide +kernel
    simp [dstTy, srcAV, Held, HeldIn, HeldFields, HeldAlt, h1, Rng.holds64]
  · simp [srcTy, srcD, srcAV, NTy.Has, NFields.Has, NAlts.Has]

/-- With 15 in `a`, or without `b`, the object is refused (`C100_refused_partial`). -/
example : meaning dstTy (dstVal 15 0#8 true) = some (srcAV 15 true) ∧ ¬ srcTy.Sat (srcAV 15 true) ∧
    meaning dstTy (dstVal 25 0#8 false) = some (srcAV 25 false) ∧ ¬ srcTy.Sat (srcAV 25 false) := by
  refine ⟨rfl, ?_, rfl, ?_⟩ <;> rw [srcAV_sat] <;> simp

/-- References with constraints of their own: `T1 ::= INTEGER (0..10)`, `T2 ::= OCTET STRING (SIZE(1..4))`, `T3 ::= T2 (SIZE(1..3))`,
`SEQUENCE { a T1 (5..8), b T3 (SIZE(2..3)) }`. -/
def refSrc : NTy := .seq
  (.cons "a" .mandatory (.ref "M" "T1" (.int [.range (num 0) (num 10) true true]) [.range (num 5) (num 8) true true])
  (.cons "b" .mandatory (.ref "M" "T3" (.ref "M" "T2" (.octets [.size (.range (num 1) (num 4) true true)]) [.size (.range (num 1) (num 3) true true)])
    [.size (.range (num 2) (num 3) true true)]) .nil)) []

/-- The type of the back end. -/
def refDst : CTy := .seq
  (.cons .mandatory (.ref (.int ⟨true, 0, 2 ^ 64 - 1⟩ [.range (.range 0 10 true true)]) none [.range (.range 5 8 true true)])
  (.cons .mandatory (.ref (.ref (.octets 1 4 [.size (.leaf (.range 1 4 true true))]) (some (1, 3)) [.size (.leaf (.range 1 3 true true))])
    (some (2, 3)) [.size (.leaf (.range 2 3 true true))]) .nil)) []

/-- All hypotheses of the theorems hold: the number needs two bits, the count one. -/
example : compile false [] refSrc = some refDst ∧ refSrc.Distinct ∧ refSrc.Valued ∧ refSrc.Ordinary ∧ refDst.Fits ∧ refDst.Counted ∧
    uperTy refDst = .seq (.cons .mandatory (.int 64 (.concrete 5 8)) (.cons .mandatory (.octets 2 3) .nil)) ∧ Ok (uperTy refDst) ∧
    meaning refDst (.seq [(true, .int 7), (true, .octets 2 [1#8, 2#8, 0#8, 9#8])]) = some (.seq [some (.int 7), some (.octets [1#8, 2#8])]) ∧
    refSrc.Sat (.seq [some (.int 7), some (.octets [1#8, 2#8])]) ∧ refSrc.Has (.seq [some (.int 7), some (.octets [1#8, 2#8])]) ∧
    refSrc.Arcs (.seq [some (.int 7), some (.octets [1#8, 2#8])]) ∧ Held refDst (.seq [some (.int 7), some (.octets [1#8, 2#8])]) := by
  have hr : intRangeOf [.range (.range 0 10 true true), .range (.range 5 8 true true)] = some (.concrete 5 8) := by decide +kernel
  have hu : uperTy refDst = .seq (.cons .mandatory (.int 64 (.concrete 5 8)) (.cons .mandatory (.octets 2 3) .nil)) := by
    simp [refDst, uperTy, uperIn, uperFields, COpt.toOpt, CTy.sameWithMore, CTy.layout, effLo, effHi, hr, IntClass.bits]
  have hc : compile false [] refSrc = some refDst := rfl
  have hd : refSrc.Distinct := by simp [refSrc, NTy.Distinct, NFields.Distinct, NFields.toList]
  have hv : refSrc.Valued := by simp [refSrc, NTy.Valued, NFields.Valued, XC.Valued]
  refine ⟨hc, hd, hv, ?_, ?_, ?_, hu, ?_, rfl, ?_, ?_, ?_, ?_⟩
  · simp [refSrc, NTy.Ordinary, NTy.OrdinaryIn, NFields.Ordinary, XC.SerialNoMin, XC.Leaves, XC.NotMin, XC.SizeNotMin, NOpt.Written]
  · simp [refDst, CTy.Fits, CFields.Fits, AC.Fits, AC.Definite, CTy.actual, CTy.resize, CTy.layout, CTy.fixedSize, CTy.capacity, Con.Leaves, RLeaf.LitsFit]
  · simp [refDst, CTy.Counted, CTy.CountedIn, CFields.Counted, effLo, effHi]
  · rw [hu]
    simp [Ok, OkFields, Rng.ok]
  · refine ((C100_meaning_partial false refSrc refDst hc hd hv _).1 ?_).1
    simp [refDst, CTy.Sat, CFields.Sat, AC.Sat, AV.size, Con.Sat, RLeaf.Sat]
  · simp [refSrc, NTy.Has, NFields.Has]
  · simp [refSrc, NTy.Arcs, NFields.Arcs]
  · simp [refDst, Held, HeldIn, HeldFields, hr, Rng.holds64]

/-- `C100_default_partial`: `INTEGER (0..255) DEFAULT 7` becomes a default of 7, unless a mark replaces it. -/
example : childOpt (.int [.range (num 0) (num 255) true true]) (.default (num 7)) none = some (.default (.int 7)) ∧
    childOpt (.int [.range (num 0) (num 255) true true]) (.default (num 7)) (some .present) = some .present ∧
    acceptsDefault (.int [.range (num 0) (num 255) true true]) (num 7) = true ∧ (NTy.int [.range (num 0) (num 255) true true]).Plain := by
  refine ⟨rfl, rfl, by decide +kernel, ?_⟩
  simp [NTy.Plain, XC.Plain, plainBound, NTy.stripped, ← VN.base_iff, VN.base, num]

end Asn1
