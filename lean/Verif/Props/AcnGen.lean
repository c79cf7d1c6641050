import Verif.Proof.AcnGenTop
import Verif.Proof.Outcome
/-!
# Generated ACN codecs: C71, C72, C76, C77

`t` ranges over all types of `Verif/Model/AcnGen.lean`, nested to any depth; `encodeAcn` and `decodeAcn` are the two functions that the compiler
emits for a type assignment with an ACN specification.
-/
namespace Asn1

/-! ## An example -/

/-- `Packet ::= SEQUENCE { data OCTET STRING (SIZE (0..20)), name IA5String (FROM ("A".."C")) (SIZE (0..20)) OPTIONAL, pay CHOICE { flag BOOLEAN, num
INTEGER (-1000..1000) }, r REAL }` with the ACN specification
`Packet [] { len INTEGER [encoding pos-int, size 8], has BOOLEAN [true-value '1010'B, false-value '0101'B], sel Sel [encoding pos-int, size 4,
align-to-next byte], data [size len], name<len> [present-when has], pay<sel> [determinant sel] { flag, num [align-to-next byte, encoding
twos-complement, size 16, endianness little] }, pad NULL [pattern '110'B], r [encoding IEEE754-1985-64] }`. The determinants `len`, `has`, `sel` have the
numbers 0, 1, 2; `name` is a type with the parameter 0. -/
def exATy : ATy :=
  .seq (.acn 0 none (.int 8 (.concrete 0 20) .const8 none)
    (.acn 1 none (.bool (.twoPatterns [0xA0#8] [0x50#8] 4))
    (.acn 2 (some .byte) (.enum [(7, 1), (9, 2)] [7, 9] (.const 4))
    (.asn1 .mandatory (.octets 0 20 0 (some 20))
    (.asn1 (.optional (.whenBool 1) none) (.ref [(0, 0)] (.strExt [0x41#8, 0x42#8, 0x43#8] 0 20 0))
    (.asn1 .mandatory (.choice true (.cons [(2, 7)] (.prim .bool) (.cons [(2, 9)] (.align .byte (.leaf (.int 16 (.concrete (-1000) 1000) (.little 2) none))) .nil)))
    (.acnNull [0xC0#8] 3
    (.asn1 .mandatory (.real64 false (fun _ => true)) .nil))))))))

/-- A value of it. -/
def exAVal : Val :=
  .seq [(true, .octets [1#8, 2#8]), (true, .str [0x43#8, 0x41#8]), (true, .choice 1 (.int (-2))), (true, .real 0x3FF0000000000000#64)]

theorem exATy_ok : AcnOk exATy := by
  refine ⟨?_, ?_⟩
  · simp only [exATy, AOk, AOkFields, AOkAlts, AAlts.Told, AAlts.conds, AAlts.keys, AAlts.length, dependents, Ok, Ty.simple]
    refine ⟨⟨by decide, by decide⟩, ⟨by decide, by decide, by decide, by decide⟩, ⟨by decide, by decide, fun _ => ⟨?_, ?_⟩, by decide⟩, by decide, trivial, trivial⟩
    · intro c hc
      simp only [List.mem_cons, List.not_mem_nil, or_false] at hc
      rcases hc with rfl | rfl <;> simp
    · simp
  · simp [exATy, Scoped, ScopedFields, ScopedAlts, AOpt.uses, AOpt.always, provides, AAlts.keys]

theorem exAVal_valid : AcnValid exATy exAVal := by
  have e : required exATy exAVal = [(0, 2), (1, 1), (0, 2), (2, 9)] := by
    simp [exATy, exAVal, required, requiredFields, requiredAlt, reqPresence, AAlts.conds]
  unfold AcnValid
  rw [e]
  simp only [exATy, exAVal, AValid, AValidFields, AValidAlt]
  have d0 : Demands [(0, 2), (1, 1), (0, 2), (2, 9)] 0 2 := ⟨by simp, by simp⟩
  have d1 : Demands [(0, 2), (1, 1), (0, 2), (2, 9)] 1 1 := ⟨by simp, by simp⟩
  have d2 : Demands [(0, 2), (1, 1), (0, 2), (2, 9)] 2 9 := ⟨by simp, by simp⟩
  refine ⟨⟨2, d0, ?_⟩, ⟨1, d1, ?_⟩, ⟨9, d2, ?_⟩, ⟨by simp, by simp⟩, ⟨.inl ⟨trivial, ?_⟩, ⟨trivial, ?_⟩, by simp⟩⟩
  · simp [LeafFits, AIntFits, mapped, FitsC, Rng.unsigned, IntEnc.holds]
  · simp only [LeafFits, BoolEnc.ok]; decide
  · refine ⟨2, by simp, by simp, by simp, ?_, by simp⟩
    simp [AIntFits, FitsC, enumRng, Rng.unsigned, IntEnc.holds]
  · simp [StrValid]
  · simp [LeafValid, LeafFits, AIntFits, mapped, FitsC, Rng.unsigned, IntEnc.holds, FitsTwos, Rng.contains]

theorem exATy_tight : ATight exATy := by
  simp [exATy, ATight, ATightFields, ATightAlts, Tight]

/-! ## C71: round trip of the generated codecs -/

/-- C71: the generated encoder writes exactly the bits of the specification, from any position on, whether or not it checks the constraints first. -/
theorem C71_encoding_partial (t : ATy) (v : Val) (bCheckConstraints : Bool) (hok : AcnOk t) (hv : AcnValid t v) :
    AppendsAt (encodeAcn t v bCheckConstraints) true (acnCode t v) :=
  encodeAcn_appends bCheckConstraints hok.1 hv

/-- C71: encoding a value and decoding it gives back the value, in exactly as many bits as were written, for all types with their ACN specifications. Missing: values
that leave a determinant without a requirement (`AcnValid`, see C72), mapping functions with 16 bit two's complement integers (`C71_violation_mapping`), parameters with several
dependent components (`AOk`, `C72_violation_parameter`), and what the model leaves out (`Verif/Model/AcnGen.lean`). -/
theorem C71_roundtrip_partial (t : ATy) (v : Val) (bCheckConstraints : Bool) (hok : AcnOk t) (hv : AcnValid t v) :
    RoundTripAt (encodeAcn t v bCheckConstraints) true (decodeAcn t) v (fun p => (acnCode t v p).length) :=
  roundTripAt_of (encodeAcn_appends bCheckConstraints hok.1 hv) (decodeAcn_reads False hok hv False.elim)

/-- The example meets the hypotheses; its octets: length, flag and padding, selector, data, … -/
example : AcnOk exATy ∧ AcnValid exATy exAVal ∧
    acnCode exATy exAVal 0 = bytesBits [0x02#8, 0xA0#8, 0x20#8, 0x10#8, 0x24#8, 0x34#8, 0x10#8, 0xFE#8, 0xFF#8] ++
      ([true, true, false] ++ bytesBits [0x3F#8, 0xF0#8, 0#8, 0#8, 0#8, 0#8, 0#8, 0#8]) := by
  refine ⟨exATy_ok, exAVal_valid, ?_⟩
  have e : required exATy exAVal = [(0, 2), (1, 1), (0, 2), (2, 9)] := by
    simp [exATy, exAVal, required, requiredFields, requiredAlt, reqPresence, AAlts.conds]
  unfold acnCode
  rw [e]
  simp only [exATy, exAVal, acode, acodeFields, acodeAlt, presACode]
  decide +kernel

/-- A mapping function and its inverse. -/
def exMapping : Mapping := ⟨fun x => x + 1, fun x => x - 1⟩

/-- The code violates C71: the emitted decoder of a 16 bit big endian two's complement INTEGER does not call the mapping function that the encoder has called. -/
theorem C71_violation_mapping :
    let t : ATy := .leaf (.int 64 (.concrete (-1000) 1000) (.big 2) (some exMapping))
    validA t (.int 5) = true ∧ validA t (.int 6) = true ∧ (∀ x, exMapping.dec (exMapping.enc x) = x) ∧
    ∃ s s', encodeAcn t (.int 5) true (⟨[0#8, 0#8], 2, 0, 0⟩) = .ok (true, s) ∧
      decodeAcn t ⟨s.buf, 2, 0, 0⟩ = .ok ((true, .int 6), s') := by
  refine ⟨rfl, rfl, fun x => by simp only [exMapping]; omega, ⟨[0#8, 6#8], 2, 2, 0⟩, ⟨[0#8, 6#8], 2, 2, 0⟩, ?_, ?_⟩
  · simp only [encodeAcn, encA]
    rfl
  · simp only [decodeAcn, decA]
    rfl

/-! ## C72: determinants agree with the components they describe -/

/-- C72: the encoder never sends a determinant that contradicts a component: if it returns TRUE then all components that are there require the same value
of each determinant that was written (which is then the value on the wire, `C71_encoding_partial`). -/
theorem C72_no_contradiction (t : ATy) (v : Val) (bCheckConstraints : Bool) (s s' : BitStream) (hok : AOk t) (hv : AHas t v)
    (h : encodeAcn t v bCheckConstraints s = .ok (true, s')) (k : Nat) (hk : k ∈ inserted t v) (x y : Int) (hx : (k, x) ∈ required t v)
    (hy : (k, y) ∈ required t v) : x = y :=
  encodeAcn_agree hok hv h hk hx hy

theorem exAVal_has : AHas exATy exAVal := aValid_has _ _ _ exAVal_valid

/-- The example: determinant 0 describes the data and the name, both of length 2. -/
example : AOk exATy ∧ AHas exATy exAVal ∧ inserted exATy exAVal = [0, 1, 2] ∧ required exATy exAVal = [(0, 2), (1, 1), (0, 2), (2, 9)] ∧
    ∃ s', encodeAcn exATy exAVal true ⟨List.replicate 20 0#8, 20, 0, 0⟩ = .ok (true, s') := by
  refine ⟨exATy_ok.1, exAVal_has, by simp [exATy, exAVal, inserted, insertedFields, insertedAlt],
    by simp [exATy, exAVal, required, requiredFields, requiredAlt, reqPresence, AAlts.conds], ?_⟩
  have a := encodeAcn_appends true exATy_ok.1 exAVal_valid ⟨List.replicate 20 0#8, 20, 0, 0⟩ []
    ⟨⟨by decide, by simp⟩, rfl, by simp, fun i hi => by
      simp only [bitAt, List.getD_eq_getElem?_getD, List.getElem?_replicate]; split <;> simp⟩ ?_
  · obtain ⟨s', h, _⟩ := a
    exact ⟨s', h⟩
  · have e : required exATy exAVal = [(0, 2), (1, 1), (0, 2), (2, 9)] := by
      simp [exATy, exAVal, required, requiredFields, requiredAlt, reqPresence, AAlts.conds]
    simp only [acnCode, e]
    simp only [exATy, exAVal, acode, acodeFields, acodeAlt, presACode]
    decide +kernel

/-- Two components of different lengths with one determinant: refused. -/
example : ∃ s', encodeAcn exATy (.seq [(true, .octets [1#8, 2#8]), (true, .str [0x43#8]), (true, .choice 1 (.int (-2))), (true, .real 0#64)]) true
    ⟨List.replicate 20 0#8, 20, 0, 0⟩ = .ok (false, s') := by
  refine ⟨⟨List.replicate 20 0#8, 20, 0, 0⟩, ?_⟩
  simp only [encodeAcn, exATy, encA, encAFields, encPresA, upd, updFields, validA, validAFields, validAAlt]
  decide +kernel

/-- The code violates C72 in the other direction: when the only component that a determinant describes is absent, the determinant has no value and a value that satisfies
the constraints cannot be sent. -/
theorem C72_violation_absent :
    let t : ATy := .seq (.acn 0 none (.int 8 (.concrete 0 20) .const8 none) (.asn1 (.optional .bit none) (.octets 0 20 0 (some 20)) .nil))
    let v : Val := .seq [(false, .null)]
    AcnOk t ∧ AHas t v ∧ validA t v = true ∧ ∃ s', encodeAcn t v true ⟨[0#8, 0#8], 2, 0, 0⟩ = .ok (false, s') := by
  refine ⟨⟨by simp [AOk, AOkFields], by simp [Scoped, ScopedFields, AOpt.uses]⟩, by simp [AHas, AHasFields], rfl,
    ⟨[0#8, 0#8], 2, 0, 1⟩, ?_⟩
  simp only [encodeAcn, encA, encAFields, encPresA, upd, updFields, validA, validAFields]
  decide +kernel

/-- The code violates C72: a parameter of which two components depend, in an alternative that is not chosen: the update of the determinant fails although another component gives it a
value. (`parse` is the chosen alternative; the reference is in the other one.) -/
theorem C72_violation_parameter :
    let sub : ATy := .seq (.asn1 .mandatory (.octets 0 9 0 (some 9)) (.asn1 .mandatory (.octets 0 9 0 (some 9)) .nil))
    let t : ATy := .seq (.acn 1 none (.int 8 (.concrete 0 9) .const8 none)
      (.asn1 .mandatory (.octets 0 9 1 (some 9))
      (.asn1 .mandatory (.choice false (.cons [] (.prim .bool) (.cons [] (.ref [(1, 0)] sub) .nil))) .nil)))
    let v : Val := .seq [(true, .octets [7#8]), (true, .choice 0 (.bool true))]
    AHas t v ∧ validA t v = true ∧ required t v = [(1, 1)] ∧ ∃ s', encodeAcn t v true ⟨[0#8, 0#8, 0#8], 3, 0, 0⟩ = .ok (false, s') := by
  refine ⟨by simp [AHas, AHasFields, AHasAlt, Valid], rfl, by simp [required, requiredFields, requiredAlt, reqPresence], ⟨[0#8, 0#8, 0#8], 3, 0, 0⟩, ?_⟩
  simp only [encodeAcn, encA, encAFields, encPresA, upd, updFields, validA, validAFields, validAAlt, isValid]
  decide +kernel

/-! ## C76: unambiguous -/

/-- C76: an encoding tells where it ends and what it stands for: if what is sent from bit `p` on begins with the encoding of `v1` and also with that of `v2`, then the values are the
same, and so is what follows. Partial: as `C71_roundtrip_partial`. -/
theorem C76_unambiguous_partial (t : ATy) (v1 v2 : Val) (p : Nat) (rest1 rest2 : List Bool) (hok : AcnOk t) (h1 : AcnValid t v1) (h2 : AcnValid t v2)
    (h : acnCode t v1 p ++ rest1 = acnCode t v2 p ++ rest2) : v1 = v2 ∧ rest1 = rest2 :=
  decP_unique (decodeAcn_reads False hok h1 False.elim) (decodeAcn_reads False hok h2 False.elim) p h

/-- C76: no encoding is a proper prefix of another one, and different values have different encodings. -/
theorem C76_prefix_free_partial (t : ATy) (v1 v2 : Val) (p : Nat) (hok : AcnOk t) (h1 : AcnValid t v1) (h2 : AcnValid t v2)
    (h : acnCode t v1 p <+: acnCode t v2 p) : v1 = v2 := by
  obtain ⟨r, hr⟩ := h
  exact (C76_unambiguous_partial t v1 v2 p r [] hok h1 h2 (by rw [hr, List.append_nil])).1

/-- Two different values. -/
example : ∃ v1 v2, AcnOk exATy ∧ AcnValid exATy v1 ∧ AcnValid exATy v2 ∧ v1 ≠ v2 := by
  refine ⟨exAVal, .seq [(true, .octets []), (false, .null), (true, .choice 0 (.bool true)), (true, .real 0#64)], exATy_ok, exAVal_valid, ?_, by simp [exAVal]⟩
  have e : required exATy (.seq [(true, .octets []), (false, .null), (true, .choice 0 (.bool true)), (true, .real 0#64)]) = [(0, 0), (1, 0), (2, 7)] := by
    simp [exATy, required, requiredFields, requiredAlt, reqPresence, AAlts.conds]
  unfold AcnValid
  rw [e]
  simp only [exATy, AValid, AValidFields, AValidAlt]
  refine ⟨⟨0, ⟨by simp, by simp⟩, ?_⟩, ⟨0, ⟨by simp, by simp⟩, ?_⟩, ⟨7, ⟨by simp, by simp⟩, ?_⟩, ⟨by simp, by simp⟩, ⟨.inr ⟨trivial, trivial⟩, ⟨trivial, ?_⟩, by simp⟩⟩
  · simp [LeafFits, AIntFits, mapped, FitsC, Rng.unsigned, IntEnc.holds]
  · simp only [LeafFits, BoolEnc.ok]; decide
  · refine ⟨1, by simp, by simp, by simp, ?_, by simp⟩
    simp [AIntFits, FitsC, enumRng, Rng.unsigned, IntEnc.holds]
  · simp [Valid]

/-! ## C77: truncated messages -/

/-- C77: the generated decoder refuses every input that ends before the encoding is complete, wherever it ends. Missing: `ATight`. -/
theorem C77_truncated_refused_partial (t : ATy) (v : Val) (bCheckConstraints : Bool) (hok : AcnOk t) (hv : AcnValid t v) (ht : ATight t) :
    RejectsTruncatedAt (encodeAcn t v bCheckConstraints) true (decodeAcn t) (fun p => (acnCode t v p).length) :=
  rejectsTruncatedAt_of trivial (encodeAcn_appends bCheckConstraints hok.1 hv) (decodeAcn_reads True hok hv (fun _ => ht))

example : AcnOk exATy ∧ AcnValid exATy exAVal ∧ ATight exATy := ⟨exATy_ok, exAVal_valid, exATy_tight⟩

/-- The code violates C77: the emitted decoder of a REAL in a C `float`, IEEE754, little endian, ignores the result of the runtime function: the two octets `01 02` are
accepted as a value of four octets. -/
theorem C77_violation_real32 :
    ∃ d s', decodeAcn (.real32 true (fun _ => true)) ⟨[1#8, 2#8, 0#8], 2, 0, 0⟩ = .ok ((true, .real d), s') := by
  refine ⟨0#64, ⟨[1#8, 2#8, 0#8], 2, 2, 0⟩, ?_⟩
  simp only [decodeAcn, decA]
  rfl

/-- The code violates C77: alignment to 16 bits at the end of a truncated message fails an assertion instead of returning FALSE. -/
theorem C77_violation_align :
    let t : ATy := .seq (.asn1 .mandatory (.prim .bool) (.asn1 .mandatory (.align .word (.prim .bool)) .nil))
    decodeAcn t ⟨[0x80#8, 0#8], 1, 0, 0⟩ = .abort := by
  simp only [decodeAcn, decA, decAFields, decPresA]
  rfl

end Asn1
