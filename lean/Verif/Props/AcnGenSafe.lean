import Verif.Proof.AcnGenSafe2
import Verif.Props.AcnGen
/-!
# Property: generated ACN decoders on arbitrary input

C73. The conditions on the type are in `Verif/Spec/AcnGenSafe.lean`.
-/
namespace Asn1

/-- C73: on every input whatever the generated ACN decoder completes without undefined behaviour and without a failed assertion, reads nothing outside the buffer (and one byte behind
it), writes nothing outside the destination, changes nothing but the cursor, and if it accepts the cursor is still inside. Missing: what `AcnGuarded` excludes; the theorems
`C73_violation_…` show that this is needed. -/
theorem C73_decoder_safe_partial (t : ATy) (hok : AcnOk t) (hg : AcnGuarded t) : Safe (decodeAcn t) := by
  have h := decA_safe t [] [] (mayBe (fun _ _ => False) t) DetEnv.empty hok.1 hok.2 hg (fun k l x hm hx => .inr ⟨l, hm, hx⟩)
    ⟨by simp, fun k x hx => by simp [DetEnv.empty] at hx⟩
  unfold decodeAcn
  simp only [decA, passArgs, pure_bind, bind_assoc]
  exact h.safe.map (h := fun p : Bool × (Val × DetEnv) => (p.1 && validA t p.2.1, p.2.1)) (fun p hp => by
    simp only [Bool.and_eq_true] at hp; exact hp.1)

/-- Two determinants of one octet: a length with the full range of the octet (the compiler then emits a test), a list count; a list of optional names, whose length is a parameter. -/
def exGTy : ATy :=
  .seq (.acn 0 none (.int 8 (.concrete 0 255) .const8 none)
    (.acn 1 (some .byte) (.int 8 (.concrete 0 9) .const8 none)
    (.asn1 .mandatory (.octets 0 20 0 (some 255))
    (.asn1 .mandatory (.ref [(0, 3), (1, 4)] (.seq
      (.acn 7 none (.bool (.twoPatterns [0xA0#8] [0x50#8] 4))
      (.asn1 .mandatory (.bits 1 255 3 (some 255))
      (.asn1 (.optional (.whenBool 7) none) (.seqOf 0 9 (some 4) (.leaf (.enum [(7, 1), (9, 2)] [7, 9] (.const 4)))) .nil)))))
    .nil))))

theorem exGTy_ok : AcnOk exGTy := by
  refine ⟨?_, ?_⟩
  · simp only [exGTy, AOk, AOkFields, dependents, dependentsFields, AOpt.uses]
    decide
  · simp [exGTy, Scoped, ScopedFields, AOpt.uses, AOpt.always, provides]

theorem exGTy_guarded : AcnGuarded exGTy := by
  simp only [AcnGuarded, exGTy, AGuarded, AGuardedFields, LeafGuarded, IntGuarded]
  have h0 : ∀ l x, (0, l) ∈ dets exGTy → DetMay l x → 0 ≤ x ∧ x < 2 ^ 8 := by
    intro l x hl hx
    simp [exGTy, dets, detsFields] at hl
    subst hl
    simp [DetMay, IntMay, Rng.unsigned, IntEnc.under] at hx
    omega
  have h1 : ∀ l x, (1, l) ∈ dets exGTy → DetMay l x → 0 ≤ x := by
    intro l x hl hx
    simp [exGTy, dets, detsFields] at hl
    subst hl
    simp [DetMay, IntMay, Rng.unsigned, IntEnc.under] at hx
    omega
  refine ⟨trivial, by simp, trivial, by simp, .inr (fun x hx => ?_), ⟨by simp, by simp, .inr (fun x hx => ?_), ⟨fun j hj => .inr (fun x hx => ?_), by simp⟩, trivial⟩, trivial⟩
  · rcases hx with hx | ⟨l, hl, hx⟩
    · exact hx.elim
    · have := h0 l x hl hx
      exact ⟨this.1, .inr (fun m hm => by cases hm; decide)⟩
  · rcases hx with ⟨k, hk, hx⟩ | ⟨l, hl, hx⟩
    · simp at hk
      subst hk
      rcases hx with hx | ⟨l, hl, hx⟩
      · exact hx.elim
      · have := h0 l x hl hx
        omega
    · simp [dets, detsFields] at hl
  · cases hj
    rcases hx with ⟨k, hk, hx⟩ | ⟨l, hl, hx⟩
    · simp at hk
      subst hk
      rcases hx with hx | ⟨l, hl, hx⟩
      · exact hx.elim
      · exact h1 l x hl hx
    · simp [dets, detsFields] at hl

/-- The example meets the hypotheses; it decodes a message. -/
example : AcnOk exGTy ∧ AcnGuarded exGTy ∧
    decodeAcn exGTy ⟨[2#8, 1#8, 0xAB#8, 0xCD#8, 0x5A#8, 0#8, 0#8], 7, 0, 0⟩ =
      .ok ((true, .seq [(true, .octets [0xAB#8, 0xCD#8]), (true, .seq [(true, .bits 2 [0x80#8]), (false, .null)])]), ⟨[2#8, 1#8, 0xAB#8, 0xCD#8, 0x5A#8, 0#8, 0#8], 7, 4, 6⟩) := by
  refine ⟨exGTy_ok, exGTy_guarded, ?_⟩
  simp only [decodeAcn, exGTy, decA, decAFields, decPresA]
  rfl

/-- The code violates C73, buffer overflow: the length of an OCTET STRING of at most two octets is a field of one octet declared as INTEGER (0..2). As the declared range does not
exceed the size the compiler leaves out the test of the length (BackendAst/Acn/AcnOctetBitStrings.fs:62-66), but the decoder of the field does not check its range: from the
message `03 AA BB CC` three octets are copied into the array of two. -/
theorem C73_violation_overflow :
    let t : ATy := .seq (.acn 0 none (.int 8 (.concrete 0 2) .const8 none) (.asn1 .mandatory (.octets 0 2 0 (some 2)) .nil))
    AcnOk t ∧ decodeAcn t ⟨[3#8, 0xAA#8, 0xBB#8, 0xCC#8], 4, 0, 0⟩ = .ub := by
  refine ⟨⟨by simp [AOk, AOkFields], by simp [Scoped, ScopedFields, AOpt.uses]⟩, ?_⟩
  simp only [decodeAcn, decA, decAFields, decPresA]
  rfl

/-- The code violates C73, the same for a BIT STRING of at most eight bits: the message `09 FF FF` makes the decoder write two octets. -/
theorem C73_violation_overflow_bits :
    let t : ATy := .seq (.acn 0 none (.int 8 (.concrete 0 8) .const8 none) (.asn1 .mandatory (.bits 0 8 0 (some 8)) .nil))
    AcnOk t ∧ decodeAcn t ⟨[9#8, 0xFF#8, 0xFF#8, 0#8], 4, 0, 0⟩ = .ub := by
  refine ⟨⟨by simp [AOk, AOkFields], by simp [Scoped, ScopedFields, AOpt.uses]⟩, ?_⟩
  simp only [decodeAcn, decA, decAFields, decPresA]
  rfl

/-- The code violates C73: a length that can be negative passes the test `length <= max` when the size has no lower bound; the message `FF` makes the decoder copy -1 octets with
`memcpy` (asn1crt/asn1crt_encoding.c:1450-1453). -/
theorem C73_violation_negative :
    let t : ATy := .seq (.acn 0 none (.int 8 (.concrete (-10) 20) .const8 none) (.asn1 .mandatory (.octets 0 2 0 (some 20)) .nil))
    AcnOk t ∧ decodeAcn t ⟨[0xFF#8, 0#8], 2, 0, 0⟩ = .ub := by
  refine ⟨⟨by simp [AOk, AOkFields], by simp [Scoped, ScopedFields, AOpt.uses]⟩, ?_⟩
  simp only [decodeAcn, decA, decAFields, decPresA]
  rfl

/-- The code violates C73: a determinant inside an OPTIONAL component, that describes a component behind it. The compiler accepts this (it only requires that the determinant comes
first); when the message says that the OPTIONAL component is absent the decoder reads a variable that has no value. -/
theorem C73_violation_uninitialised :
    let t : ATy := .seq (.asn1 (.optional .bit none) (.seq (.acn 0 none (.int 8 (.concrete 0 255) .const8 none) .nil)) (.asn1 .mandatory (.octets 0 20 0 (some 255)) .nil))
    AOk t ∧ AcnGuarded t ∧ decodeAcn t ⟨[0#8, 0#8], 2, 0, 0⟩ = .ub := by
  refine ⟨by simp [AOk, AOkFields], ?_, ?_⟩
  · simp only [AcnGuarded, AGuarded, AGuardedFields, LeafGuarded, IntGuarded, mayBe, dets, detsFields]
    refine ⟨⟨trivial, by simp, trivial⟩, .inr ?_, trivial⟩
    rintro x (h | ⟨l, hl, hx⟩)
    · exact h.elim
    · simp at hl
      subst hl
      simp [DetMay, IntMay, Rng.unsigned, IntEnc.under] at hx
      exact ⟨hx.1, .inr (fun m hm => by cases hm; decide)⟩
  · simp only [decodeAcn, decA, decAFields, decPresA]
    rfl

/-- The code violates C73: an INTEGER written in ASCII, two characters; the letter in the message `41 42` fails an assertion. -/
theorem C73_violation_ascii :
    let t : ATy := .leaf (.int 8 (.concrete 0 99) (.ascii 2) none)
    AcnOk t ∧ decodeAcn t ⟨[0x41#8, 0x42#8, 0#8], 3, 0, 0⟩ = .abort := by
  refine ⟨⟨by simp [AOk], by simp [Scoped]⟩, ?_⟩
  simp only [decodeAcn, decA, validA]
  rfl

/-- The code violates C73: a null terminated string of at most two characters without terminator: the runtime function writes a fourth octet into the array of three. -/
theorem C73_violation_string :
    let t : ATy := .strNull [0x41#8] 0 2 [0#8]
    AcnOk t ∧ decodeAcn t ⟨[0x41#8, 0x41#8, 0x41#8, 0x41#8, 0x41#8], 5, 0, 0⟩ = .ub := by
  refine ⟨⟨by simp [AOk], by simp [Scoped]⟩, ?_⟩
  simp only [decodeAcn, decA]
  exact Res.eq_ub (by decide +kernel)

end Asn1
