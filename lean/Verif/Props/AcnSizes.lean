import Verif.Proof.AcnSizes
import Verif.Props.AcnGen
/-!
# Announced ACN sizes: C74
-/
namespace Asn1

/-- C74, upper bound: at whatever position it is written, the ACN encoding of a valid value has at most `REQUIRED_BITS_FOR_ACN_ENCODING` bits, padding and inserted fields included.
Missing: what `AcnOk` and the model leave out (`Verif/Model/AcnGen.lean`), and the types `PlainSizes` excludes. -/
theorem C74_max_partial (t : ATy) (v : Val) (p : Nat) (hok : AcnOk t) (hp : APlain t) (hv : AcnValid t v) : (acnCode t v p).length ≤ acnMaxBits t :=
  acode_le t _ v p hok.1 hp hv

/-- C74, lower bound. Missing: lists that are not empty with elements of different sizes (`C74_violation_min_list`), components that are always absent
(`C74_violation_min_absent`). -/
theorem C74_min_partial (t : ATy) (v : Val) (p : Nat) (hok : AcnOk t) (hp : APlain t) (hm : APlainMin t) (hv : AcnValid t v) :
    acnMinBits t ≤ (acnCode t v p).length :=
  acode_ge t _ v p hok.1 hp hm hv

/-- C74: a buffer of `REQUIRED_BYTES_FOR_ACN_ENCODING` octets is enough. Whatever it contains, initialising a stream on it and encoding any valid value succeeds, stays inside, and
decoding the buffer from its start gives the value back. -/
theorem C74_buffer_partial (t : ATy) (v : Val) (bCheckConstraints : Bool) (hok : AcnOk t) (hp : APlain t) (hv : AcnValid t v)
    (buf : List Byte) (hb : buf.length = acnRequiredBytes t) :
    ∃ s0 s', bitStreamInit buf (acnRequiredBytes t) = .ok s0 ∧ encodeAcn t v bCheckConstraints s0 = .ok (true, s') ∧
      bitStreamGetLength s' ≤ acnRequiredBytes t ∧ s'.buf.length = buf.length ∧
      ∃ t', decodeAcn t { s' with currentByte := 0, currentBit := 0 } = .ok ((true, v), t') := by
  obtain ⟨s0, h0, henc, hcount, hlen, _⟩ := init_encSt (buf := buf) (count := acnRequiredBytes t) (by omega)
  have hle := C74_max_partial t v 0 hok hp hv
  have hp0 : s0.pos = 0 := henc.pos
  have hroom : ([] : List Bool).length + (acnCode t v ([] : List Bool).length).length ≤ 8 * s0.count := by
    rw [hcount, acnRequiredBytes, List.length_nil]; omega
  obtain ⟨s', h1, h2, _, h4, h5⟩ := C71_roundtrip_partial t v bCheckConstraints hok hv s0 [] henc hroom
  rw [hp0] at h2
  dsimp only at h2
  have hwf : Wf { s' with currentByte := 0, currentBit := 0 } :=
    ⟨by show 0 < 8; omega, by show s'.count ≤ s'.buf.length; rw [h4.count, h4.len, hlen, hcount]; omega⟩
  obtain ⟨t', h6, _⟩ := h5 { s' with currentByte := 0, currentBit := 0 } hwf (by rw [hp0]; rfl)
    (by show s'.pos ≤ 8 * s'.count; rw [h4.count, h2, hcount, acnRequiredBytes]; omega)
    (fun i _ _ => rfl)
  refine ⟨s0, s', h0, h1, ?_, by rw [h4.len, hlen], t', h6⟩
  have hpos : 8 * s'.currentByte + s'.currentBit ≤ acnMaxBits t := by
    have : s'.pos = 8 * s'.currentByte + s'.currentBit := rfl
    rw [← this, h2]; omega
  unfold bitStreamGetLength acnRequiredBytes
  split <;> omega

theorem exATy_plain : APlain exATy := by
  simp [exATy, APlain, APlainFields, APlainAlts, PlainSizes]

/-- The example meets the hypotheses; its value takes 139 bits. -/
example : AcnOk exATy ∧ APlain exATy ∧ APlainMin exATy ∧ AcnValid exATy exAVal ∧ acnMinBits exATy = 84 ∧ acnMaxBits exATy = 433 ∧ acnRequiredBytes exATy = 55 :=
  ⟨exATy_ok, exATy_plain, by simp [exATy, APlainMin, APlainMinFields, APlainMinAlts, PlainMin], exAVal_valid, by decide +kernel, by decide +kernel, by decide +kernel⟩

/-- The code violates C74: the minimum announced for `SEQUENCE (SIZE (1..3)) OF OCTET STRING (SIZE (0..3))` is 28 bits, a list of one empty string takes 4. -/
theorem C74_violation_min_list :
    let t : ATy := .seqOf 1 3 none (.prim (.octets 0 3))
    let v : Val := .seqOf [.octets []]
    AcnOk t ∧ APlain t ∧ AcnValid t v ∧ acnMinBits t = 28 ∧ (acnCode t v 0).length = 4 := by
  refine ⟨?_, ?_, ?_, by decide +kernel, ?_⟩
  · simp [AcnOk, AOk, Scoped, Ok, Ty.simple]
  · simp [APlain, PlainSizes]
  · simp [AcnValid, AValid, Valid]
  · simp only [acnCode, acode, itemsCode, followedBy, code]
    decide +kernel

/-- The code violates C74: a component that a WITH COMPONENTS makes absent counts in the announced minimum. -/
theorem C74_violation_min_absent :
    let t : ATy := .seq (.asn1 .absent (.prim .bool) .nil)
    let v : Val := .seq [(false, .null)]
    AcnOk t ∧ APlain t ∧ AcnValid t v ∧ acnMinBits t = 1 ∧ (acnCode t v 0).length = 0 := by
  refine ⟨?_, ?_, ?_, by decide +kernel, ?_⟩
  · simp [AcnOk, AOk, AOkFields, Scoped, ScopedFields, Ok, Ty.simple, AOpt.uses]
  · simp [APlain, APlainFields, PlainSizes]
  · simp [AcnValid, AValid, AValidFields]
  · simp [acnCode, acode, acodeFields, followedBy, presACode]

end Asn1
