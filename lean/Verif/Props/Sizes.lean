import Verif.Proof.Sizes
import Verif.Props.Constraint
/-!
# Announced sizes: C34
-/
namespace Asn1

/-- C34, upper bound: the encoding of a valid value has at most `REQUIRED_BITS_FOR_ENCODING` bits, for all types of
unbounded nesting. Missing: a BIT STRING whose size is narrowed by WITH COMPONENTS (`C34_violation_bits`), an INTEGER with an
extension marker and further constraints (`C34_violation_serial`). -/
theorem C34_max_partial (t : Ty) (v : Val) (hok : Ok t) (hp : PlainSizes t) (hv : Valid t v) :
    (code false t v).length ≤ maxBits t :=
  code_le t v hok hp hv

/-- C34, lower bound: it has at least the computed minimum. Missing: sizes of 65536 and more in a range of more than 256
(`C34_violation_min_size`), INTEGER with a bounded extensible root (`C34_violation_min_int`). -/
theorem C34_min_partial (t : Ty) (v : Val) (hok : Ok t) (hp : PlainSizes t) (hm : PlainMin t) (hv : Valid t v) :
    minBits t ≤ (code false t v).length :=
  code_ge t v hok hp hm hv

/-- C34: a buffer of `REQUIRED_BYTES_FOR_ENCODING` octets is enough. Whatever it contains, initialising a stream on it
and encoding any valid value succeeds, stays inside, and decoding the buffer from its start gives the value back. -/
theorem C34_buffer_partial (t : Ty) (v : Val) (bCheckConstraints : Bool) (hok : Ok t) (hp : PlainSizes t) (hv : Valid t v)
    (buf : List Byte) (hb : buf.length = requiredBytes t) :
    ∃ s0 s', bitStreamInit buf (requiredBytes t) = .ok s0 ∧ encodeType t v bCheckConstraints s0 = .ok (true, s') ∧
      bitStreamGetLength s' ≤ requiredBytes t ∧ s'.buf.length = buf.length ∧
      ∃ t', decodeType t { s' with currentByte := 0, currentBit := 0 } = .ok ((true, v), t') := by
  obtain ⟨s0, h0, henc, hcount, hlen, _⟩ := init_encSt (buf := buf) (count := requiredBytes t) (by omega)
  have hle := code_le t v hok hp hv
  have hroom : ([] : List Bool).length + (code false t v).length ≤ 8 * s0.count := by
    rw [hcount, requiredBytes, List.length_nil]; omega
  obtain ⟨s', h1, h2, _, h4, h5⟩ := C35_roundtrip_partial t v bCheckConstraints hok hv s0 [] henc hroom
  have hp0 : s0.pos = 0 := henc.pos
  have hwf : Wf { s' with currentByte := 0, currentBit := 0 } :=
    ⟨by show 0 < 8; omega, by show s'.count ≤ s'.buf.length; rw [h4.count, h4.len, hlen, hcount]; omega⟩
  obtain ⟨t', h6, _⟩ := h5 { s' with currentByte := 0, currentBit := 0 } hwf (by rw [hp0]; rfl)
    (by show s'.pos ≤ 8 * s'.count; rw [h4.count, h2, hp0, hcount, requiredBytes]; omega)
    (fun i _ _ => rfl)
  refine ⟨s0, s', h0, h1, ?_, by rw [h4.len, hlen], t', h6⟩
  have hpos : 8 * s'.currentByte + s'.currentBit ≤ maxBits t := by
    have : s'.pos = 8 * s'.currentByte + s'.currentBit := rfl
    rw [← this, h2, hp0]; omega
  unfold bitStreamGetLength requiredBytes
  split <;> omega

theorem exTy_plain : PlainSizes exTy := by
  simp [exTy, PlainSizes, PlainSizesFields, PlainSizesAlts]

example : Ok exTy ∧ PlainSizes exTy ∧ Valid exTy exVal ∧ maxBits exTy = 11690046 :=
  ⟨exTy_ok, exTy_plain, exVal_valid, by decide +kernel⟩

/-- A type for the lower bound. -/
def exTyMin : Ty :=
  .seq (.cons .optional (.intExt (.posInf 0) (fun v => decide (0 ≤ v)) none)
    (.cons .mandatory (.octets 2 300) (.cons .mandatory (.seqOf 1 200 .bool) .nil)))

/-- A value of it. -/
def exValMin : Val := .seq [(true, .int 7), (true, .octets [1#8, 2#8]), (true, .seqOf [.bool true])]

example : Ok exTyMin ∧ PlainSizes exTyMin ∧ PlainMin exTyMin ∧ Valid exTyMin exValMin ∧ minBits exTyMin = 35 := by
  refine ⟨?_, ?_, ?_, ?_, by decide +kernel⟩
  · simp [exTyMin, Ok, OkFields, Rng.ok, Rng.contains]
  · simp [exTyMin, PlainSizes, PlainSizesFields]
  · simp [exTyMin, PlainMin, PlainMinFields, NarrowSize]
  · simp [exTyMin, exValMin, Valid, ValidFields, Rng.holds64]

/-- The code violates C34: for a BIT STRING component `(SIZE (0..100))` narrowed by `WITH COMPONENTS { b (SIZE (3)) }` it
announces 3 bits and one octet, while the length determinant alone takes 7 bits; encoding into the announced buffer writes
behind its end. -/
theorem C34_violation_bits :
    Valid (.bits 0 100 3 3) (.bits 3 [0xA0#8]) ∧ requiredBytes (.bits 0 100 3 3) = 1 ∧
    (code false (.bits 0 100 3 3) (.bits 3 [0xA0#8])).length = 10 ∧
    ∃ s0, bitStreamInit [0#8] 1 = .ok s0 ∧ encodeType (.bits 0 100 3 3) (.bits 3 [0xA0#8]) true s0 = .ub := by
  refine ⟨?_, by decide, ?_, _, rfl, ?_⟩
  · simp only [Valid]
    exact ⟨by omega, by omega, by omega, by omega, [true, false, true], rfl, rfl, by decide +kernel⟩
  · simp only [code]
    decide +kernel
  · simp only [encodeType, isValid]
    unfold encTy
    decide

/-- The code violates C34: the minimum announced for `OCTET STRING (SIZE (0..70000))` is 17 bits, the empty string takes 8. -/
theorem C34_violation_min_size :
    Ok (.octets 0 70000) ∧ Valid (.octets 0 70000) (.octets []) ∧ minBits (.octets 0 70000) = 17 ∧
    (code false (.octets 0 70000) (.octets [])).length = 8 := by
  refine ⟨by simp [Ok], by simp [Valid], by decide +kernel, ?_⟩
  simp only [code]
  decide +kernel

/-- The code violates C34: the minimum announced for `INTEGER (0..1, ...)` is 9 bits, the value 0 takes 2. -/
theorem C34_violation_min_int :
    Valid (.intExt (.concrete 0 1) (fun v => decide (0 ≤ v ∧ v ≤ 1)) none) (.int 0) ∧
    minBits (.intExt (.concrete 0 1) (fun v => decide (0 ≤ v ∧ v ≤ 1)) none) = 9 ∧
    (code false (.intExt (.concrete 0 1) (fun v => decide (0 ≤ v ∧ v ≤ 1)) none) (.int 0)).length = 2 := by
  refine ⟨by simp [Valid, Rng.holds64], by decide +kernel, ?_⟩
  simp only [code]
  decide +kernel

/-- The code violates C34: for `INTEGER (0..10, ..., 20..30) (0..25)` the range used for the announced size is `0..25`, which
gives 1 + 5 bits; the value 22, outside the root, takes 17. -/
theorem C34_violation_serial :
    intRange [.root2 (.leaf (.range 0 10 true true)) (.leaf (.range 20 30 true true)), .leaf (.range 0 25 true true)]
      = some (.concrete 0 25) ∧
    IntSat [.root2 (.leaf (.range 0 10 true true)) (.leaf (.range 20 30 true true)), .leaf (.range 0 25 true true)] 22 ∧
    1 + intMaxBits (.concrete 0 25) = 6 ∧
    (intExtCode (.concrete 0 10) (fun v => decide (0 ≤ v ∧ v ≤ 10)) 22).length = 17 := by
  refine ⟨rfl, ?_, by decide +kernel, by decide +kernel⟩
  intro c hc
  simp only [List.mem_cons, List.not_mem_nil, or_false] at hc
  rcases hc with rfl | rfl <;> simp [Con.Sat, RLeaf.Sat]

end Asn1
