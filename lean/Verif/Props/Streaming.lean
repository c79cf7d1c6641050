import Verif.Proof.Streaming3
import Verif.Proof.Outcome
/-!
# C38: streaming

Two builds of the same source: `Prog.run` uses the primitives compiled without `ASN1SCC_STREAMING`, `Prog.sRun left` those
compiled with it, where `left sent buf` is what the user's `pushData` leaves in the buffer. `SStream.output` is everything
handed to `pushData` followed by the bytes of the last, partly filled buffer.
-/
namespace Asn1

/-- C38, full statement: for every program, every buffer size and every `pushData` that does not change the buffer size, the two
builds end alike and produce the same bytes. It is refuted below (`C38_violation_…`). -/
def C38_full : Prop :=
  ∀ (α : Type) (p : Prog α) (left : List Byte → List Byte → List Byte), Leaves false left → ∀ (n N : Nat), 0 < n →
    p.requested.length ≤ 8 * N → ∀ (buf big : List Byte), n ≤ buf.length → N ≤ big.length →
    ∃ s t, bitStreamInit2 buf n = .ok s ∧ bitStreamInit big N = .ok t ∧ SameOutcome (p.run t) (p.sRun left s)

/-- C38. The bytes handed to `pushData` and the last buffer are exactly what one large buffer would contain, for every program
over the append primitives and every buffer size, provided that `pushData` clears the buffer and each call is one of those
`Op.LegalAt` lists. What is missing for the full statement is false: see the violations. -/
theorem C38_partial {α : Type} (p : Prog α) {left : List Byte → List Byte → List Byte} (hleft : Leaves true left) {n N : Nat}
    (hn : 0 < n) (hp : LegalFrom true n 0 p.calls) (hN : p.requested.length ≤ 8 * N) {buf big : List Byte}
    (hbuf : n ≤ buf.length) (hbig : N ≤ big.length) :
    ∃ s t, bitStreamInit2 buf n = .ok s ∧ bitStreamInit big N = .ok t ∧ SameOutcome (p.run t) (p.sRun left s) := by
  obtain ⟨s, hs, hss⟩ := init2_sst (z := true) hn hbuf
  obtain ⟨t, ht, hts, hc, _⟩ := init_encSt hbig
  refine ⟨s, t, hs, ht, ?_⟩
  obtain ⟨a1, a2, a3⟩ := p.sRun_result hleft s [] hss hp
  obtain ⟨b1, b2, b3⟩ := p.run_result t [] 0 hts hp (by rw [hc, List.length_nil]; omega)
  cases hr : p.result with
  | ok a =>
    obtain ⟨s', h1, h2⟩ := a1 a hr
    obtain ⟨t', h3, h4⟩ := b1 a hr
    rw [h1, h3]
    exact ⟨rfl, bytesBits_inj (h2.output_bits.trans h4.output_bits.symm)⟩
  | ub => rw [a2 hr, b2 hr]; trivial
  | abort => rw [a3 hr, b3 hr]; trivial

/-- C38 for a `pushData` that leaves anything in the buffer: every bit that was written arrives. Calls are further restricted
(`z = false`), and the unused bits of the very last byte are not covered. -/
theorem C38_written_partial {α : Type} (p : Prog α) {left : List Byte → List Byte → List Byte} (hleft : Leaves false left) {n N : Nat}
    (hn : 0 < n) (hp : LegalFrom false n 0 p.calls) (hN : p.requested.length ≤ 8 * N) {buf big : List Byte}
    (hbuf : n ≤ buf.length) (hbig : N ≤ big.length) {a : α} {t t' : BitStream} (ht : bitStreamInit big N = .ok t)
    (hrun : p.run t = .ok (a, t')) :
    ∃ s s', bitStreamInit2 buf n = .ok s ∧ p.sRun left s = .ok (a, s') ∧
      bytesBits s'.sent ++ (bytesBits s'.st.buf).take s'.st.pos = (bytesBits t'.buf).take t'.pos := by
  obtain ⟨s, hs, hss⟩ := init2_sst (z := false) hn hbuf
  obtain ⟨t2, ht2, hts, hc, _⟩ := init_encSt hbig
  rw [ht] at ht2
  cases ht2
  obtain ⟨a1, a2, a3⟩ := p.sRun_result hleft s [] hss hp
  obtain ⟨b1, b2, b3⟩ := p.run_result t [] 0 hts hp (by rw [hc, List.length_nil]; omega)
  cases hr : p.result with
  | ok b =>
    obtain ⟨t3, h3, h4⟩ := b1 b hr
    rw [hrun] at h3
    cases h3
    obtain ⟨s', h1, h2⟩ := a1 a hr
    exact ⟨s, s', hs, h1, h2.bits.trans h4.take_bits.symm⟩
  | ub => have := b2 hr; rw [hrun] at this; cases this
  | abort => have := b3 hr; rw [hrun] at this; cases this

/-- A program whose calls are easy streams what it appends. -/
theorem stream_codeword {p : Prog Unit} {f : M Unit} {w : List Bool} (hrun : p.run = f) (he : p.Easy) (ha : Appends f () w)
    {left : List Byte → List Byte → List Byte} (hleft : Leaves true left) {n : Nat} (hn : 8 ≤ n) {buf : List Byte}
    (hbuf : n ≤ buf.length) :
    ∃ s s', bitStreamInit2 buf n = .ok s ∧ p.sRun left s = .ok ((), s') ∧ Packed w s'.output := by
  obtain ⟨s, hs, hss⟩ := init2_sst (z := true) (by omega : 0 < n) hbuf
  obtain ⟨hr, hq⟩ := p.appends_requested he (by rw [hrun]; exact ha)
  obtain ⟨s', h1, h2⟩ := (p.sRun_result hleft s [] hss (legalFrom_of_easy hn _ _ he)).1 () hr
  refine ⟨s, s', hs, h1, ?_⟩
  have := h2.output_bits
  rw [List.nil_append, hq] at this
  have hl : s'.output.length = (w.length + 7) / 8 := by
    have := congrArg List.length this
    rw [bytesBits_length, List.length_append, List.length_replicate] at this
    omega
  exact ⟨hl, by rw [hl]; exact this⟩

/-- C38. With a cleared buffer of any size from 8 bytes on, the integer encoders stream exactly the code words they are
specified to write into one buffer. -/
theorem C38_integers_partial {left : List Byte → List Byte → List Byte} (hleft : Leaves true left) {n : Nat} (hn : 8 ≤ n)
    {buf : List Byte} (hbuf : n ≤ buf.length) :
    (∀ v lo hi : Int, lo ≤ v → v ≤ hi → hi - lo < 2 ^ 63 → ∃ s s', bitStreamInit2 buf n = .ok s ∧
      (Src.encodeConstraintWholeNumber v lo hi).sRun left s = .ok ((), s') ∧ Packed (constrainedCode lo hi v) s'.output) ∧
    (∀ v lo hi : U64, lo ≤ v → v ≤ hi → ∃ s s', bitStreamInit2 buf n = .ok s ∧
      (Src.encodeConstraintPosWholeNumber v lo hi).sRun left s = .ok ((), s') ∧
      Packed (constrainedCode lo.toNat hi.toNat v.toNat) s'.output) ∧
    (∀ v lo : Int, lo ≤ v → v - lo < 2 ^ 63 → ∃ s s', bitStreamInit2 buf n = .ok s ∧
      (Src.encodeSemiConstraintWholeNumber v lo).sRun left s = .ok ((), s') ∧ Packed (lengthPrefixedNat (v - lo).toNat) s'.output) ∧
    (∀ v lo : U64, lo ≤ v → ∃ s s', bitStreamInit2 buf n = .ok s ∧
      (Src.encodeSemiConstraintPosWholeNumber v lo).sRun left s = .ok ((), s') ∧
      Packed (lengthPrefixedNat (v.toNat - lo.toNat)) s'.output) ∧
    (∀ v : Int, -(2 ^ 63) < v → v < 2 ^ 63 → ∃ s s', bitStreamInit2 buf n = .ok s ∧
      (Src.encodeUnConstraintWholeNumber v).sRun left s = .ok ((), s') ∧ Packed (lengthPrefixedInt v) s'.output) :=
  ⟨fun v lo hi h1 h2 h3 => stream_codeword (Src.encodeConstraintWholeNumber_run v lo hi) (Src.encodeConstraintWholeNumber_easy h1 h2)
      (encodeConstraintWholeNumber_appends h1 h2 h3) hleft hn hbuf,
   fun v lo hi h1 h2 => stream_codeword (Src.encodeConstraintPosWholeNumber_run v lo hi) Src.encodeConstraintPosWholeNumber_easy
      (encodeConstraintPosWholeNumber_appends h1 h2) hleft hn hbuf,
   fun v lo h1 h2 => stream_codeword (Src.encodeSemiConstraintWholeNumber_run v lo) (Src.encodeSemiConstraintWholeNumber_easy v lo)
      (encodeSemiConstraintWholeNumber_appends h1 h2) hleft hn hbuf,
   fun v lo h1 => stream_codeword (Src.encodeSemiConstraintPosWholeNumber_run v lo) (Src.encodeSemiConstraintPosWholeNumber_easy v lo)
      (encodeSemiConstraintPosWholeNumber_appends h1) hleft hn hbuf,
   fun v h1 h2 => stream_codeword (Src.encodeUnConstraintWholeNumber_run v) (Src.encodeUnConstraintWholeNumber_easy h2)
      (encodeUnConstraintWholeNumber_appends h1 h2) hleft hn hbuf⟩

/-- C38. The programs named `Src.…` are the integer encoders of the other properties: built without streaming they are the same
functions. -/
theorem C38_source :
    (∀ v lo hi, (Src.encodeConstraintWholeNumber v lo hi).run = encodeConstraintWholeNumber v lo hi) ∧
    (∀ v lo hi, (Src.encodeConstraintPosWholeNumber v lo hi).run = encodeConstraintPosWholeNumber v lo hi) ∧
    (∀ v lo, (Src.encodeSemiConstraintWholeNumber v lo).run = encodeSemiConstraintWholeNumber v lo) ∧
    (∀ v lo, (Src.encodeSemiConstraintPosWholeNumber v lo).run = encodeSemiConstraintPosWholeNumber v lo) ∧
    (∀ v, (Src.encodeUnConstraintWholeNumber v).run = encodeUnConstraintWholeNumber v) ∧
    (∀ src n, (Src.appendBits src n).run = appendBits src n) ∧ (∀ n, (Src.appendNBitOne n).run = appendNBitOne n) :=
  ⟨Src.encodeConstraintWholeNumber_run, Src.encodeConstraintPosWholeNumber_run, Src.encodeSemiConstraintWholeNumber_run,
   Src.encodeSemiConstraintPosWholeNumber_run, Src.encodeUnConstraintWholeNumber_run, Src.appendBits_run, Src.appendNBitOne_run⟩

/-! ### The hypotheses can be met -/

/-- A `pushData` that clears the buffer. -/
def clearing : List Byte → List Byte → List Byte := fun _ b => List.replicate b.length 0#8

/-- The `pushData` of the example that comes with the compiler, Docs/examples/streaming_mode/c_out/mainprogram.c:89-93: it writes
the bytes to a file and does not change the buffer. -/
def documented : List Byte → List Byte → List Byte := fun _ b => b

theorem clearing_leaves (z : Bool) : Leaves z clearing := ⟨fun _ _ => by simp [clearing], fun _ _ _ => rfl⟩
theorem documented_leaves : Leaves false documented := ⟨fun _ _ => rfl, fun h => by cases h⟩

/-- Three integers through a buffer of two bytes. -/
example : LegalFrom true 2 0 (do
    Src.encodeConstraintWholeNumber 700 0 1000
    Src.encodeConstraintWholeNumber 3 0 1000
    Src.encodeUnConstraintWholeNumber (-5) : Prog Unit).calls := by
  decide +kernel

example : ∃ s s', bitStreamInit2 [0xAA#8, 0xBB#8] 2 = .ok s ∧ (do
    Src.encodeConstraintWholeNumber 700 0 1000
    Src.encodeConstraintWholeNumber 3 0 1000
    Src.encodeUnConstraintWholeNumber (-5) : Prog Unit).sRun clearing s = .ok ((), s') ∧
    s'.sent = [0xAF#8, 0x00#8, 0x30#8, 0x1F#8] ∧ s'.output = [0xAF#8, 0x00#8, 0x30#8, 0x1F#8, 0xB0#8] := by
  refine ⟨⟨⟨[0x00#8, 0x00#8], 2, 0, 0⟩, []⟩, ⟨⟨[0xB0#8, 0x00#8], 2, 0, 4⟩, [0xAF#8, 0x00#8, 0x30#8, 0x1F#8]⟩, ?_⟩
  decide +kernel

/-- Bits, a byte and an aligned octet string with the documented `pushData`. -/
example : LegalFrom false 1 0 [.byte 0xFF#8 false, .bitOne, .part 5#8 3 false, .byte 0x12#8 true, .bitZero, .part 0#8 3 false,
    .octets [7#8] 1] := by
  decide +kernel

/-! ### Violations -/

/-- Two INTEGER(0..255) fields, 255 and 5, through a buffer of one byte with the documented `pushData`: the receiver gets FF FD
and not FF 05, because `BitStream_AppendNBitZero` moves the cursor over bits that are still set. -/
theorem C38_violation_stale : ∃ s s' t t', bitStreamInit2 [0#8] 1 = .ok s ∧ bitStreamInit [0#8, 0#8] 2 = .ok t ∧
    (do Src.encodeConstraintWholeNumber 255 0 255; Src.encodeConstraintWholeNumber 5 0 255 : Prog Unit).sRun documented s = .ok ((), s') ∧
    (do Src.encodeConstraintWholeNumber 255 0 255; Src.encodeConstraintWholeNumber 5 0 255 : Prog Unit).run t = .ok ((), t') ∧
    s'.output = [0xFF#8, 0xFD#8] ∧ t'.buf.take (bitStreamGetLength t') = [0xFF#8, 0x05#8] := by
  refine ⟨⟨⟨[0#8], 1, 0, 0⟩, []⟩, ⟨⟨[0xFD#8], 1, 0, 0⟩, [0xFF#8, 0xFD#8]⟩, ⟨[0#8, 0#8], 2, 0, 0⟩, ⟨[0xFF#8, 0x05#8], 2, 2, 0⟩, ?_⟩
  decide +kernel

/-- The unused bits of the last byte are stale as well: FF and then one zero bit give FF 7F. -/
theorem C38_violation_padding : ∃ s s', bitStreamInit2 [0#8] 1 = .ok s ∧
    (do Prog.do_ (.byte 0xFF#8 false); Prog.do_ .bitZero : Prog Unit).sRun documented s = .ok ((), s') ∧
    s'.output = [0xFF#8, 0x7F#8] := by
  refine ⟨⟨⟨[0#8], 1, 0, 0⟩, []⟩, ⟨⟨[0x7F#8], 1, 0, 1⟩, [0xFF#8]⟩, ?_⟩
  decide +kernel

/-- A partial byte that is cut by a byte boundary is OR-ed into what the buffer held: 11111 and 10000 through a buffer of one byte
arrive as 11111 10011, although no row of zeros is involved. -/
theorem C38_violation_partial_byte : ∃ s s' t t', bitStreamInit2 [0#8] 1 = .ok s ∧ bitStreamInit [0#8, 0#8] 2 = .ok t ∧
    (do Prog.do_ (.part 0x1F#8 5 false); Prog.do_ (.part 0x10#8 5 false) : Prog Unit).sRun documented s = .ok ((), s') ∧
    (do Prog.do_ (.part 0x1F#8 5 false); Prog.do_ (.part 0x10#8 5 false) : Prog Unit).run t = .ok ((), t') ∧
    s'.output = [0xFC#8, 0xC0#8] ∧ t'.buf.take (bitStreamGetLength t') = [0xFC#8, 0x00#8] := by
  refine ⟨⟨⟨[0#8], 1, 0, 0⟩, []⟩, ⟨⟨[0xC0#8], 1, 0, 2⟩, [0xFC#8]⟩, ⟨[0#8, 0#8], 2, 0, 0⟩, ⟨[0xFC#8, 0x00#8], 2, 1, 2⟩, ?_⟩
  decide +kernel

/-- An octet string that does not fit into the rest of the buffer repeats its first bytes, even if the buffer is cleared: 01 02
through a buffer of one byte arrives as 01 01. -/
theorem C38_violation_octets : ∃ s s', bitStreamInit2 [0#8] 1 = .ok s ∧
    (Prog.call (.octets [1#8, 2#8] 2)).sRun clearing s = .ok (true, s') ∧ s'.output = [1#8, 1#8] := by
  refine ⟨⟨⟨[0#8], 1, 0, 0⟩, []⟩, ⟨⟨[0#8], 1, 0, 0⟩, [1#8, 1#8]⟩, ?_⟩
  decide +kernel

/-- The same string one bit further is refused, although `pushData` would make room. -/
theorem C38_violation_refused : ∃ s s', bitStreamInit2 [0#8, 0#8] 2 = .ok s ∧
    (do Prog.do_ .bitOne; Prog.call (.octets [1#8, 2#8] 2)).sRun clearing s = .ok (false, s') ∧ s'.output = [0x80#8] := by
  refine ⟨⟨⟨[0#8, 0#8], 2, 0, 0⟩, []⟩, ⟨⟨[0x80#8, 0#8], 2, 0, 1⟩, []⟩, ?_⟩
  decide +kernel

/-- A row of zeros longer than the next buffer leaves the cursor outside of the buffer: the next bit is written out of bounds. -/
theorem C38_violation_zeros : ∃ s, bitStreamInit2 [0#8] 1 = .ok s ∧
    (do Prog.do_ (.zeros 24); Prog.do_ .bitOne : Prog Unit).sRun clearing s = .ub := by
  refine ⟨⟨⟨[0#8], 1, 0, 0⟩, []⟩, rfl, Res.eq_ub (by decide +kernel)⟩

/-- The full statement is false. -/
theorem C38_violation : ¬ C38_full := by
  intro h
  obtain ⟨s, t, hs, ht, hso⟩ := h Bool (Prog.call (.octets [1#8, 2#8] 2)) clearing (clearing_leaves false) 1 2 (by decide)
    (by decide +kernel) [0#8] [0#8, 0#8] (by decide) (by decide)
  have e1 : (Prog.call (.octets [1#8, 2#8] 2)).run ⟨[0#8, 0#8], 2, 0, 0⟩ = .ok (true, ⟨[1#8, 2#8], 2, 2, 0⟩) := by decide +kernel
  have e2 : (Prog.call (.octets [1#8, 2#8] 2)).sRun clearing ⟨⟨[0#8], 1, 0, 0⟩, []⟩ = .ok (true, ⟨⟨[0#8], 1, 0, 0⟩, [1#8, 1#8]⟩) := by
    decide +kernel
  have e3 : bitStreamInit2 [0#8] 1 = .ok ⟨⟨[0#8], 1, 0, 0⟩, []⟩ := by decide +kernel
  have e4 : bitStreamInit [0#8, 0#8] 2 = .ok ⟨[0#8, 0#8], 2, 0, 0⟩ := by decide +kernel
  rw [e3] at hs
  rw [e4] at ht
  rw [← Res.ok.inj hs, ← Res.ok.inj ht, e1, e2] at hso
  exact absurd hso.2 (by decide)

end Asn1
