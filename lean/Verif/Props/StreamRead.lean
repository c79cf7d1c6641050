import Verif.Proof.StreamRead2
import Verif.Props.Stream
import Verif.Proof.Outcome
/-!
# C62: reading with streaming

`RProg.run` is a decoder compiled without `ASN1SCC_STREAMING`, reading a message that lies in one buffer; `RProg.sRun` is the
same source compiled with it, where the message comes in pieces of `n` bytes through the documented `fetchData`.
-/
namespace Asn1

/-- C62, full statement: whatever a decoder returns for a message in one buffer, it returns when the message comes in pieces. It is
refuted below (`C62_violation_…`). -/
def C62_full : Prop :=
  ∀ (α : Type) (p : RProg α) (n : Nat) (msg behind slack : List Byte), 0 < n → n ≤ msg.length → ∀ (a : α) (t' : BitStream),
    p.run (bitStreamAttach (msg ++ slack) msg.length) = .ok (a, t') → ∃ s', p.sRun (bitStreamAttach2 msg n behind) = .ok (a, s')

/-- C62 for decoders whose calls all stay inside the message and are among those `ROp.LegalAt` lists: they end the same way with
the same result. What is missing for the full statement is false: see the violations. -/
theorem C62_partial {α : Type} (p : RProg α) {n : Nat} (hn : 0 < n) {msg behind slack : List Byte} (hmsg : n ≤ msg.length)
    (hl : p.LegalOn n (bitStreamAttach (msg ++ slack) msg.length)) :
    SameAnswer (p.run (bitStreamAttach (msg ++ slack) msg.length)) (p.sRun (bitStreamAttach2 msg n behind)) := by
  rcases p.sim hn _ _ (sim_start hn hmsg) hl with ⟨b, s', t'', e1, e2, -⟩ | ⟨e1, e2⟩ | ⟨e1, e2⟩
  · rw [e1, e2]; exact rfl
  · rw [e1, e2]; trivial
  · rw [e1, e2]; trivial

/-- A message that begins with the code word. -/
theorem message_reads {α : Type} {f : M α} {a : α} {w rest : List Bool} (hf : Reads f a w) {msg slack : List Byte}
    (h : bytesBits msg = w ++ rest) : ∃ t', f (bitStreamAttach (msg ++ slack) msg.length) = .ok (a, t') := by
  have hd := attach_decSt (buf := msg ++ slack) (count := msg.length) (by rw [List.length_append]; omega)
  rw [List.take_left, h] at hd
  obtain ⟨t', e, -⟩ := hf _ _ hd
  exact ⟨t', e⟩

theorem fine_streams {α : Type} {p : RProg (Bool × α)} {f : M (Bool × α)} {b : Bool} {n : Nat} {a : α} {w rest : List Bool}
    (hrun : p.run = f) (hfine : Fine n b p) (hf : Reads f (true, a) w) (hn : 0 < n) {msg behind : List Byte} (hmsg : n ≤ msg.length)
    (h : bytesBits msg = w ++ rest) : ∃ s', p.sRun (bitStreamAttach2 msg n behind) = .ok ((true, a), s') := by
  obtain ⟨t', e⟩ := message_reads (slack := []) hf h
  rw [← hrun] at e
  exact streamed hn hmsg (hfine _ _ _ attach_atByte e rfl).1 e

/-- C62 for the integer decoders, for every buffer size, when the code word begins at a byte boundary: they read the value. -/
theorem C62_integers_partial {n : Nat} (hn : 0 < n) {msg behind : List Byte} (hmsg : n ≤ msg.length) {rest : List Bool} :
    (∀ v lo hi : Int, lo ≤ v → v ≤ hi → hi - lo < 2 ^ 63 → -(2 ^ 63) ≤ lo → hi < 2 ^ 63 →
      bytesBits msg = constrainedCode lo hi v ++ rest →
      ∃ s', (Src.decodeConstraintWholeNumber lo hi).sRun (bitStreamAttach2 msg n behind) = .ok ((true, v), s')) ∧
    (∀ v lo hi : U64, lo ≤ v → v ≤ hi → bytesBits msg = constrainedCode lo.toNat hi.toNat v.toNat ++ rest →
      ∃ s', (Src.decodeConstraintPosWholeNumber lo hi).sRun (bitStreamAttach2 msg n behind) = .ok ((true, v), s')) ∧
    (∀ v lo : Int, lo ≤ v → v - lo < 2 ^ 63 → -(2 ^ 63) ≤ lo → v < 2 ^ 63 → bytesBits msg = lengthPrefixedNat (v - lo).toNat ++ rest →
      ∃ s', (Src.decodeSemiConstraintWholeNumber lo).sRun (bitStreamAttach2 msg n behind) = .ok ((true, v), s')) ∧
    (∀ v lo : U64, lo ≤ v → bytesBits msg = lengthPrefixedNat (v.toNat - lo.toNat) ++ rest →
      ∃ s', (Src.decodeSemiConstraintPosWholeNumber lo).sRun (bitStreamAttach2 msg n behind) = .ok ((true, v), s')) ∧
    (∀ v : Int, -(2 ^ 63) ≤ v → v < 2 ^ 63 → bytesBits msg = lengthPrefixedInt v ++ rest →
      ∃ s', Src.decodeUnConstraintWholeNumber.sRun (bitStreamAttach2 msg n behind) = .ok ((true, v), s')) := by
  refine ⟨fun v lo hi h1 h2 h3 h4 h5 h => ?_, fun v lo hi h1 h2 h => ?_, fun v lo h1 h2 h3 h4 h => ?_, fun v lo h1 h => ?_,
    fun v h1 h2 h => ?_⟩
  · exact fine_streams (Src.decodeConstraintWholeNumber_run lo hi) (Src.decodeConstraintWholeNumber_fine n lo hi)
      (decodeConstraintWholeNumber_reads h1 h2 h3 h4 h5).1 hn hmsg h
  · exact fine_streams (Src.decodeConstraintPosWholeNumber_run lo hi) (Src.decodeConstraintPosWholeNumber_fine n lo hi)
      (decodeConstraintPosWholeNumber_reads h1 h2).1 hn hmsg h
  · exact fine_streams (Src.decodeSemiConstraintWholeNumber_run lo) (Src.decodeSemiConstraintWholeNumber_fine n lo)
      (decodeSemiConstraintWholeNumber_reads h1 h2 h3 h4).1 hn hmsg h
  · exact fine_streams (Src.decodeSemiConstraintPosWholeNumber_run lo) (Src.decodeSemiConstraintPosWholeNumber_fine n lo)
      (decodeSemiConstraintPosWholeNumber_reads h1).1 hn hmsg h
  · obtain ⟨t', e⟩ := message_reads (slack := []) (decodeUnConstraintWholeNumber_reads h1 h2).1 h
    have hd := attach_decSt (buf := msg ++ []) (count := msg.length) (by rw [List.length_append]; omega)
    rw [List.take_left, h] at hd
    have hl := Src.decodeUnConstraintWholeNumber_legal (n := n) h1 h2 attach_atByte hd
    rw [← Src.decodeUnConstraintWholeNumber_run] at e
    exact streamed hn hmsg hl e

/-- C62. The programs named `Src.…` are the integer decoders of the other properties: built without streaming they are the same
functions. -/
theorem C62_source :
    (∀ lo hi, (Src.decodeConstraintWholeNumber lo hi).run = decodeConstraintWholeNumber lo hi) ∧
    (∀ lo hi, (Src.decodeConstraintPosWholeNumber lo hi).run = decodeConstraintPosWholeNumber lo hi) ∧
    (∀ lo, (Src.decodeSemiConstraintWholeNumber lo).run = decodeSemiConstraintWholeNumber lo) ∧
    (∀ lo, (Src.decodeSemiConstraintPosWholeNumber lo).run = decodeSemiConstraintPosWholeNumber lo) ∧
    Src.decodeUnConstraintWholeNumber.run = decodeUnConstraintWholeNumber :=
  ⟨Src.decodeConstraintWholeNumber_run, Src.decodeConstraintPosWholeNumber_run, Src.decodeSemiConstraintWholeNumber_run,
   Src.decodeSemiConstraintPosWholeNumber_run, Src.decodeUnConstraintWholeNumber_run⟩

/-! ### The hypotheses can be met -/

/-- A three octet INTEGER through a buffer of one byte. -/
example : bytesBits [0x03#8, 0xFE#8, 0xDC#8, 0xBA#8, 0x77#8] = lengthPrefixedInt (-0x12346) ++ byteBits 0x77#8 := by decide +kernel

/-- A bit, two 7 bit numbers, a byte and an octet through a buffer of two bytes. -/
example : (do
    let a ← RProg.bit
    let b ← RProg.part 7
    let c ← RProg.part 7
    let d ← RProg.part 1
    let e ← RProg.byte
    let f ← RProg.octets 1
    pure (a, b, c, d, e, f) : RProg _).LegalOn 2 (bitStreamAttach [0x81#8, 0x42#8, 0x33#8, 0x44#8] 4) := by
  repeat (refine ⟨by unfold ROp.LegalAt; decide +kernel, by decide +kernel, ?_⟩)
  trivial

/-! ### Violations -/

/-- One bit and then an INTEGER (0..255) through a buffer of one byte: the decoder fails on a correct message, because
`BitStream_ReadByte` wants both bytes in the buffer before it asks for more. -/
theorem C62_violation_unaligned : ∃ s' t',
    (do let b ← RProg.bit; let v ← Src.decodeConstraintWholeNumber 0 255; pure (b, v) : RProg _).run
      (bitStreamAttach [0x82#8, 0x80#8] 2) = .ok (((true, true), (true, 5)), t') ∧
    (do let b ← RProg.bit; let v ← Src.decodeConstraintWholeNumber 0 255; pure (b, v) : RProg _).sRun
      (bitStreamAttach2 [0x82#8, 0x80#8] 1 []) = .ok (((true, true), (false, 0)), s') :=
  ⟨⟨⟨[0x82#8], 1, 0, 1⟩, [0x80#8]⟩, ⟨[0x82#8, 0x80#8], 2, 1, 1⟩, by decide +kernel⟩

/-- An OCTET STRING of two octets through a buffer of one byte: success is reported, but the second octet is stored over the first. -/
theorem C62_violation_octets : ∃ s' t',
    (RProg.octets 2).run (bitStreamAttach [1#8, 2#8, 3#8] 3) = .ok ((true, [1#8, 2#8]), t') ∧
    (RProg.octets 2).sRun (bitStreamAttach2 [1#8, 2#8, 3#8] 1 []) = .ok ((true, [2#8]), s') :=
  ⟨⟨⟨[3#8], 1, 0, 0⟩, []⟩, ⟨[1#8, 2#8, 3#8], 3, 2, 0⟩, by unfold RProg.octets; decide +kernel⟩

/-- The same one bit further: the decoder reads behind the buffer. -/
theorem C62_violation_out_of_bounds : ∃ t',
    (do let _ ← RProg.bit; RProg.octets 2).run (bitStreamAttach [1#8, 2#8, 3#8] 3) = .ok ((true, [2#8, 4#8]), t') ∧
    (do let _ ← RProg.bit; RProg.octets 2).sRun (bitStreamAttach2 [1#8, 2#8, 3#8] 1 []) = .ub :=
  ⟨⟨[1#8, 2#8, 3#8], 3, 2, 1⟩, by decide +kernel, Res.eq_ub (by decide +kernel)⟩

/-- A truncated message is accepted: of the two octets of an INTEGER (0..65535) only the first is there, and the decoder returns
256, where the other build reports an error. -/
theorem C62_violation_truncated : ∃ s' t',
    (Src.decodeConstraintWholeNumber 0 65535).run (bitStreamAttach [1#8] 1) = .ok ((false, 0), t') ∧
    (Src.decodeConstraintWholeNumber 0 65535).sRun (bitStreamAttach2 [1#8] 1 []) = .ok ((true, 256), s') :=
  ⟨⟨⟨[0#8], 1, 0, 0⟩, []⟩, ⟨[1#8], 1, 1, 0⟩, by decide +kernel⟩

/-- The full statement is false. -/
theorem C62_violation : ¬ C62_full := by
  intro h
  obtain ⟨s', t', e1, e2⟩ := C62_violation_octets
  obtain ⟨s'', e⟩ := h _ (RProg.octets 2) 1 [1#8, 2#8, 3#8] [] [] (by decide) (by decide) _ _ e1
  rw [e2] at e
  cases e

end Asn1
