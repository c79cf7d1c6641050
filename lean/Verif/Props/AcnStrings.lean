import Verif.Proof.AcnStrings
import Verif.Proof.RoundTrip
/-!
# C24 and C17: ACN character strings

`HoldsString obj str` (Verif.Spec.CStrings): the C array `obj` holds the string `str`; `filled max str dst`: the
destination after decoding, the string followed by zeros; `Codec enc dec v code` (Verif.Spec.RoundTrip): the encoder
appends exactly `code`, the decoder returns TRUE and `v` from it, and refuses every input that ends inside it.
-/
namespace Asn1

/-! ## C24 -/

theorem codec_of {α : Type} {enc : M Unit} {dec : M (Bool × α)} {v : α} {code : List Bool} (a : Appends enc () code)
    (r : Reads dec (true, v) code ∧ Short dec code) : Codec enc dec v code :=
  ⟨a, roundTrip_of a r.1, rejectsTruncated_of a r.2⟩

/-- C24, ASCII, fixed size: any `max` characters (zeros included). -/
theorem C24_ascii_fix_size (max : Nat) (obj dst : List Byte) (h : max ≤ obj.length) (hd : max + 1 ≤ dst.length) :
    Codec (acnEncStrAsciiFixSize max obj) (acnDecStrAsciiFixSize max dst) (filled max (obj.take max) dst) (bytesBits (obj.take max)) := by
  have hl : (obj.take max).length = max := by simp; omega
  have a := encAsciiFixLoop_appends obj (obj.take max) 0 (by rw [List.drop_zero]; exact List.take_prefix _ _)
  rw [hl] at a
  have r := acnDecStrAsciiPrivate_reads (max := max) (dst := dst) (str := obj.take max) hd (by omega)
  rw [hl] at r
  exact codec_of a r

example : Codec (acnEncStrAsciiFixSize 3 [0x41#8, 0x42#8, 0x43#8, 0#8]) (acnDecStrAsciiFixSize 3 [9#8, 9#8, 9#8, 9#8, 9#8])
    [0x41#8, 0x42#8, 0x43#8, 0#8, 9#8] (bytesBits [0x41#8, 0x42#8, 0x43#8]) :=
  C24_ascii_fix_size 3 _ _ (by decide) (by decide)

/-- C24, ASCII, one terminator byte: every string of at most `max` characters in which the terminator does not occur. -/
theorem C24_ascii_null_terminated (max : Nat) (nul : Byte) (obj str dst : List Byte) (h : HoldsString obj str)
    (hm : str.length ≤ max) (hn : nul ∉ str) (hd : max + 1 ≤ dst.length) :
    Codec (acnEncStrAsciiNullTerminated max nul obj) (acnDecStrAsciiNullTerminated max nul dst) (filled max str dst)
      (bytesBits (str ++ [nul])) := by
  refine codec_of ?_ (acnDecStrAsciiNullTerminated_reads hd hm hn)
  rw [bytesBits_append]
  refine (acnEncStrAsciiPrivate_appends h hm).bind (g := fun _ => appendByte nul false) ?_
  simpa only [bytesBits_cons, bytesBits_nil, List.append_nil] using appendByteF_appends nul

example : HoldsString [0x41#8, 0x42#8, 0#8, 7#8] [0x41#8, 0x42#8] ∧ 0x2A#8 ∉ [0x41#8, 0x42#8] :=
  ⟨⟨⟨[7#8], rfl⟩, by decide⟩, by decide⟩

/-- C24, ASCII, a terminator of 1 to 10 bytes that does not begin inside the string. -/
theorem C24_ascii_null_terminated_mult (max : Nat) (nul obj str dst : List Byte) (h : HoldsString obj str)
    (hm : str.length ≤ max) (hn : nul ≠ []) (h10 : nul.length ≤ 10) (hne : NoEarly nul str) (hd : max + 1 ≤ dst.length) :
    Codec (acnEncStrAsciiNullTerminatedMult max nul obj) (acnDecStrAsciiNullTerminatedMult max nul dst) (filled max str dst)
      (bytesBits (str ++ nul)) := by
  refine codec_of ?_ (acnDecStrAsciiNullTerminatedMult_reads hn h10 hd hm hne)
  rw [bytesBits_append]
  exact (acnEncStrAsciiPrivate_appends h hm).bind (g := fun _ => appendBytesF nul) (appendBytesF_appends nul)

example : NoEarly [0x0D#8, 0x0A#8] [0x41#8, 0x0A#8] := by unfold NoEarly; decide

/-- C24, ASCII, length in another field: the decoder is given the length of the string. -/
theorem C24_ascii_external (max : Nat) (obj str dst : List Byte) (h : HoldsString obj str) (hm : str.length ≤ max)
    (hd : max + 1 ≤ dst.length) :
    Codec (acnEncStrAsciiExternal max obj) (acnDecStrAsciiExternal max str.length dst) (filled max str dst) (bytesBits str) := by
  refine codec_of (acnEncStrAsciiPrivate_appends h hm) ?_
  rw [acnDecStrAsciiExternal, clip_eq (by omega)]
  exact acnDecStrAsciiPrivate_reads hd hm

/-- C24, ASCII, length in front of the string. -/
theorem C24_ascii_internal (max min : Nat) (obj str dst : List Byte) (h : HoldsString obj str) (hmin : min ≤ str.length)
    (hm : str.length ≤ max) (h63 : max < 2 ^ 63) (hd : max + 1 ≤ dst.length) :
    Codec (acnEncStrAsciiInternal max min obj) (acnDecStrAsciiInternal max min dst) (filled max str dst)
      (constrainedCode min max str.length ++ bytesBits str) :=
  codec_of (internal_appends h hmin hm h63 (acnEncStrAsciiPrivate_appends h hm))
    (internal_reads (g := fun n => acnDecStrAsciiPrivate max n dst) hmin hm h63 (acnDecStrAsciiPrivate_reads hd hm))

/-- The empty string and the longest string are admissible. -/
example : HoldsString [0#8] [] ∧ HoldsString [0x41#8, 0x42#8, 0#8] [0x41#8, 0x42#8] ∧
    constrainedCode 0 10 2 ++ bytesBits [0x41#8] = [false, false, true, false, false, true, false, false, false, false, false, true] :=
  ⟨⟨⟨[], rfl⟩, by decide⟩, ⟨⟨[], rfl⟩, by decide⟩, by decide⟩

/-- C24, character index, fixed size: any `max` characters of the alphabet. -/
theorem C24_index_fix_size (max : Nat) (set obj dst : List Byte) (h : max ≤ obj.length) (hs : set.length < 2 ^ 31)
    (hw : Within set (obj.take max)) (hd : max + 1 ≤ dst.length) :
    Codec (acnEncStrIndexFixSize max set set.length obj) (acnDecStrIndexFixSize max set set.length dst)
      (filled max (obj.take max) dst) (indexCode set (obj.take max)) := by
  have hl : (obj.take max).length = max := by simp; omega
  have a := encIndexFixLoop_appends set obj (obj.take max) hs 0 (by rw [List.drop_zero]; exact List.take_prefix _ _) hw
  rw [hl] at a
  have r := acnDecStrIndexPrivate_reads (max := max) (dst := dst) (str := obj.take max) hs hd (by omega) hw
  rw [hl] at r
  exact codec_of a r

example : Within [0x41#8, 0x42#8, 0x43#8] [0x43#8, 0x41#8] ∧
    indexCode [0x41#8, 0x42#8, 0x43#8] [0x43#8, 0x41#8] = [true, false, false, false] := by
  constructor
  · unfold Within; decide
  · decide

/-- C24, character index, length in another field. -/
theorem C24_index_external (max : Nat) (set obj str dst : List Byte) (h : HoldsString obj str) (hm : str.length ≤ max)
    (hs : set.length < 2 ^ 31) (hw : Within set str) (hd : max + 1 ≤ dst.length) :
    Codec (acnEncStrIndexExternal max set set.length obj) (acnDecStrIndexExternal max set set.length str.length dst)
      (filled max str dst) (indexCode set str) := by
  refine codec_of (acnEncStrIndexPrivate_appends hs h hm hw) ?_
  rw [acnDecStrIndexExternal, clip_eq (by omega)]
  exact acnDecStrIndexPrivate_reads hs hd hm hw

/-- C24, character index, length in front of the string. -/
theorem C24_index_internal (max min : Nat) (set obj str dst : List Byte) (h : HoldsString obj str) (hmin : min ≤ str.length)
    (hm : str.length ≤ max) (h63 : max < 2 ^ 63) (hs : set.length < 2 ^ 31) (hw : Within set str) (hd : max + 1 ≤ dst.length) :
    Codec (acnEncStrIndexInternal max set set.length min obj) (acnDecStrIndexInternal max set set.length min dst)
      (filled max str dst) (constrainedCode min max str.length ++ indexCode set str) :=
  codec_of (internal_appends h hmin hm h63 (acnEncStrIndexPrivate_appends hs h hm hw))
    (internal_reads (g := fun n => acnDecStrIndexPrivate max n set set.length dst) hmin hm h63
      (acnDecStrIndexPrivate_reads hs hd hm hw))

/-- C24, IA5String: strings of characters below 128, seven bits each, length in another field or in front. -/
theorem C24_ia5 (max min : Nat) (obj str dst : List Byte) (h : HoldsString obj str) (hmin : min ≤ str.length)
    (hm : str.length ≤ max) (h63 : max < 2 ^ 63) (hw : ∀ c ∈ str, c.toNat < 128) (hd : max + 1 ≤ dst.length) :
    Codec (acnEncIa5External max obj) (acnDecIa5External max str.length dst) (filled max str dst)
      (str.flatMap fun c => bitsMsb 7 c.toNat) ∧
    Codec (acnEncIa5Internal max min obj) (acnDecIa5Internal max min dst) (filled max str dst)
      (constrainedCode min max str.length ++ str.flatMap fun c => bitsMsb 7 c.toNat) := by
  have hW := ia5_within hw
  have hcode : indexCode ia5Set str = str.flatMap fun c => bitsMsb 7 c.toNat := by
    unfold indexCode
    rw [List.flatMap_def, List.flatMap_def]
    refine congrArg List.flatten (List.map_congr_left ?_)
    intro c hc
    have hi := ia5_idx (hw c hc)
    rw [hi, ia5_length]
    have : bitLen (((128 : Nat) : Int) - 1 - 0).toNat = 7 := by decide
    rw [constrainedCode, this, Int.sub_zero, Int.toNat_natCast]
  rw [← hcode]
  have a := acnEncStrIndexPrivate_appends (max := max) (set := ia5Set) (by rw [ia5_length]; omega) h hm hW
  have r := acnDecStrIndexPrivate_reads (max := max) (dst := dst) (set := ia5Set) (by rw [ia5_length]; omega) hd hm hW
  rw [ia5_length] at a r
  constructor
  · refine codec_of a ?_
    rw [acnDecIa5External, clip_eq (by omega)]
    exact r
  · exact codec_of (internal_appends h hmin hm h63 a)
      (internal_reads (g := fun n => acnDecStrIndexPrivate max n ia5Set 128 dst) hmin hm h63 r)

example : ∀ c ∈ [0x41#8, 0x7F#8, 0x01#8], c.toNat < 128 := by decide

/-- A finding about the external determinant: a message whose determinant exceeds the maximum is not rejected; the
decoder returns TRUE after the first `max` characters. -/
theorem C24_external_clipped (max : Nat) (str dst : List Byte) (det : Int) (hd : max + 1 ≤ dst.length) (hl : str.length = max)
    (hdet : max < det) : Reads (acnDecStrAsciiExternal max det dst) (true, filled max str dst) (bytesBits str) := by
  have : clip det max = max := by unfold clip; split <;> omega
  rw [acnDecStrAsciiExternal, this, ← hl]
  exact (acnDecStrAsciiPrivate_reads (by omega) (Nat.le_refl _)).1

/-- A finding about strings with a zero character, which the type allows: variable size encoders stop there. -/
theorem C24_zero_character : Appends (acnEncStrAsciiExternal 3 [0x41#8, 0#8, 0x42#8, 0#8]) () (bytesBits [0x41#8]) :=
  acnEncStrAsciiPrivate_appends ⟨⟨[0x42#8, 0#8], rfl⟩, by decide⟩ (by decide)

/-! ## C17 for the ACN string decoders -/

/-- `max + 1` bytes of destination are enough: whatever the input, no decoder but the one of
`C17_violation_mult_capacity` stores outside (a store outside is the outcome `ub`), and on success only these bytes have
changed. External determinants may have any value. -/
theorem C17_acn_string_capacity (max min : Nat) (set dst : List Byte) (nul : Byte) (det : Int) (hmm : min ≤ max) (h63 : max < 2 ^ 63)
    (h1 : 1 ≤ set.length) (hs : set.length < 2 ^ 31) (hd : max + 1 ≤ dst.length) :
    ∀ dec ∈ [acnDecStrAsciiFixSize max dst, acnDecStrAsciiNullTerminated max nul dst, acnDecStrAsciiExternal max det dst,
      acnDecStrAsciiInternal max min dst, acnDecStrIndexFixSize max set set.length dst,
      acnDecStrIndexExternal max set set.length det dst, acnDecStrIndexInternal max set set.length min dst,
      acnDecIa5External max det dst, acnDecIa5Internal max min dst],
    ∀ s, Wf s → s.pos ≤ 8 * s.count → Slack s →
      ∃ ok d s', dec s = .ok ((ok, d), s') ∧ s'.buf = s.buf ∧
        (ok = true → d.length = dst.length ∧ d.drop (max + 1) = dst.drop (max + 1)) := by
  have key : ∀ dec : M (Bool × List Byte), (Safe dec ∧ Post dec (Within1 max dst)) → ∀ s, Wf s → s.pos ≤ 8 * s.count → Slack s →
      ∃ ok d s', dec s = .ok ((ok, d), s') ∧ s'.buf = s.buf ∧
        (ok = true → d.length = dst.length ∧ d.drop (max + 1) = dst.drop (max + 1)) := by
    intro dec ⟨hsafe, hpost⟩ s hwf hp hsl
    obtain ⟨⟨ok, d⟩, s', e, hb, _, _⟩ := hsafe s hwf hp hsl
    refine ⟨ok, d, s', e, hb, fun h => ?_⟩
    subst h
    exact hpost s d s' e
  intro dec hmem
  apply key
  have i1 : (1 : Nat) ≤ ia5Set.length := by rw [ia5_length]; omega
  have i2 : ia5Set.length < 2 ^ 31 := by rw [ia5_length]; omega
  have ia5 : ∀ n : Int, n ≤ max → Safe (acnDecStrIndexPrivate max n ia5Set 128 dst) ∧ Post (acnDecStrIndexPrivate max n ia5Set 128 dst) (Within1 max dst) := by
    intro n hn
    have := acnDecStrIndexPrivate_safe (max := max) (dst := dst) (n := n) i2 i1 hd hn
    rwa [ia5_length] at this
  simp only [List.mem_cons, List.not_mem_nil, or_false] at hmem
  rcases hmem with rfl | rfl | rfl | rfl | rfl | rfl | rfl | rfl | rfl
  · exact acnDecStrAsciiPrivate_safe hd (by omega)
  · exact acnDecStrAsciiNullTerminated_safe hd
  · exact acnDecStrAsciiPrivate_safe hd (clip_le _ _)
  · exact internal_safe (g := fun n => acnDecStrAsciiPrivate max n dst) hmm h63 (fun n hn => acnDecStrAsciiPrivate_safe hd hn)
  · exact acnDecStrIndexPrivate_safe hs h1 hd (by omega)
  · exact acnDecStrIndexPrivate_safe hs h1 hd (clip_le _ _)
  · exact internal_safe (g := fun n => acnDecStrIndexPrivate max n set set.length dst) hmm h63
      (fun n hn => acnDecStrIndexPrivate_safe hs h1 hd hn)
  · exact ia5 _ (clip_le _ _)
  · exact internal_safe (g := fun n => acnDecStrIndexPrivate max n ia5Set 128 dst) hmm h63 (fun n hn => ia5 n hn)

/-- A hostile determinant far above the maximum meets the hypotheses. -/
example : ∃ (max min : Nat) (set dst : List Byte), min ≤ max ∧ 1 ≤ set.length ∧ max + 1 ≤ dst.length ∧ (max : Int) < 10 ^ 18 :=
  ⟨3, 1, [0x41#8, 0x42#8], [0#8, 0#8, 0#8, 0#8], by decide, by decide, by decide, by decide⟩

/-- The code violates C17: with several terminator bytes the decoder stores a zero behind the `max + 1` bytes of the
destination when the terminator does not come in time. Here `max` is 2, the destination has 3 bytes, the message is
`ABCDEF`, the terminator CR LF: `strVal[3]` is written. -/
theorem C17_violation_mult_capacity :
    acnDecStrAsciiNullTerminatedMult 2 [0x0D#8, 0x0A#8] [9#8, 9#8, 9#8]
      (bitStreamAttach [0x41#8, 0x42#8, 0x43#8, 0x44#8, 0x45#8, 0x46#8, 0#8] 6) = .ub := by decide +kernel

/-- With one byte more it is safe, whatever the input and the terminator. -/
theorem C17_mult_capacity_partial (max : Nat) (nul dst : List Byte) (hd : max + 2 ≤ dst.length) (s : BitStream)
    (hwf : Wf s) (hp : s.pos ≤ 8 * s.count) (hsl : Slack s) :
    ∃ ok d s', acnDecStrAsciiNullTerminatedMult max nul dst s = .ok ((ok, d), s') ∧ s'.buf = s.buf ∧
      (ok = true → d.length = dst.length ∧ d.drop (max + 2) = dst.drop (max + 2)) := by
  obtain ⟨hsafe, hpost⟩ := acnDecStrAsciiNullTerminatedMult_safe (max := max) (nul := nul) (dst := dst) hd
  obtain ⟨⟨ok, d⟩, s', e, hb, _, _⟩ := hsafe s hwf hp hsl
  refine ⟨ok, d, s', e, hb, fun h => ?_⟩
  subst h
  exact hpost s d s' e

end Asn1
