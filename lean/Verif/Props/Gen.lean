import Verif.Proof.GenValid
import Verif.Spec.Messages
import Verif.Props.Oid
import Verif.Proof.Outcome
/-!
# C35, C36, C37, C45, C46, C47, C48: the generated uPER encoders and decoders

`t` ranges over all types of `Verif/Model/Types.lean`, nested to any depth; `encodeType` and `decodeType` are the two
functions the compiler emits for a type assignment.
-/
namespace Asn1

/-- A type used in the examples:
`SEQUENCE { n INTEGER (-3..1000), b BOOLEAN OPTIONAL, e ENUMERATED {x(5), y(2)} DEFAULT x,
s SEQUENCE (SIZE (0..70000)) OF CHOICE { i INTEGER, o OCTET STRING (SIZE (1..20)), k IA5String (FROM ("A".."C")) (SIZE (2)) } }`. -/
def exTy : Ty :=
  .seq (.cons .mandatory (.int 16 (.concrete (-3) 1000))
    (.cons .optional .bool
      (.cons (.default (.enum 5)) (.enum [5, 2] [5, 2] none)
        (.cons .mandatory (.seqOf 0 70000 (.choice
          (.cons (.int 64 .full) (.cons (.octets 1 20) (.cons (.str [0x41#8, 0x42#8, 0x43#8] 2 2) .nil))))) .nil))))

/-- A value of it. -/
def exVal : Val :=
  .seq [(true, .int 77), (false, .null), (false, .enum 5),
    (true, .seqOf [.choice 0 (.int (-40000)), .choice 1 (.octets [1#8, 2#8]), .choice 2 (.str [0x43#8, 0x41#8])])]

theorem exTy_ok : Ok exTy := by
  simp [exTy, Ok, OkFields, OkAlts, Rng.ok, Alts.length]

theorem exVal_valid : Valid exTy exVal := by
  simp [exTy, exVal, Valid, ValidFields, ValidAlt, Rng.contains, Rng.holds64]

theorem exTy_guarded : Guarded exTy := by
  simp [exTy, Guarded, GuardedFields, GuardedAlts]

theorem exTy_tight : Tight false exTy := by
  simp [exTy, Tight, TightFields, TightAlts]

/-! ## C35 -/

/-- C35: the generated encoder writes exactly the bits of the specification `code`, whether or not it checks the
constraints first. -/
theorem C35_encoding (t : Ty) (v : Val) (bCheckConstraints : Bool) (hok : Ok t) (hv : Valid t v) :
    Appends (encodeType t v bCheckConstraints) true (code false t v) :=
  encodeType_appends bCheckConstraints hok hv

/-- C35: encoding a valid value and decoding it gives back the value, in exactly as many bits as were written, for all
types and values. Missing: the smallest 64 bit integer in an INTEGER without lower bound, values more than `2 ^ 63` above a negative
lower bound (`Valid`), and ranges wider than `2 ^ 63` that begin below zero (`Ok`): see `C35_violation_min` and C09-C11. -/
theorem C35_roundtrip_partial (t : Ty) (v : Val) (bCheckConstraints : Bool) (hok : Ok t) (hv : Valid t v) :
    RoundTrip (encodeType t v bCheckConstraints) true (decodeType t) v (code false t v).length :=
  roundTrip_of (encodeType_appends bCheckConstraints hok hv) (decodeType_reads hok hv)

example : Ok exTy ∧ Valid exTy exVal := ⟨exTy_ok, exVal_valid⟩

/-- `SEQUENCE OF SEQUENCE { r REAL, x REAL OPTIONAL }` with -1234.5 and infinity. -/
example : Ok (.seqOf 1 3 (.seq (.cons .mandatory (.real fun _ => true) (.cons .optional (.real fun _ => true) .nil)))) ∧
    Valid (.seqOf 1 3 (.seq (.cons .mandatory (.real fun _ => true) (.cons .optional (.real fun _ => true) .nil))))
      (.seqOf [.seq [(true, .real 0xC0934A0000000000#64), (true, .real 0x7FF0000000000000#64)]]) := by
  simp [Ok, OkFields, Valid, ValidFields, RealHeld, IsFinite]

/-- The code violates C35 for `INTEGER` and the value `-2^63`, which the C type holds and the check accepts: the encoder
computes `-v`, which overflows. -/
theorem C35_violation_min :
    isValid (.int 64 .full) (.int (-(2 ^ 63))) = true ∧
    ∃ s0, bitStreamInit (List.replicate 16 0#8) 16 = .ok s0 ∧ encodeType (.int 64 .full) (.int (-(2 ^ 63))) true s0 = .ub := by
  refine ⟨rfl, _, rfl, ?_⟩
  simp only [encodeType, isValid, Rng.holds, Bool.not_true, Bool.and_false, Bool.false_eq_true, if_false, encTy]
  unfold encInt
  decide

/-! ## C36 -/

/-- C36: an encoding tells where it ends and what it stands for: if what is sent begins with the encoding of `v1` and
also with that of `v2`, both values of the same type, then the values are the same, and so is what follows. -/
theorem C36_unambiguous (t : Ty) (v1 v2 : Val) (rest1 rest2 : List Bool) (hok : Ok t) (h1 : Valid t v1) (h2 : Valid t v2)
    (h : code false t v1 ++ rest1 = code false t v2 ++ rest2) : v1 = v2 ∧ rest1 = rest2 := by
  obtain ⟨a, b⟩ := reads_unique (decodeType_reads hok h1) (decodeType_reads hok h2) h
  simp only [Prod.mk.injEq, true_and] at a
  exact ⟨a, b⟩

/-- C36: no encoding is a proper prefix of another one, and different values have different encodings. -/
theorem C36_prefix_free (t : Ty) (v1 v2 : Val) (hok : Ok t) (h1 : Valid t v1) (h2 : Valid t v2)
    (h : code false t v1 <+: code false t v2) : v1 = v2 := by
  obtain ⟨r, hr⟩ := h
  exact (C36_unambiguous t v1 v2 r [] hok h1 h2 (by rw [hr, List.append_nil])).1

/-- Two different valid values (and two different encodings). -/
example : ∃ v1 v2, Ok exTy ∧ Valid exTy v1 ∧ Valid exTy v2 ∧ v1 ≠ v2 :=
  ⟨exVal, .seq [(true, .int 78), (true, .bool true), (true, .enum 2), (true, .seqOf [])], exTy_ok, exVal_valid,
   by simp [exTy, Valid, ValidFields, Rng.contains, Rng.holds64], by simp [exVal]⟩

/-- C36: messages of any types that are encoded one after the other into one stream, without alignment, decode one
after the other. -/
theorem C36_concatenation (ms : List (Ty × Val)) (h : ∀ m ∈ ms, Ok m.1 ∧ Valid m.1 m.2) :
    RoundTrip (encodeMessages ms) true (decodeMessages (ms.map Prod.fst)) (ms.map Prod.snd)
      (ms.flatMap fun m => code false m.1 m.2).length := by
  refine roundTrip_of ?_ ?_
  · induction ms with
    | nil => exact Appends.pure true
    | cons m ms ih =>
      have hm := h m (by simp)
      simp only [encodeMessages, List.flatMap_cons]
      refine (encodeType_appends true hm.1 hm.2).bind ?_
      rw [if_pos rfl]
      exact ih (fun x hx => h x (List.mem_cons_of_mem _ hx))
  · induction ms with
    | nil => exact Reads.pure _
    | cons m ms ih =>
      have hm := h m (by simp)
      simp only [List.map_cons, decodeMessages, List.flatMap_cons]
      refine (decodeType_reads hm.1 hm.2).bind ?_
      rw [if_pos rfl]
      exact (ih (fun x hx => h x (List.mem_cons_of_mem _ hx))).map (h := fun q : Bool × List Val => (q.1, m.2 :: q.2))

example : ∀ m ∈ [(exTy, exVal), (.bool, .bool true), (exTy, exVal)], Ok m.1 ∧ Valid m.1 m.2 := by
  have hb : Ok .bool ∧ Valid .bool (.bool true) := by simp [Ok, Valid]
  intro m hm
  simp only [List.mem_cons, List.not_mem_nil, or_false] at hm
  rcases hm with rfl | rfl | rfl
  · exact ⟨exTy_ok, exVal_valid⟩
  · exact hb
  · exact ⟨exTy_ok, exVal_valid⟩

/-! ## C37 -/

/-- C37: the decoder refuses every input that ends before the encoding is complete, wherever it ends. Missing: types with
an OCTET STRING of variable size that may be empty, see `C37_violation_octets`; character strings and SEQUENCE OF with a
fixed size of 65536 or more, see `C45_violation_fixed_size`; a one-sided range that begins below zero
next to an OCTET STRING of variable size (`Guarded`). -/
theorem C37_truncated_refused_partial (t : Ty) (v : Val) (bCheckConstraints : Bool) (hok : Ok t) (hv : Valid t v)
    (ht : Tight true t ∨ (Tight false t ∧ Guarded t)) :
    RejectsTruncated (encodeType t v bCheckConstraints) true (decodeType t) (code false t v).length :=
  rejectsTruncated_of (encodeType_appends bCheckConstraints hok hv) (decodeType_short hok hv ht)

example : Ok exTy ∧ Valid exTy exVal ∧ (Tight true exTy ∨ (Tight false exTy ∧ Guarded exTy)) :=
  ⟨exTy_ok, exVal_valid, .inr ⟨exTy_tight, exTy_guarded⟩⟩

/-- The code violates C37: for `SEQUENCE { n INTEGER (0..255), o OCTET STRING (SIZE (0..1000)) }` the message `2A`, which
ends before the ten bits of the length of `o`, is accepted, with an empty `o`. -/
theorem C37_violation_octets :
    ∃ s, decodeType (.seq (.cons .mandatory (.int 8 (.concrete 0 255)) (.cons .mandatory (.octets 0 1000) .nil)))
      ⟨[0x2A#8, 0#8], 1, 0, 0⟩ = .ok ((true, .seq [(true, .int 0x2A), (true, .octets [])]), s) :=
  ⟨⟨[0x2A#8, 0#8], 1, 1, 0⟩, rfl⟩

/-! ## C45 -/

/-- C45: on every input whatever the generated decoder completes without undefined behaviour and without a failed
assertion, reads nothing outside the buffer (and one byte behind it), changes nothing but the cursor, and if it accepts
the cursor is still inside. Missing: a lower bound below zero without upper bound, see
`C45_violation_overflow`; character strings and SEQUENCE OF with a fixed size of 65536 or more, see
`C45_violation_fixed_size`; a searched table with fewer items than the type, see `C46_violation_table`. -/
theorem C45_decoder_safe_partial (t : Ty) (hok : Ok t) (hg : Guarded t) :
    Safe (decodeType t) :=
  decodeType_safe hok hg

example : Ok exTy ∧ Guarded exTy := ⟨exTy_ok, exTy_guarded⟩

/-- The code violates C45: the decoder of `SEQUENCE (SIZE (65536)) OF BOOLEAN` goes on reading after the end of the
message `C4`, out of the object. -/
theorem C45_violation_fixed_size : decodeType (.seqOf 65536 65536 .bool) ⟨[0xC4#8, 0x00#8], 1, 0, 0⟩ = .ub :=
  Res.eq_ub (by decide +kernel)

/-- The code violates C45: the decoder of `INTEGER (-5..MAX)` subtracts 5 from the smallest 64 bit integer when it gets
the message `08 80 00 00 00 00 00 00 00`. -/
theorem C45_violation_overflow :
    decodeType (.int 64 (.posInf (-5))) ⟨[8#8, 0x80#8, 0#8, 0#8, 0#8, 0#8, 0#8, 0#8, 0#8, 0#8], 9, 0, 0⟩ = .ub :=
  Res.eq_ub (by decide +kernel)

/-- The code violates C45 for REAL: with this header the decoder takes an exponent of four octets, the least `int`, and
negates it. -/
theorem C45_violation_real :
    decodeType (.real fun _ => true) ⟨[0x06#8, 0x83#8, 0x80#8, 0#8, 0#8, 0#8, 1#8, 0#8], 7, 0, 0⟩ = .ub :=
  Res.eq_ub (by simp only [decodeType]; unfold decTy; decide +kernel)

/-! ## C46 -/

/-- C46: the decoder of an ENUMERATED, in both modes of code generation, only returns items that the constraints allow,
and is safe on every input. Missing: a table emitted for a constrained type assignment. -/
theorem C46_enumerated_partial (items valid : List Int) (table : Option (List Int))
    (h : items.Nodup) (hlen : items.length < 2 ^ 31) (h1 : 1 ≤ items.length) (hv : ∀ v ∈ valid, v ∈ items)
    (ht : ∀ allowed, table = some allowed → allowed.Perm items) :
    Safe (decodeType (.enum items valid table)) ∧
    Post (decodeType (.enum items valid table)) (fun v => ∃ x, v = .enum x ∧ x ∈ valid) := by
  refine ⟨decodeType_safe (by simp only [Ok]; exact ⟨h, hlen, hv, ht⟩) (by simp only [Guarded]; exact h1), ?_⟩
  refine (decodeType_post _).mono (fun v hv => ?_)
  cases v <;> simp only [isValid, Bool.false_eq_true] at hv
  exact ⟨_, rfl, by simpa using hv⟩

example : ∃ (items valid : List Int) (table : Option (List Int)), items.Nodup ∧ items.length < 2 ^ 31 ∧ 1 ≤ items.length ∧
    (∀ v ∈ valid, v ∈ items) ∧ (∀ allowed, table = some allowed → allowed.Perm items) ∧ table ≠ none :=
  ⟨[7, 3, 5], [3, 7], some [7, 3, 5], by decide, by decide, by decide, by decide, by intro a h; cases h; exact .refl _, by decide⟩

/-- The code violates C46 when the table is emitted for a type assignment with a constraint: for
`T ::= ENUMERATED {a(1), b(2), c(3), d(4)} (b | c)` the decoder reads behind the two elements of the table when it gets
the number 3. -/
theorem C46_violation_table : decodeType (.enum [1, 2, 3, 4] [2, 3] (some [2, 3])) ⟨[0xC0#8, 0x00#8], 1, 0, 0⟩ = .ub := by
  have e : enumTable [2, 3] = [2, 3] := by simp [enumTable, List.mergeSort, List.MergeSort.Internal.splitInTwo]
  simp only [decodeType, decTy, decEnum, e]
  exact Res.eq_ub (by decide +kernel)

/-! ## C47 -/

/-- C47: the generated encoder writes the encoding that X.691 prescribes. Missing: an ENUMERATED with items that
are not declared in ascending order when a `switch` is emitted, see `C47_violation_enum`; fixed sizes of 65536 or more that are
multiples of 16384, see `C47_violation_fragments`. -/
theorem C47_conforms_partial (t : Ty) (v : Val) (bCheckConstraints : Bool) (hok : Ok t) (hc : Conforming t) (hv : Valid t v) :
    Appends (encodeType t v bCheckConstraints) true (code true t v) := by
  rw [← code_std t v hok hc hv]
  exact encodeType_appends bCheckConstraints hok hv

/-- The example type with the items in order. -/
example : ∃ t v, Ok t ∧ Conforming t ∧ Valid t v ∧ t = .seqOf 1 5 (.enum [2, 5, 9] [2, 9] none) :=
  ⟨.seqOf 1 5 (.enum [2, 5, 9] [2, 9] none), .seqOf [.enum 9, .enum 2], by simp [Ok], by simp [Conforming], by simp [Valid], rfl⟩

/-- The code violates C47: for `ENUMERATED {x(5), y(2)}` and the value `x` X.691 demands the bit 1, the generated
encoder writes the bit 0. With the option that searches a table it writes 1. -/
theorem C47_violation_enum :
    code true (.enum [5, 2] [5, 2] none) (.enum 5) = [true] ∧
    Appends (encodeType (.enum [5, 2] [5, 2] none) (.enum 5) true) true [false] ∧
    Appends (encodeType (.enum [5, 2] [5, 2] (some [5, 2])) (.enum 5) true) true [true] := by
  refine ⟨by decide, ?_, ?_⟩
  · exact encodeType_appends (t := .enum [5, 2] [5, 2] none) (v := .enum 5) true (by simp [Ok]) (by simp [Valid])
  · exact encodeType_appends (t := .enum [5, 2] [5, 2] (some [5, 2])) (v := .enum 5) true (by simp [Ok]) (by simp [Valid])

/-- The code violates C47: for the REAL value 1.0 X.691 demands the mantissa 1 in one octet, the generated encoder writes
`2 ^ 52` in seven octets. -/
theorem C47_violation_real :
    code true (.real fun _ => true) (.real 0x3FF0000000000000#64) = bytesBits [3#8, 0x80#8, 0#8, 1#8] ∧
    Appends (encodeType (.real fun _ => true) (.real 0x3FF0000000000000#64) true) true
      (bytesBits [9#8, 0x80#8, 0xCC#8, 0x10#8, 0#8, 0#8, 0#8, 0#8, 0#8, 0#8]) := by
  refine ⟨by simp only [code]; decide +kernel, ?_⟩
  have := encodeType_appends (t := .real fun _ => true) (v := .real 0x3FF0000000000000#64) true (by simp [Ok])
    (by simp [Valid, RealHeld, IsFinite])
  have e : code false (.real fun _ => true) (.real 0x3FF0000000000000#64) =
      bytesBits [9#8, 0x80#8, 0xCC#8, 0x10#8, 0#8, 0#8, 0#8, 0#8, 0#8, 0#8] := by simp only [code]; decide +kernel
  rwa [e] at this

/-- The code violates C47: for `OCTET STRING (SIZE (65536))` what the generated encoder writes is one octet shorter than
what X.691 demands: the length octet 0 behind the last fragment is left out. -/
theorem C47_violation_fragments (arr : List Byte) (h : arr.length = 65536) :
    ∃ w, Appends (encodeType (.octets 65536 65536) (.octets arr) true) true w ∧
      w ++ List.replicate 8 false = code true (.octets 65536 65536) (.octets arr) := by
  refine ⟨_, encodeType_appends true (by simp [Ok]) (by simp [Valid, h]), ?_⟩
  simp only [code, sizedCodeGen, Bool.not_true, Bool.false_and, Bool.false_eq_true, if_false]
  rw [if_pos (by decide)]
  obtain ⟨w, hw⟩ := fragmentedCode_ends (arr.map byteBits) (by rw [List.length_map, h])
  rw [sizedCode, if_neg (by decide), hw]
  simp

example : (List.replicate 65536 7#8).length = 65536 := List.length_replicate

/-! ## C48 -/

/-- C48: whatever the input is, a value that the decoder returns together with TRUE is a valid value of the type. Missing: as
for C45, and types with the value `-2^63` in an INTEGER without lower bound (`NoMin`). -/
theorem C48_accepted_valid_partial (t : Ty) (hok : Ok t) (hg : Guarded t) (hm : NoMin t) (s s' : BitStream) (v : Val)
    (h : decodeType t s = .ok ((true, v), s')) : Valid t v :=
  decodeType_valid hok hg hm s v s' h

/-- C48: what was accepted can be encoded again (the message may be another one: an INTEGER may have come with more
octets than needed), and the new message decodes to the same value. -/
theorem C48_reencode_partial (t : Ty) (hok : Ok t) (hg : Guarded t) (hm : NoMin t) (s s' : BitStream) (v : Val)
    (h : decodeType t s = .ok ((true, v), s')) :
    RoundTrip (encodeType t v true) true (decodeType t) v (code false t v).length :=
  C35_roundtrip_partial t v true hok (decodeType_valid hok hg hm s v s' h)

/-- A type and a message that its decoder accepts. -/
example : ∃ t s s' v, Ok t ∧ Guarded t ∧ NoMin t ∧ decodeType t s = .ok ((true, v), s') ∧
    t = .seq (.cons .optional (.int 8 (.concrete 3 9)) (.cons .mandatory (.bits 0 9 0 9) .nil)) :=
  ⟨.seq (.cons .optional (.int 8 (.concrete 3 9)) (.cons .mandatory (.bits 0 9 0 9) .nil)),
   ⟨[0xA2#8, 0xFF#8, 0#8], 2, 0, 0⟩, ⟨[0xA2#8, 0xFF#8, 0#8], 2, 1, 2⟩,
   .seq [(true, .int 5), (true, .bits 2 [0xC0#8])],
   by simp [Ok, OkFields, Rng.ok], by simp [Guarded, GuardedFields], by simp [NoMin, NoMinFields], rfl, rfl⟩

/-- The code violates C48: the decoder of `INTEGER` accepts the message `08 80 00 00 00 00 00 00 00`; encoding the
value it returns overflows. -/
theorem C48_violation_min :
    (∃ s, decodeType (.int 64 .full) ⟨[8#8, 0x80#8, 0#8, 0#8, 0#8, 0#8, 0#8, 0#8, 0#8, 0#8], 9, 0, 0⟩ =
      .ok ((true, .int (-(2 ^ 63))), s)) ∧
    ∃ s0, bitStreamInit (List.replicate 16 0#8) 16 = .ok s0 ∧ encodeType (.int 64 .full) (.int (-(2 ^ 63))) true s0 = .ub :=
  ⟨⟨⟨[8#8, 0x80#8, 0#8, 0#8, 0#8, 0#8, 0#8, 0#8, 0#8, 0#8], 9, 9, 0⟩, rfl⟩, C35_violation_min.2⟩

end Asn1
