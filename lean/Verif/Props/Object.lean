import Verif.Proof.ObjectDec
import Verif.Props.Valid
import Verif.Props.Equal
import Verif.Props.Init
import Verif.Props.Sizes
/-!
# C94: the generated functions on C objects, from the check to the decoded object
-/
namespace Asn1

/-- What is appended is determined. -/
theorem appends_unique {α : Type} {f : M α} {x : α} {b c : List Bool} (hb : Appends f x b) (hc : Appends f x c) : b = c := by
  obtain ⟨s, _, he, hcount, _, _⟩ := init_encSt (buf := List.replicate (b.length + c.length) 0#8) (count := b.length + c.length) (by simp)
  obtain ⟨s1, h1, e1, f1⟩ := hb s [] he (by rw [hcount]; simp; omega)
  obtain ⟨s2, h2, e2, _⟩ := hc s [] he (by rw [hcount]; simp; omega)
  rw [h1] at h2
  simp only [Res.ok.injEq, Prod.mk.injEq, true_and] at h2
  subst h2
  have hl : b.length = c.length := by have := e1.pos; rw [e2.pos] at this; simpa using this.symm
  refine List.ext_getElem hl fun i h3 h4 => ?_
  have hi : i < 8 * s1.count := by rw [f1.count, hcount]; omega
  have := e1.bits i hi
  rw [e2.bits i hi] at this
  simpa [h3, h4] using this.symm

/-- The check, then the encoder: a value that satisfies the constraints is encoded. -/
theorem encodeObject_appends {t : CTy} (hf : t.Fits) (hc : Computed t) (hok : Ok (uperTy t)) {v : CVal} {a : AV}
    (hm : meaning t v = some a) (hcod : Codable t a) (hs : t.Sat a) (chk : Bool) :
    Appends (encodeObject t v chk) (true, none) (code false (uperTy t) (toVal t a)) := by
  intro s bs he hroom
  obtain ⟨s', h1, h2, h3⟩ := encObj_appends t v a hm hc hok (valid_of_sat t v a hm hs hc hcod) s bs he hroom
  refine ⟨s', ?_, h2, h3⟩
  obtain ⟨b, e, hv, hb, ht, _⟩ := C80_valid_partial t hf v a hm none s
  obtain rfl := hb.2 hs
  obtain rfl : e = none := by cases ht rfl <;> assumption
  have hb : ∀ p : Bool × ErrCode, p = (true, none) → (if (p.1 && p.2.isNone) = true then do
      let ret ← encTy (uperTy t) (objVal t v)
      pure (ret, if ret then none else some [])
    else pure p : M (Bool × ErrCode)) s = .ok ((true, none), s') := by
    rintro _ rfl
    rw [if_pos (c := ((true, (none : ErrCode)).1 && (true, (none : ErrCode)).2.isNone) = true) rfl, bind_ok h1]
    rfl
  cases chk
  · exact hb _ rfl
  · rw [encodeObject, if_pos rfl, bind_ok hv]
    exact hb _ rfl

/-- C94 (part): an object that denotes the value `a` and that `_IsConstraintValid` accepts is encoded by the generated encoder,
with or without the check, and the decoder gives the value back. The object that the decoder has written, whatever its memory held
before, denotes `a`, is accepted by `_IsConstraintValid`, and (in a type without REAL) `_Equal` finds it equal to the
object that was encoded.
Missing: what `CTy.Fits` excludes (C80), what `Ok` excludes (C35), what `Computed` and `Codable` exclude. -/
theorem C94_roundtrip_partial (t : CTy) (hf : t.Fits) (hc : Computed t) (hok : Ok (uperTy t)) (v : CVal) (a : AV)
    (hm : meaning t v = some a) (hcod : Codable t a) (err err' : ErrCode) (s0 : BitStream)
    (hv : isConstraintValid t v err s0 = .ok ((true, err'), s0)) (chk : Bool) :
    RoundTrip (encodeObject t v chk) (true, none) (decodeType (uperTy t)) (toVal t a) (code false (uperTy t) (toVal t a)).length ∧
    ∀ w, Stored t (toVal t a) w → meaning t w = some a ∧
      (∀ s, isConstraintValid t w none s = .ok ((true, none), s)) ∧
      (t.noReal = true → ∀ s, cEqual t v w s = .ok (true, s)) := by
  obtain ⟨b, e, hv', hb, _, _⟩ := C80_valid_partial t hf v a hm err s0
  rw [hv] at hv'
  simp only [Res.ok.injEq, Prod.mk.injEq, and_true] at hv'
  have hs : t.Sat a := hb.1 hv'.1.symm
  have hval := valid_of_sat t v a hm hs hc hcod
  refine ⟨roundTrip_of (encodeObject_appends hf hc hok hm hcod hs chk) (decodeType_reads hok hval), fun w hw => ?_⟩
  have hmw := stored_meaning t v w a hm hc hval hw
  refine ⟨hmw, fun s => ?_, fun hr s => ?_⟩
  · obtain ⟨b, e, h1, h2, h3, _⟩ := C80_valid_partial t hf w a hmw none s
    obtain rfl := h2.2 hs
    obtain rfl : e = none := by cases h3 rfl <;> assumption
    exact h1
  · obtain ⟨r, h1, h2⟩ := C79_equal_partial t hr v w a a hm hmw s
    obtain rfl := h2.2 rfl
    exact h1

/-- C94: with the check, an object whose value violates a constraint is not encoded: the result is FALSE, the error code is that of
a type in which the value violates a constraint, and the bit stream is left as it was. -/
theorem C94_refused_partial (t : CTy) (hf : t.Fits) (v : CVal) (a : AV) (hm : meaning t v = some a) (hs : ¬ t.Sat a) (s : BitStream) :
    ∃ q, encodeObject t v true s = .ok ((false, some q), s) ∧ t.BadAt a q := by
  obtain ⟨b, e, h1, h2, _, h4⟩ := C80_valid_partial t hf v a hm none s
  obtain rfl : b = false := by
    cases b
    · rfl
    · exact absurd (h2.1 rfl) hs
  obtain ⟨q, rfl, hq⟩ := h4 rfl
  exact ⟨q, by rw [encodeObject, if_pos rfl, bind_ok h1]; rfl, hq⟩

/-- C94 (part): the bits depend only on the value: objects with the same value (whatever is in the unused parts of their
memory) are encoded with the same bits. -/
theorem C94_sameBits_partial (t : CTy) (hf : t.Fits) (hc : Computed t) (hok : Ok (uperTy t)) (v w : CVal) (a : AV)
    (hm : meaning t v = some a) (hw : meaning t w = some a) (hcod : Codable t a) (hs : t.Sat a) (chk : Bool) :
    ∃ bits, Appends (encodeObject t v chk) (true, none) bits ∧ Appends (encodeObject t w chk) (true, none) bits :=
  ⟨_, encodeObject_appends hf hc hok hm hcod hs chk, encodeObject_appends hf hc hok hw hcod hs chk⟩

/-- C94 (part): objects with different values have different encodings, none of which is the beginning of the other. -/
theorem C94_injective_partial (t : CTy) (hf : t.Fits) (hc : Computed t) (hok : Ok (uperTy t)) (v w : CVal) (a b : AV)
    (hm : meaning t v = some a) (hw : meaning t w = some b) (hcod : Codable t a) (hcod' : Codable t b) (hs : t.Sat a) (hs' : t.Sat b)
    (chk chk' : Bool) (bits bits' : List Bool) (h : Appends (encodeObject t v chk) (true, none) bits)
    (h' : Appends (encodeObject t w chk') (true, none) bits') (hp : bits <+: bits') : a = b := by
  rw [appends_unique h (encodeObject_appends hf hc hok hm hcod hs chk),
    appends_unique h' (encodeObject_appends hf hc hok hw hcod' hs' chk')] at hp
  exact toVal_inj t v w a b hm hw
    (C36_prefix_free _ _ _ hok (valid_of_sat t v a hm hs hc hcod) (valid_of_sat t w b hw hs' hc hcod') hp)

/-- C94 (part): a buffer of `<type>_REQUIRED_BYTES_FOR_ENCODING` octets is enough for every object that the check accepts, and the
buffer decodes to its value. -/
theorem C94_buffer_partial (t : CTy) (hf : t.Fits) (hc : Computed t) (hok : Ok (uperTy t)) (hp : PlainSizes (uperTy t)) (v : CVal) (a : AV)
    (hm : meaning t v = some a) (hcod : Codable t a) (hs : t.Sat a) (chk : Bool)
    (buf : List Byte) (hb : buf.length = requiredBytes (uperTy t)) :
    ∃ s0 s', bitStreamInit buf (requiredBytes (uperTy t)) = .ok s0 ∧ encodeObject t v chk s0 = .ok ((true, none), s') ∧
      bitStreamGetLength s' ≤ requiredBytes (uperTy t) ∧ s'.buf.length = buf.length ∧
      ∃ t', decodeType (uperTy t) { s' with currentByte := 0, currentBit := 0 } = .ok ((true, toVal t a), t') := by
  have hval := valid_of_sat t v a hm hs hc hcod
  obtain ⟨s0, h0, henc, hcount, hlen, _⟩ := init_encSt (buf := buf) (count := requiredBytes (uperTy t)) (by omega)
  have hle := code_le (uperTy t) (toVal t a) hok hp hval
  have hroom : ([] : List Bool).length + (code false (uperTy t) (toVal t a)).length ≤ 8 * s0.count := by
    rw [hcount, requiredBytes, List.length_nil]; omega
  obtain ⟨s', h1, h2, _, h4, h5⟩ := roundTrip_of (encodeObject_appends hf hc hok hm hcod hs chk) (decodeType_reads hok hval) s0 [] henc hroom
  have hp0 : s0.pos = 0 := henc.pos
  have hwf : Wf { s' with currentByte := 0, currentBit := 0 } :=
    ⟨by show 0 < 8; omega, by show s'.count ≤ s'.buf.length; rw [h4.count, h4.len, hlen, hcount]; omega⟩
  obtain ⟨t', h6, _⟩ := h5 { s' with currentByte := 0, currentBit := 0 } hwf (by rw [hp0]; rfl)
    (by show s'.pos ≤ 8 * s'.count; rw [h4.count, h2, hp0, hcount, requiredBytes]; omega)
    (fun i _ _ => rfl)
  obtain ⟨s1, h1', h2', _⟩ := encodeObject_appends hf hc hok hm hcod hs chk s0 [] henc hroom
  rw [h1] at h1'
  simp only [Res.ok.injEq, Prod.mk.injEq, true_and] at h1'
  subst h1'
  refine ⟨s0, s', h0, h1, ?_, by rw [h4.len, hlen], t', h6⟩
  have := h2'.wf.bit
  rw [hp0] at h2
  unfold BitStream.pos at h2
  unfold bitStreamGetLength requiredBytes
  split <;> omega

/-- C94 (part): what `_Initialize` stored is encoded. -/
theorem C94_initialized_partial (t : CTy) (hi : t.InitOk [] none) (hf : t.Fits) (hc : Computed t) (hok : Ok (uperTy t)) :
    ∃ a, ∀ junk, (∀ u, HasLayout u (junk u)) → ∀ v s, HasLayout t v → ∃ w, initializeC junk t v s = .ok (w, s) ∧
      (Codable t a → ∀ chk, RoundTrip (encodeObject t w chk) (true, none) (decodeType (uperTy t)) (toVal t a)
        (code false (uperTy t) (toVal t a)).length) := by
  obtain ⟨a, h1, h2⟩ := C82_initialize_partial t hi
  refine ⟨a, fun junk hj v s hl => ?_⟩
  obtain ⟨w, hw, hm, _⟩ := h2 junk hj v s hl
  exact ⟨w, hw, fun hcod chk => roundTrip_of (encodeObject_appends hf hc hok hm hcod h1 chk)
    (decodeType_reads hok (valid_of_sat t w a hm h1 hc hcod))⟩

/-! ## A type and objects that meet the hypotheses -/

/-- `SEQUENCE { a INTEGER (0..10 | 20..30), b OCTET STRING (SIZE(1..4)) OPTIONAL, c SEQUENCE (SIZE(0..3)) OF IA5String
(SIZE(1..5)) (FROM ("a".."z")), d CHOICE { x BOOLEAN, y ENUMERATED { r(1), g(2) } }, e BIT STRING (SIZE(3)),
f INTEGER (0..255) DEFAULT 7 }`. -/
def exObjTy : CTy := .seq
  (.cons .mandatory (.int ⟨true, 0, 2 ^ 64 - 1⟩ [.union (.range (.range 0 10 true true)) (.range (.range 20 30 true true))])
  (.cons .optional (.octets 1 4 [.size (.leaf (.range 1 4 true true))])
  (.cons .mandatory (.seqOf 0 3 (.str 1 5 ((List.range' 97 26).map (BitVec.ofNat 8))
      [.size (.leaf (.range 1 5 true true)), .alphabet (.leaf (.range 97 122 true true))])
    [.size (.leaf (.range 0 3 true true))])
  (.cons .mandatory (.choice (.cons (.bool []) (.cons (.enum [1, 2] []) .nil)) [])
  (.cons .mandatory (.bits 3 3 [.size (.leaf (.single 3))])
  (.cons (.default (.int 7)) (.int ⟨true, 0, 2 ^ 64 - 1⟩ [.range (.range 0 255 true true)]) .nil)))))) []

/-- An object of this type; `junk` is in the unused parts of its memory. -/
def exObjVal (x : Int) (junk : Byte) (h : Bool) : CVal :=
  .seq [(h, .int x), (true, .octets 3 [1#8, 2#8, 3#8, junk]),
    (h, .seqOf 2 [.str [97#8, 98#8, 0#8, junk, 0#8, junk], .str [122#8, 0#8, junk, 0#8, 0#8, 0#8], .str (List.replicate 6 junk)]),
    (h, .choice 2 (.enum 2)), (h, .bits junk.toNat [0xA0#8 ||| (junk &&& 0x1F#8)]), (false, .int 7)]

/-- Its value. -/
def exObjAV (x : Int) : AV := .seq [some (.int x), some (.octets [1#8, 2#8, 3#8]), some (.seqOf [.str [97#8, 98#8], .str [122#8]]),
  some (.choice 1 (.enum 2)), some (.bits [true, false, true]), none]

theorem exObjTy_fits : exObjTy.Fits := by
  simp [exObjTy, CTy.Fits, CFields.Fits, CAlts.Fits, AC.Fits, AC.Definite, CTy.actual, CTy.layout, CTy.fixedSize, CTy.capacity,
    Con.Leaves, RLeaf.LitsFit, AlphaLeaf.Octets, Con.Sat, RLeaf.Sat]

theorem exObjTy_ok : Ok (uperTy exObjTy) := by
  simp [exObjTy, uperTy, uperIn, effLo, effHi, uperFields, uperAlts, COpt.toOpt, Ok, OkFields, OkAlts]
  have h1 : intRangeOf [.union (.range (.range 0 10 true true)) (.range (.range 20 30 true true))] = some (.concrete 0 30) := by decide +kernel
  have h2 : intRangeOf [.range (.range 0 255 true true)] = some (.concrete 0 255) := by decide +kernel
  rw [h1, h2]
  refine ⟨?_, ⟨by decide, by decide, by decide⟩, ?_⟩ <;> simp [Rng.ok, IntClass.bits]

theorem exObjTy_plain : PlainSizes (uperTy exObjTy) := by
  simp [exObjTy, uperTy, uperIn, effLo, effHi, uperFields, uperAlts, COpt.toOpt, PlainSizes, PlainSizesFields, PlainSizesAlts]

theorem exObjTy_computed : Computed exObjTy := by
  simp only [exObjTy, Computed, ComputedIn, List.append_nil, effLo, effHi, EffectiveSize, ComputedFields, ComputedAlts]
  refine ⟨trivial, ⟨⟨_, false, rfl, rfl⟩, _, _, rfl, rfl, ?_⟩, ⟨_, rfl, rfl, ?_, ?_, ?_⟩,
    ⟨⟨_, rfl, rfl, ?_, ?_, ?_⟩, by decide +kernel, _, List.range' 97 26, rfl, rfl, ?_, ?_, by decide +kernel⟩,
    ⟨trivial, trivial, ⟨_, rfl⟩, trivial⟩, ⟨_, rfl, rfl, ?_, ?_, ?_⟩, ⟨⟨_, false, rfl, rfl⟩, _, _, rfl, rfl, ?_⟩, trivial⟩ <;>
  simp [SerialNoMin, Con.Leaves, SizeLeaf.U32, StrLeaf.U32, RLeaf.U32, RLeaf.NotMin, Con.NoMinInter, SizeLeaf.NotMin, StrLeaf.NotMin,
    SizeLeaf.NoMinInter]

theorem exObj_codable : Codable exObjTy (exObjAV 25) := by
  have h1 : intRangeOf [.union (.range (.range 0 10 true true)) (.range (.range 20 30 true true))] = some (.concrete 0 30) := by decide +kernel
  simp [exObjTy, exObjAV, Codable, CodableIn, CodableFields, CodableAlt, COpt.markedAbsent, COpt.markedPresent, h1, Rng.holds64]

theorem exObj_stored : Stored exObjTy (toVal exObjTy (exObjAV 25)) (exObjVal 25 0#8 false) := by
  have hp : packBits [true, false, true] <+: [0xA0#8] := by decide +kernel
  simp [exObjTy, exObjAV, exObjVal, toVal, toValFields, toValAlt, Stored, StoredIn, StoredFields, StoredAlt]
  refine ⟨?_, hp, rfl⟩
  intro i v x h1 h2
  rcases i with _ | _ | i <;> simp at h1 h2 <;> subst h1 h2 <;> simp [StoredIn]

/-- The object with the value 15 in `a` is refused: `C94_refused_partial`. -/
example : meaning exObjTy (exObjVal 15 0#8 true) = some (exObjAV 15) ∧ ¬ exObjTy.Sat (exObjAV 15) ∧
    encodeObject exObjTy (exObjVal 15 0#8 true) true ⟨[0#8], 1, 0, 0⟩ = .ok ((false, some [0]), ⟨[0#8], 1, 0, 0⟩) :=
  ⟨rfl, by simp [exObjTy, exObjAV, CTy.Sat, CFields.Sat, AC.Sat, RLeaf.Sat], by decide +kernel⟩

example : exObjTy.Fits ∧ Computed exObjTy ∧ Ok (uperTy exObjTy) ∧ PlainSizes (uperTy exObjTy) ∧ exObjTy.noReal = true ∧
    meaning exObjTy (exObjVal 25 0xFF#8 true) = some (exObjAV 25) ∧ Codable exObjTy (exObjAV 25) ∧
    isConstraintValid exObjTy (exObjVal 25 0xFF#8 true) none ⟨[], 0, 0, 0⟩ = .ok ((true, none), ⟨[], 0, 0, 0⟩) ∧
    Stored exObjTy (toVal exObjTy (exObjAV 25)) (exObjVal 25 0#8 false) :=
  ⟨exObjTy_fits, exObjTy_computed, exObjTy_ok, exObjTy_plain, rfl, rfl, exObj_codable, by decide +kernel, exObj_stored⟩

theorem exObjTy_init : exObjTy.InitOk [] none := by
  simp only [exObjTy, CTy.InitOk, CFields.InitOk, CAlts.InitOk, CTy.Storable, CTy.Sat, List.append_nil, true_and, and_true]
  refine ⟨⟨?_, ⟨25, ?_, ?_⟩, ?_⟩, .inl ⟨?_, ?_, ?_⟩, ⟨?_, ?_, ?_, ⟨97#8, ?_⟩, ?_⟩, ⟨?_, true, ?_⟩, ⟨?_, ?_, ?_⟩, ?_, ?_⟩
  · simp [AC.Positive, AC.Over, AC.IntLeaf]
  · simp [IntClass.Word]
  · simp [SatAll, AC.Sat, RLeaf.Sat]
  · simp [SatAll, AC.Sat, RLeaf.Sat, IntClass.Word]; omega
  · simp [AC.Over, AC.SizeLeaf]
  · unfold Narrower; decide
  · intro l hl; simp [SatAll, AC.Sat, AV.size, Con.Sat, RLeaf.Sat] at hl ⊢; omega
  · unfold Narrower; decide
  · intro l hl; simp at hl; simp [SatAll, AC.Sat, AV.size, Con.Sat, RLeaf.Sat, hl]
  · decide
  · decide
  · intro ch hch _ _
    simp only [List.mem_map, List.mem_range'] at hch
    obtain ⟨n, ⟨i, hi, rfl⟩, rfl⟩ := hch
    simp [SatAll, AC.Sat, AV.size, Con.Sat, RLeaf.Sat, AlphaLeaf.Sat]
    omega
  · simp
  · simp [SatAll]
  · simp [AC.Over, AC.SizeLeaf]
  · unfold Narrower; decide
  · intro l hl; simp [SatAll, AC.Sat, AV.size, Con.Sat, RLeaf.Sat] at hl ⊢; omega
  · decide
  · simp [AC.Sat, RLeaf.Sat]

/-- The initialised object (2 bits for the presence of `b` and `f`, 5 for `a`, 2 + 8 for `b`, 2 for `c`, 2 for `d`, 3 for `e`, 8 for `f`) is encoded. -/
example : exObjTy.InitOk [] none ∧ (∀ u, HasLayout u (zeroMem u)) ∧
    ((initializeC zeroMem exObjTy (zeroMem exObjTy) >>= fun w => encodeObject exObjTy w true) ⟨List.replicate 16 0#8, 16, 0, 0⟩)
      = .ok ((true, none), ⟨[0xC0#8, 0x00#8, 0x00#8, 0x07#8] ++ List.replicate 12 0#8, 16, 4, 0⟩) :=
  ⟨exObjTy_init, zeroMem_layout, by decide +kernel⟩

/-! ## References with constraints of their own -/

/-- `T1 ::= INTEGER (0..10)`, `T2 ::= OCTET STRING (SIZE(1..4))`, `T3 ::= IA5String (SIZE(1..5))`, `T4 ::= SEQUENCE (SIZE(0..3)) OF BOOLEAN`,
`T5 ::= ENUMERATED { r(1), g(2), b(3) }`; `SEQUENCE { a T1 (5..8), b T2 (SIZE(2..3)), c T3 (FROM("a".."c")), d T4 (SIZE(1..2)), e T5 (r | b) }`. -/
def exRefTy : CTy := .seq
  (.cons .mandatory (.ref (.int ⟨true, 0, 2 ^ 64 - 1⟩ [.range (.range 0 10 true true)]) none [.range (.range 5 8 true true)])
  (.cons .mandatory (.ref (.octets 1 4 [.size (.leaf (.range 1 4 true true))]) (some (2, 3)) [.size (.leaf (.range 2 3 true true))])
  (.cons .mandatory (.ref (.str 1 5 ((List.range 128).map (BitVec.ofNat 8)) [.size (.leaf (.range 1 5 true true))]) (some (1, 5))
    [.alphabet (.leaf (.range 97 99 true true))])
  (.cons .mandatory (.ref (.seqOf 0 3 (.bool []) [.size (.leaf (.range 0 3 true true))]) (some (1, 2)) [.size (.leaf (.range 1 2 true true))])
  (.cons .mandatory (.ref (.enum [1, 2, 3] []) none [.union (.item 1) (.item 3)]) .nil))))) []

/-- An object of this type. -/
def exRefVal (junk : Byte) (b : Bool) : CVal := .seq [(b, .int 7), (b, .octets 2 [1#8, 2#8, junk, junk]), (b, .str [97#8, 99#8, 0#8, junk, junk, 0#8]),
  (b, .seqOf 1 [.bool true, .bool b, .bool b]), (b, .enum 3)]

/-- Its value. -/
def exRefAV : AV := .seq [some (.int 7), some (.octets [1#8, 2#8]), some (.str [97#8, 99#8]), some (.seqOf [.bool true]), some (.enum 3)]

theorem exRefTy_fits : exRefTy.Fits := by
  simp [exRefTy, CTy.Fits, CFields.Fits, AC.Fits, AC.Definite, CTy.actual, CTy.resize, CTy.layout, CTy.fixedSize, CTy.capacity,
    Con.Leaves, RLeaf.LitsFit, AlphaLeaf.Octets]

theorem exRefTy_ia5 : strChars [.size (.leaf (.range 1 5 true true))] = some ((List.range 128).map (BitVec.ofNat 8)) := by decide +kernel

theorem exRefTy_abc : strChars [.size (.leaf (.range 1 5 true true)), .alphabet (.leaf (.range 97 99 true true))] = some [97#8, 98#8, 99#8] := by
  decide +kernel

theorem exRefTy_range : intRangeOf [.range (.range 0 10 true true), .range (.range 5 8 true true)] = some (.concrete 5 8) := by decide +kernel

/-- What is encoded: INTEGER (5..8) in two bits, sizes 2..3 and 1..2 in one bit each, characters of the alphabet `abc` in two bits, one of two items in one
bit. -/
example : uperTy exRefTy = .seq
    (.cons .mandatory (.int 64 (.concrete 5 8)) (.cons .mandatory (.octets 2 3) (.cons .mandatory (.str [97#8, 98#8, 99#8] 1 5)
      (.cons .mandatory (.seqOf 1 2 .bool) (.cons .mandatory (.enum [1, 2, 3] [1, 3] none) .nil))))) := by
  simp [exRefTy, uperTy, uperIn, uperFields, COpt.toOpt, CTy.sameWithMore, CTy.layout, effLo, effHi, exRefTy_abc, exRefTy_range, IntClass.bits]
  decide

theorem exRefTy_ok : Ok (uperTy exRefTy) := by
  simp [exRefTy, uperTy, uperIn, uperFields, COpt.toOpt, CTy.sameWithMore, CTy.layout, effLo, effHi, exRefTy_abc, exRefTy_range, IntClass.bits, Ok, OkFields,
    Rng.ok]
  decide

theorem exRefTy_computed : Computed exRefTy := by
  simp only [exRefTy, Computed, ComputedIn, ComputedFields, List.append_nil, List.cons_append, List.nil_append, effLo, effHi, EffectiveSize, Option.or, sizeCons]
  refine ⟨trivial, ⟨⟨_, false, rfl, rfl⟩, _, _, rfl, rfl, ?_⟩, ⟨_, rfl, rfl, ?_, ?_, ?_⟩, ⟨exRefTy_ia5, _, [97, 98, 99], rfl, rfl, ?_, ?_, by decide +kernel⟩,
    ⟨⟨_, rfl, rfl, ?_, ?_, ?_⟩, trivial⟩, ⟨_, rfl⟩, trivial⟩ <;>
  simp [SerialNoMin, Con.Leaves, SizeLeaf.U32, StrLeaf.U32, RLeaf.U32, RLeaf.NotMin, Con.NoMinInter, SizeLeaf.NotMin, StrLeaf.NotMin,
    SizeLeaf.NoMinInter]

example : exRefTy.Fits ∧ Computed exRefTy ∧ Ok (uperTy exRefTy) ∧ meaning exRefTy (exRefVal 0xFF#8 true) = some exRefAV ∧ Codable exRefTy exRefAV ∧
    exRefTy.noReal = true ∧ isConstraintValid exRefTy (exRefVal 0xFF#8 true) none ⟨[], 0, 0, 0⟩ = .ok ((true, none), ⟨[], 0, 0, 0⟩) ∧
    Stored exRefTy (toVal exRefTy exRefAV) (exRefVal 0#8 false) := by
  refine ⟨exRefTy_fits, exRefTy_computed, exRefTy_ok, rfl, ?_, rfl, by decide +kernel, ?_⟩
  · simp [exRefTy, exRefAV, Codable, CodableIn, CodableFields, exRefTy_range, Rng.holds64, COpt.markedAbsent]
  · simp [exRefTy, exRefAV, exRefVal, toVal, toValFields, Stored, StoredIn, StoredFields]
    intro i v x h1 h2
    rcases i with _ | i <;> simp at h1 h2
    subst h1 h2; simp [StoredIn]

/-- C94 is false for a reference that fixes the size of a type of variable size, `B ::= T (SIZE(2))` with `T ::= OCTET STRING (SIZE(1..4))`: the C type has
a count, but the decoder does not store it. The object is accepted and encoded; after decoding into an object with the count 0, the object
holds the empty string. The check accepts it all the same. -/
theorem C94_fixedReference_violation :
    let t : CTy := .ref (.octets 1 4 [.size (.leaf (.range 1 4 true true))]) (some (2, 2)) [.size (.leaf (.single 2))]
    let v : CVal := .octets 2 [1#8, 2#8, 0#8, 0#8]
    let w : CVal := .octets 0 [1#8, 2#8, 0#8, 0#8]
    meaning t v = some (.octets [1#8, 2#8]) ∧ t.Sat (.octets [1#8, 2#8]) ∧
    encodeObject t v true ⟨[0#8, 0#8], 2, 0, 0⟩ = .ok ((true, none), ⟨[1#8, 2#8], 2, 2, 0⟩) ∧
    decodeType (uperTy t) ⟨[1#8, 2#8], 2, 0, 0⟩ = .ok ((true, .octets [1#8, 2#8]), ⟨[1#8, 2#8], 2, 2, 0⟩) ∧
    Stored t (.octets [1#8, 2#8]) w ∧ meaning t w = some (.octets []) ∧ ¬ t.Sat (.octets []) := by
  refine ⟨rfl, ?_, by rfl, by rfl, ?_, rfl, ?_⟩
  · simp [CTy.Sat, AC.Sat, AV.size, Con.Sat, RLeaf.Sat]
  · simp [Stored, StoredIn, effLo, effHi]
  · simp [CTy.Sat, AC.Sat, AV.size, Con.Sat, RLeaf.Sat]

end Asn1
