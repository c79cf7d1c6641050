import Verif.Proof.XerGenSafe
import Verif.Proof.XerVal
import Verif.Props.Xer
/-!
# Generated XER codecs: C67, C68, C69, C70
-/
namespace Asn1

/-! ## An example -/

/-- `SEQUENCE { id INTEGER (0..255), nick IA5String (SIZE (0..9)) OPTIONAL, col ENUMERATED { red, green }, f SEQUENCE (SIZE (0..3)) OF
BOOLEAN, pay CHOICE { cash NULL, card OCTET STRING (SIZE (2..4)) }, n INTEGER DEFAULT 7 }`. -/
def xPerson : XTy :=
  .seq 0 (.cons (text ['i', 'd']) .mandatory (.int 1 (some fun v => decide (0 ≤ v) && decide (v ≤ 255)))
    (.cons (text ['n', 'i', 'c', 'k']) .optional (.str 1 false 9 10)
    (.cons (text ['c', 'o', 'l']) .mandatory (.enum 1 [(text ['r', 'e', 'd']), (text ['g', 'r', 'e', 'e', 'n'])])
    (.cons (text ['f']) .mandatory (.seqOf 1 0 3 (some []) (.bool 2))
    (.cons (text ['p', 'a', 'y']) .mandatory (.choice 1 (.cons (text ['c', 'a', 's', 'h']) (.null 2) (.cons (text ['c', 'a', 'r', 'd']) (.octets 2 2 4) .nil)))
    (.cons (text ['n']) (.default (.int 7)) (.int 1 none) .nil))))))

/-- A value of it. -/
def xPersonVal : XVal :=
  .seq [(true, .int 42), (true, .str (text ['B', 'o'])), (true, .enum 1), (true, .seqOf [.bool true, .bool false]),
    (true, .choice 1 (.octets 2 [0xAB#8, 7#8, 0#8, 0#8])), (false, .int 7)]

theorem goodTag_of {tag : List Byte} (h : (decide (tag ≠ []) && decide (tag.length ≤ 99) &&
    tag.all fun b => decide (0x61 ≤ b.toNat ∧ b.toNat ≤ 0x7A) || decide (0x41 ≤ b.toNat ∧ b.toNat ≤ 0x5A)) = true) : GoodTag tag := by
  simp only [Bool.and_eq_true, decide_eq_true_eq, List.all_eq_true, Bool.or_eq_true] at h
  refine ⟨h.1.1, h.1.2, fun b hb => ?_⟩
  rcases h.2 b hb with k | k
  · exact .inr (.inl k)
  · exact .inl k

theorem good_some {tag : List Byte} (h : GoodTag tag) : ∀ t, some tag = some t → GoodTag t := by
  intro t e; cases e; exact h

theorem good_some' {tag : List Byte} (h : GoodTag tag) : ∀ t, some tag = some t → t = [] ∨ GoodTag t := by
  intro t e; cases e; exact .inr h

theorem xPerson_ok : XOk xPerson (some (text ['P', 'e', 'r', 's', 'o', 'n'])) := by
  simp only [xPerson, XOk, XOkFields, XOkAlts]
  refine ⟨good_some (goodTag_of (by decide)), by simp only [XFields.names]; decide, goodTag_of (by decide), good_some (goodTag_of (by decide)),
    goodTag_of (by decide), ⟨good_some (goodTag_of (by decide)), trivial⟩, goodTag_of (by decide),
    ⟨good_some' (goodTag_of (by decide)), by decide, ?_⟩, goodTag_of (by decide),
    ⟨good_some (goodTag_of (by decide)), fun t e => .inl (by cases e; rfl)⟩, goodTag_of (by decide),
    ⟨good_some' (goodTag_of (by decide)), by simp only [XAlts.names]; decide, goodTag_of (by decide), good_some (goodTag_of (by decide)),
      goodTag_of (by decide), ⟨good_some (goodTag_of (by decide)), by decide⟩, trivial⟩,
    goodTag_of (by decide), good_some (goodTag_of (by decide)), trivial⟩
  intro l hl
  rcases List.mem_cons.mp hl with rfl | hl
  · exact goodTag_of (by decide)
  · rcases List.mem_cons.mp hl with rfl | hl
    · exact goodTag_of (by decide)
    · cases hl

theorem xPerson_has : XHas xPerson xPersonVal := by
  simp only [xPerson, xPersonVal, XHas, XHasFields, XHasAlt]
  refine ⟨?_, ?_, ?_, ?_, ?_, ?_, trivial⟩
  · rw [if_pos trivial]; refine ⟨by decide, by decide, fun f e => ?_⟩; cases e; rfl
  · rw [if_pos trivial]; exact ⟨by unfold PlainText; decide, by decide⟩
  · rw [if_pos trivial]; decide
  · rw [if_pos trivial]; refine ⟨by decide, by decide, fun v hv => ?_⟩
    rcases List.mem_cons.mp hv with rfl | hv
    · simp only [XHas]
    · rcases List.mem_cons.mp hv with rfl | hv
      · simp only [XHas]
      · cases hv
  · rw [if_pos trivial]; exact ⟨by decide, by decide, by decide, by decide⟩
  · rw [if_neg (by decide)]; trivial

/-! ## C67: round trip of the generated codecs -/

/-- C67: the text the generated encoder writes for a value. -/
theorem C67_text_partial (name : List Byte) (t : XTy) (v : XVal) (ht : XOk t (some name)) (hv : XHas t v) :
    XWrites (xerEncodeType name t v) (fun w => xText w t (some name) v) := xEnc_writes t (some name) v ht hv

/-- C67: whatever the generated encoder has written for a value, the generated decoder of the same type reads back as `TRUE` and this value, whatever
was in the destination (`old`) and whatever follows, with and without white space. Partial: names of at most 99 characters, OCTET STRING of at
most 511 octets, BIT STRING of at most 2047 bits, text without `<`, `sizeof` of strings (`XOk`, `XHas`). -/
theorem C67_round_trip_partial (old : List Nat → Int) (name : List Byte) (t : XTy) (v : XVal) (ht : XOk t (some name)) (hv : XHas t v) :
    XerRoundTrip (xerEncodeType name t v) (xerDecodeType old name t) (true, v) :=
  XerRoundTrip.of (xEnc_writes t (some name) v ht hv) fun w => xDec_reads old w t (some name) [] v ht hv

/-- The example meets the hypotheses; its text. -/
example : XOk xPerson (some (text ['P', 'e', 'r', 's', 'o', 'n'])) ∧ XHas xPerson xPersonVal ∧
    xText false xPerson (some (text ['P', 'e', 'r', 's', 'o', 'n'])) xPersonVal =
      (text ['<', 'P', 'e', 'r', 's', 'o', 'n', '>', '<', 'i', 'd', '>', '4', '2', '<', '/', 'i', 'd', '>', '<', 'n', 'i', 'c', 'k', '>', 'B', 'o', '<', '/', 'n', 'i', 'c', 'k', '>', '<', 'c', 'o', 'l', '>', '<', 'g', 'r', 'e', 'e', 'n', '/', '>', '<', '/', 'c', 'o', 'l', '>', '<', 'f', '>', '<', 't', 'r', 'u', 'e', '/', '>', '<', 'f', 'a', 'l', 's', 'e', '/', '>', '<', '/', 'f', '>', '<', 'p', 'a', 'y', '>', '<', 'c', 'a', 'r', 'd', '>', 'A', 'B', '0', '7', '<', '/', 'c', 'a', 'r', 'd', '>', '<', '/', 'p', 'a', 'y', '>', '<', '/', 'P', 'e', 'r', 's', 'o', 'n', '>']) :=
  ⟨xPerson_ok, xPerson_has, by decide +kernel⟩

/-- The code violates C67: in the decoder of a type assignment for a string, `sizeof` is applied to a parameter that is a pointer (8 octets), and
8 characters are refused. -/
theorem C67_violation_string (old : List Nat → Int) :
    XHas (.str 0 false 20 8) (.str (text ['a', 'b', 'c', 'd', 'e', 'f', 'g', 'h'])) ∧
    XReturns (xerDecodeType old (text ['N']) (.str 0 false 20 8)) (xerAttach (xText false (.str 0 false 20 8) (some (text ['N'])) (.str (text ['a', 'b', 'c', 'd', 'e', 'f', 'g', 'h'])))) (some (false, .unset)) := by
  refine ⟨by simp only [XHas]; exact ⟨by unfold PlainText; decide, by decide⟩, xGives_ok ?_⟩
  simp only [xerDecodeType, xDec]
  decide +kernel

/-- The code violates C67: a string with `<` is not read back. -/
theorem C67_violation_less_than (old : List Nat → Int) :
    XReturns (xerDecodeType old (text ['N']) (.seq 0 (.cons (text ['a']) .mandatory (.str 1 false 5 6) .nil)))
      (xerAttach (xText false (.seq 0 (.cons (text ['a']) .mandatory (.str 1 false 5 6) .nil)) (some (text ['N'])) (.seq [(true, .str (text ['1', '<', '2']))])))
      (some (false, .seq [(true, .unset)])) :=
  xGives_ok (by simp only [xerDecodeType, xDec, xDecFields]; decide +kernel)

/-! ## C68: the size announced for a type suffices -/

/-- C68: on a stream without white space and with at least `<Type>_REQUIRED_BYTES_FOR_XER_ENCODING` octets left, the generated encoder returns
`TRUE` for every value of the type, and has written its text. Partial: `XOk`, and `XSized` (items of an ENUMERATED at most twice as long as each other; no reference without a tag). -/
theorem C68_size_suffices_partial (name : List Byte) (t : XTy) (v : XVal) (ht : XOk t (some name)) (hz : XSized t (some name)) (hv : XHas t v)
    (s : XerStream) (hs : XReady s) (hw : s.white = false) (hroom : s.currentByte + xSize t (some name) ≤ s.count) :
    xerEncodeType name t v s = .ok (some (), s.put (xText false t (some name) v)) := by
  obtain ⟨r, s', e, _, _, h1, h2⟩ := xEnc_writes t (some name) v ht hv s hs
  have hl := xText_length t (some name) v hz hv
  rw [hw] at h1 h2
  dsimp only at h1 h2
  have hr := h2 (by omega)
  unfold xerEncodeType
  rw [e, hr, (h1 hr).1]

theorem xPerson_sized : XSized xPerson (some (text ['P', 'e', 'r', 's', 'o', 'n'])) := by
  simp only [xPerson, XSized, XSizedFields, XSizedAlts, and_self, and_true, true_and]
  decide

/-- The example. -/
example : XOk xPerson (some (text ['P', 'e', 'r', 's', 'o', 'n'])) ∧ XSized xPerson (some (text ['P', 'e', 'r', 's', 'o', 'n'])) ∧ XHas xPerson xPersonVal ∧ xSize xPerson (some (text ['P', 'e', 'r', 's', 'o', 'n'])) = 204 ∧
    (xText false xPerson (some (text ['P', 'e', 'r', 's', 'o', 'n'])) xPersonVal).length = 112 :=
  ⟨xPerson_ok, xPerson_sized, xPerson_has, by decide +kernel, by decide +kernel⟩

/-- The code violates C68: the size of an ENUMERATED is computed from the last item in alphabetical order, not from the longest; the encoder of the
first item fails. -/
theorem C68_violation_enumerated :
    let t : XTy := .enum 0 [(text ['a', 'b', 'c', 'd', 'e', 'f', 'g', 'h']), (text ['b'])]
    XHas t (.enum 0) ∧ xSize t (some (text ['E'])) = 13 ∧ XReturns (xerEncodeType (text ['E']) t (.enum 0)) (xerInit 13) none :=
  ⟨by simp only [XHas]; decide, by decide +kernel, XReturns.of (by simp only [xerEncodeType, xEnc]; decide +kernel)⟩

/-- The code violates C68: white space is not counted. -/
theorem C68_violation_white :
    let t : XTy := .seq 0 (.cons (text ['a']) .mandatory (.bool 1) .nil)
    let v : XVal := .seq [(true, .bool false)]
    XHas t v ∧ XReturns (xerEncodeType (text ['S']) t v) { xerInit (xSize t (some (text ['S']))) with white := true } none :=
  ⟨by simp only [XHas, XHasFields]; simp, XReturns.of (by simp only [xerEncodeType, xEnc, xEncFields]; decide +kernel)⟩

/-! ## C69: TRUE means a value of the type -/

/-- C69: on any text without double quotes and numbers of more than 18 digits, if the generated decoder returns `TRUE` the value is one of the
type: in range, with all mandatory components, with defaults where a component is absent, with no more elements than allowed. Partial: types
made of INTEGER, BOOLEAN, NULL, strings, SEQUENCE, SEQUENCE OF without a lower bound and CHOICE without a tag (`XChecked`); the integers that are
in the destination before the call are between 0 and 2^63 - 1. -/
theorem C69_checked_partial (old : List Nat → Int) (hold : ∀ p, 0 ≤ old p ∧ old p < 2 ^ 63) (t : XTy) (tag : Option (List Byte)) (path : List Nat)
    (ht : XChecked t tag) :
    XSafe (fun l => NoQuote l ∧ ShortNumbers l) (xDec old t tag path) (fun r => r.1 = true → XHas t r.2) := xDec_true hold t tag path ht

/-- A type of this kind, and a text that is refused because of an element out of range. -/
example :
    let t : XTy := .seq 0 (.cons (text ['a']) .optional (.str 1 false 9 10)
      (.cons (text ['f']) .mandatory (.seqOf 1 0 3 (some (text ['x'])) (.int 2 (some fun v => decide (0 ≤ v) && decide (v ≤ 10)))) .nil))
    XChecked t (some (text ['S'])) ∧
    XReturns (xDec (fun _ => 0) t (some (text ['S'])) []) (xerAttach (text ['<', 'S', '>', '<', 'f', '>', '<', 'x', '>', '7', '<', '/', 'x', '>', '<', 'x', '>', '1', '1', '<', '/', 'x', '>', '<', '/', 'f', '>', '<', '/', 'S', '>']))
      (some (false, .seq [(false, .unset), (true, .seqOf [.int 7, .int 11])])) := by
  refine ⟨?_, xGives_ok (by decide +kernel)⟩
  simp only [XChecked, XCheckedFields]
  refine ⟨⟨by decide, fun t e => ?_⟩, ⟨trivial, by decide, fun t e => ?_⟩, trivial⟩ <;> (cases e; unfold NoNul; decide)

/-- The code violates C69: a name that is not an item of the ENUMERATED is accepted, and the value is whatever was there before. -/
theorem C69_violation_enumerated (old : List Nat → Int) :
    XReturns (xerDecodeType old (text ['E']) (.enum 0 [(text ['r', 'e', 'd']), (text ['g', 'r', 'e', 'e', 'n'])])) (xerAttach (text ['<', 'E', '>', '<', 'b', 'l', 'u', 'e', '/', '>', '<', '/', 'E', '>'])) (some (true, .unset)) :=
  xGives_ok (by simp only [xerDecodeType, xDec]; decide +kernel)

/-- The code violates C69: one element is accepted for a SEQUENCE OF with exactly two, and for one with two to three. -/
theorem C69_violation_sequence_of (old : List Nat → Int) :
    (XReturns (xerDecodeType old (text ['S']) (.seqOf 0 2 2 (some []) (.bool 1))) (xerAttach (text ['<', 'S', '>', '<', 't', 'r', 'u', 'e', '/', '>', '<', '/', 'S', '>'])) (some (true, .seqOf [.bool true, .unset]))) ∧
    XReturns (xerDecodeType old (text ['S']) (.seqOf 0 2 3 (some []) (.bool 1))) (xerAttach (text ['<', 'S', '>', '<', 't', 'r', 'u', 'e', '/', '>', '<', '/', 'S', '>'])) (some (true, .seqOf [.bool true])) :=
  ⟨xGives_ok (by simp only [xerDecodeType, xDec]; decide +kernel), xGives_ok (by simp only [xerDecodeType, xDec]; decide +kernel)⟩

/-- The code violates C69: an empty input is accepted for `INTEGER (0..10)` if a value in range was in the destination: the result of the
check replaces that of the decoder. -/
theorem C69_violation_integer :
    XReturns (xerDecodeType (fun _ => 5) (text ['I']) (.int 0 (some fun v => decide (0 ≤ v) && decide (v ≤ 10)))) (xerAttach []) (some (true, .int 5)) :=
  xGives_ok (by decide +kernel)

/-- The code violates C69: 11 is accepted for `CHOICE { a INTEGER (0..10) }`: the result of reading the end tag replaces that of the alternative. -/
theorem C69_violation_choice :
    XReturns (xerDecodeType (fun _ => 0) (text ['C']) (.choice 0 (.cons (text ['a']) (.int 1 (some fun v => decide (0 ≤ v) && decide (v ≤ 10))) .nil)))
      (xerAttach (text ['<', 'C', '>', '<', 'a', '>', '1', '1', '<', '/', 'a', '>', '<', '/', 'C', '>'])) (some (true, .choice 0 (.int 11))) :=
  xGives_ok (by decide +kernel)

/-- The code violates C69: three octets are accepted for an OCTET STRING of at most two, and `nCount` is 3. -/
theorem C69_violation_octets (old : List Nat → Int) :
    XReturns (xerDecodeType old (text ['O']) (.octets 0 0 2)) (xerAttach (text ['<', 'O', '>', '0', '1', '0', '2', '0', '3', '<', '/', 'O', '>'])) (some (true, .octets 3 [1#8, 2#8])) :=
  xGives_ok (by simp only [xerDecodeType, xDec]; decide +kernel)

/-! ## C70: generated decoders keep inside the buffers -/

/-- C70: on any text without double quotes and numbers of more than 18 digits, whatever else is in it, the generated decoder comes to
an end, without undefined behaviour, changes nothing but the position in the stream and leaves that inside. Partial: `XSafeTy` (BIT STRING of 2041 bits or more, `sizeof` of a string not larger than the array). -/
theorem C70_decoder_safe_partial (old : List Nat → Int) (t : XTy) (tag : Option (List Byte)) (path : List Nat) (ht : XSafeTy t tag) :
    XSafe (fun l => NoQuote l ∧ ShortNumbers l) (xDec old t tag path) (fun _ => True) := (xDec_safe old t tag path ht).weaken fun _ _ => trivial

/-- The example meets the hypothesis. -/
example : XSafeTy xPerson (some (text ['P', 'e', 'r', 's', 'o', 'n'])) := by
  simp only [xPerson, XSafeTy, XSafeFields, XSafeAlts, and_self, and_true, true_and]
  refine ⟨fun t e => ?_, by decide, fun t e => ?_⟩ <;> (cases e; unfold NoNul; decide)

/-- A text of the kind, cut off in the middle of a tag. -/
example : NoQuote (text ['<', 'P', 'e', 'r', 's', 'o', 'n', '>', '<', 'i', 'd', '>', '4', '<', '/', 'i']) ∧ ShortNumbers (text ['<', 'P', 'e', 'r', 's', 'o', 'n', '>', '<', 'i', 'd', '>', '4', '<', '/', 'i']) := by
  refine ⟨by unfold NoQuote; decide, fun d hd _ => Nat.le_trans hd.length_le (by decide)⟩

/-- The code violates C70: nine bits for `BIT STRING (SIZE (0..8))`. -/
theorem C70_violation_bits (old : List Nat → Int) :
    xerDecodeType old (text ['B']) (.bits 0 0 8) (xerAttach (text ['<', 'B', '>', '1', '1', '1', '1', '1', '1', '1', '1', '1', '<', '/', 'B', '>'])) = .ub := Res.eq_ub (by simp only [xerDecodeType, xDec]; decide +kernel)

/-- The code violates C70: seven characters for a type assignment `IA5String (SIZE (0..3))`; `sizeof` is 8. -/
theorem C70_violation_string (old : List Nat → Int) :
    xerDecodeType old (text ['N']) (.str 0 false 3 8) (xerAttach (text ['<', 'N', '>', 'a', 'b', 'c', 'd', 'e', 'f', 'g', '<', '/', 'N', '>'])) = .ub := Res.eq_ub (by simp only [xerDecodeType, xDec]; decide +kernel)

/-- The code violates C70: an attribute in the tag of a SEQUENCE. -/
theorem C70_violation_attribute (old : List Nat → Int) :
    xerDecodeType old (text ['S']) (.seq 0 .nil) (xerAttach (text ['<', 'S', ' ', 'a', '=', '"', '1', '"', '>', '<', '/', 'S', '>'])) = .ub := Res.eq_ub (by simp only [xerDecodeType, xDec, xDecFields]; decide +kernel)

end Asn1
