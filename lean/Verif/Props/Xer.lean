import Verif.Proof.XerAccept
import Verif.Proof.Outcome
import Verif.Proof.GenStr
/-!
# XER: C63, C64, C65, C66
-/
namespace Asn1

theorem XerRoundTrip.of {α : Type} {enc : XM Unit} {dec : XM α} {a : α} {l : Bool → List Byte} (hw : XWrites enc l) (hr : ∀ w, XReads dec a (l w)) :
    XerRoundTrip enc dec a := by
  intro s s' hs e t rest ht hu
  obtain ⟨r, s1, e1, _, _, h, _⟩ := hw s hs
  rw [e] at e1
  injection e1 with e1; injection e1 with e2 e3
  subst e3
  obtain ⟨h, hfit⟩ := h e2.symm
  have hwr : s.written s' = l s.white := by
    unfold XerStream.written
    rw [h]
    unfold XerStream.put
    have h1 : s.currentByte ≤ s.buf.length := Nat.le_trans hs.pos hs.fits
    dsimp only
    rw [List.append_assoc, List.take_append, List.length_take, Nat.min_eq_left h1, List.take_of_length_le (by rw [List.length_take]; omega),
      List.drop_append, List.length_take, Nat.min_eq_left h1, List.drop_of_length_le (by rw [List.length_take]; omega), Nat.sub_self, List.nil_append,
      List.drop_zero, Nat.add_sub_cancel_left, List.take_left]
  rw [hwr] at hu
  obtain ⟨t', w', k1, k2, k3, k4, k5, k6, k7⟩ := hr s.white t [] rest ht isSpaces_nil (by rw [hu]; rfl)
  exact ⟨t', w', k1, k2, ⟨k3, k4, k5⟩, k6, k7⟩

/-- What is returned, computed. -/
def xResult {α : Type} : Res (Option α × XerStream) → Option (Option α)
  | .ok p => some p.1
  | _ => none

theorem XReturns.of {α : Type} {f : XM α} {s : XerStream} {r : Option α} (h : xResult (f s) = some r) : XReturns f s r := by
  unfold XReturns
  cases hf : f s with
  | ok p => rw [hf] at h; obtain ⟨a, s'⟩ := p; injection h with h; exact ⟨s', by rw [← h]⟩
  | ub => rw [hf] at h; cases h
  | abort => rw [hf] at h; cases h

theorem PlainText.noNul' {l : List Byte} (h : PlainText l) : NoNul l := fun b hb => (h b hb).2

/-! ## C65: the text that is written -/

/-- C65, NULL: `<tag/>`. -/
theorem C65_null (tag : List Byte) (level : Int) (ht : NoNul tag) : XWrites (xerEncodeNull tag level) (fun w => line w level (emptyTag tag)) :=
  xerEncodeNull_writes ht

/-- C65, INTEGER: the decimal notation of the value. -/
theorem C65_integer (tag : List Byte) (v level : Int) (ht : NoNul tag) (hv : -(2 ^ 63) ≤ v ∧ v < 2 ^ 63) :
    XWrites (xerEncodeInteger tag v level) (fun w => line w level (element tag (decimalInt v))) := xerEncodeInteger_writes ht hv

/-- C65, INTEGER that is not negative. -/
theorem C65_pos_integer (tag : List Byte) (v : Nat) (level : Int) (ht : NoNul tag) (hv : v < 2 ^ 64) :
    XWrites (xerEncodePosInteger tag v level) (fun w => line w level (element tag (decimalNat v))) := xerEncodePosInteger_writes ht hv

/-- C65, BOOLEAN: `<true/>` or `<false/>`, within the tag if there is one. -/
theorem C65_boolean (tag : List Byte) (v : Bool) (level : Int) (ht : NoNul tag) :
    XWrites (xerEncodeBoolean tag v level) (fun w => line w level (wrapped tag (emptyTag (boolWord v)))) := by
  refine (xerEncodeBoolean_writes ht).congr fun w => ?_
  unfold wrapped element
  by_cases h : tag = []
  · rw [if_pos h, if_pos h]
  · rw [if_neg h, if_neg h, if_neg (by simp [emptyTag, text])]

/-- C65, ENUMERATED: the name as an empty element, within the tag if there is one; names of at most 252 characters. -/
theorem C65_enumerated_partial (tag value : List Byte) (level : Int) (ht : NoNul tag) (hv : NoNul value) (hl : value.length ≤ 252) :
    XWrites (xerEncodeEnumerated tag value level)
      (fun w => if tag = [] then line w level (emptyTag value) else lineNL w level (wrapped tag (emptyTag value))) := by
  refine (xerEncodeEnumerated_writes ht hv hl).congr fun w => ?_
  unfold lineNL wrapped element
  by_cases h : tag = []
  · rw [if_pos h, if_pos h]
  · rw [if_neg h, if_neg h, if_neg h, if_neg (by simp [emptyTag, text])]

/-- C65, character strings: the characters as they are. -/
theorem C65_string (tag value : List Byte) (level : Int) (ht : NoNul tag) (hv : NoNul value) :
    XWrites (xerEncodeString tag value level) (fun w => line w level (element tag value)) := encodePrimitiveElement_writes ht hv

/-- C65, OCTET STRING: two hexadecimal digits per octet. -/
theorem C65_octet_string (tag value : List Byte) (n : Nat) (level : Int) (ht : NoNul tag) (hn : n ≤ value.length) :
    XWrites (xerEncodeOctetString tag value n level) (fun w => lineNL w level (wrapped tag (hexText (value.take n)))) :=
  xerEncodeOctetString_writes ht hn

/-- C65, BIT STRING: a 0 or 1 per bit. -/
theorem C65_bit_string (tag value : List Byte) (n : Nat) (level : Int) (ht : NoNul tag) (hn : n ≤ 8 * value.length) :
    XWrites (xerEncodeBitString tag value n level) (fun w => lineNL w level (wrapped tag (bitText ((bytesBits value).take n)))) :=
  xerEncodeBitString_writes ht hn

/-- C65, OBJECT IDENTIFIER: the components with points between. -/
theorem C65_object_identifier (tag : List Byte) (values : List Nat) (level : Int) (ht : NoNul tag) (hv : ∀ v ∈ values, v < 2 ^ 64) :
    XWrites (xerEncodeObjectIdentifier tag values level) (fun w => lineNL w level (wrapped tag (oidText values))) :=
  xerEncodeObjectIdentifier_writes ht hv

/-- A fresh buffer is ready, and there is room in it; with `EncodeWhiteSpace` set there is a line. -/
example : XReady { xerInit 64 with white := true } ∧ NoNul (text ['a', 'g', 'e']) ∧
    line true 1 (element (text ['a', 'g', 'e']) (decimalInt (-42))) =
      text [' ', ' ', '<', 'a', 'g', 'e', '>', '-', '4', '2', '<', '/', 'a', 'g', 'e', '>', '\n'] := by
  refine ⟨⟨by decide, by decide, ?_⟩, by unfold NoNul; decide, by decide⟩
  intro i _ hi
  have hi : i < 64 := hi
  show (List.replicate 64 0#8)[i]? = _
  rw [List.getElem?_replicate, if_pos hi]

example : wrapped (text ['s']) (hexText [0xAB#8, 0x07#8]) = text ['<', 's', '>', 'A', 'B', '0', '7', '<', '/', 's', '>'] ∧
    oidText [1, 3, 6] = text ['1', '.', '3', '.', '6'] ∧ bitText [true, false] = text ['1', '0'] := by decide

/-- The code violates C65: a name of more than 252 characters is written behind the end of a local array. -/
theorem C65_violation_enumerated (tag : List Byte) (level : Int) :
    xerEncodeEnumerated tag (List.replicate 253 0x61#8) level (xerInit 4000) = .ub := by
  have h : (cstr (List.replicate 253 0x61#8)).length + 4 > 256 := by decide +kernel
  unfold xerEncodeEnumerated
  rw [if_pos h]
  rfl

/-- The code violates C65: the declaration is written without looking at the size of the buffer. -/
theorem C65_violation_header : xerEncodeXmlHeader (text ['<', '?', 'x', 'm', 'l', '?', '>']) (xerInit 4) = .ub := Res.eq_ub (by decide +kernel)

/-- The code violates C65: text is written with `strcat`, so in a buffer that has been used before (position set back to 0, not cleared)
it lands behind the old text, and what stands at the reported position is the old text. -/
theorem C65_violation_reused :
    xerEncodeInteger (text ['a']) 5 (-1) ⟨text ['<', 'b', '>', '0', '<', '/', 'b', '>'] ++ List.replicate 8 0#8, 16, 0, false⟩ ≠
      .ok (some (), ⟨text ['<', 'a', '>', '5', '<', '/', 'a', '>'] ++ List.replicate 8 0#8, 16, 8, false⟩) := by decide +kernel

/-! ## C63: round trips -/

/-- C63, NULL. -/
theorem C63_null_partial (tag : List Byte) (level : Int) (ht : GoodTag tag) : XerRoundTrip (xerEncodeNull tag level) (xerDecodeNull tag) () :=
  .of (xerEncodeNull_writes ht.noNul) fun w => (xerDecodeNull_reads ht).line w level

/-- C63, INTEGER: every value of 64 bits. -/
theorem C63_integer_partial (tag : List Byte) (v level : Int) (ht : GoodTag tag) (hv : -(2 ^ 63) ≤ v ∧ v < 2 ^ 63) :
    XerRoundTrip (xerEncodeInteger tag v level) (xerDecodeInteger tag) v :=
  .of (xerEncodeInteger_writes ht.noNul hv) fun w => (xerDecodeInteger_reads ht hv).line w level

/-- C63, INTEGER that is not negative: every value of 64 bits. -/
theorem C63_pos_integer_partial (tag : List Byte) (v : Nat) (level : Int) (ht : GoodTag tag) (hv : v < 2 ^ 64) :
    XerRoundTrip (xerEncodePosInteger tag v level) (xerDecodePosInteger tag) v :=
  .of (xerEncodePosInteger_writes ht.noNul hv) fun w => (xerDecodePosInteger_reads ht hv).line w level

/-- C63, BOOLEAN, with and without a tag. -/
theorem C63_boolean_partial (tag : List Byte) (v : Bool) (level : Int) (ht : tag = [] ∨ GoodTag tag) :
    XerRoundTrip (xerEncodeBoolean tag v level) (xerDecodeBoolean tag) v := by
  have hn : NoNul tag := by
    rcases ht with rfl | ht
    · intro b hb; cases hb
    · exact ht.noNul
  exact .of (C65_boolean tag v level hn) fun w => by
    have := (xerDecodeBoolean_reads (v := v) ht).line w level
    exact this

/-- C63, ENUMERATED, with and without a tag. -/
theorem C63_enumerated_partial (tag value : List Byte) (level : Int) (ht : tag = [] ∨ GoodTag tag) (hv : GoodTag value) :
    XerRoundTrip (xerEncodeEnumerated tag value level) (xerDecodeEnumerated tag) value := by
  have hn : NoNul tag := by
    rcases ht with rfl | ht
    · intro b hb; cases hb
    · exact ht.noNul
  refine .of (C65_enumerated_partial tag value level hn hv.noNul (by have := hv.2.1; omega)) fun w => ?_
  have h := xerDecodeEnumerated_reads ht hv
  by_cases h0 : tag = []
  · subst h0
    exact h.line w level
  · rw [if_neg h0]
    exact h.lineNL w level

/-- C63, character strings without `<` and 0 that fit: the array begins with the characters and a 0. -/
theorem C63_string_partial (tag value arr : List Byte) (n : Nat) (level : Int) (ht : GoodTag tag) (hv : PlainText value) (hl : value.length < n)
    (ha : n ≤ arr.length) :
    XerRoundTrip (xerEncodeString tag value level) (xerDecodeString tag arr n) (value ++ [0#8] ++ arr.drop (value.length + 1)) :=
  .of (C65_string tag value level ht.noNul hv.noNul') fun w => (xerDecodeString_reads ht hv hl ha).line w level

/-- C63, OCTET STRING of at most 511 octets. -/
theorem C63_octet_string_partial (tag value arr : List Byte) (n m : Nat) (level : Int) (ht : GoodTag tag) (hn : n ≤ value.length) (hm : n ≤ m)
    (ha : m ≤ arr.length) (h511 : n ≤ 511) :
    XerRoundTrip (xerEncodeOctetString tag value n level) (xerDecodeOctetString tag arr m) (value.take n ++ arr.drop n, n) :=
  .of (C65_octet_string tag value n level ht.noNul hn) fun w => by
    have := xerDecodeOctetString_reads (c := value.take n) (value := arr) (m := m) ht (by rw [List.length_take]; omega) ha (by rw [List.length_take]; omega)
    rw [List.length_take, Nat.min_eq_left hn] at this
    exact this.lineNL w level

/-- C63, BIT STRING of at most 2047 bits: `p` are the octets of the value, with 0 behind the last bit. -/
theorem C63_bit_string_partial (tag p arr : List Byte) (c : List Bool) (m : Nat) (level : Int) (ht : GoodTag tag) (hp : Packed c p) (hm : p.length ≤ m)
    (ha : m ≤ arr.length) (h2047 : c.length ≤ 2047) :
    XerRoundTrip (xerEncodeBitString tag p c.length level) (xerDecodeBitString tag arr m) (p ++ arr.drop p.length, c.length) :=
  .of (C65_bit_string tag p c.length level ht.noNul (by obtain ⟨h, _⟩ := hp; omega)) fun w => by
    rw [packed_take hp]
    exact (xerDecodeBitString_reads ht hp hm (Nat.le_trans hm ha) h2047).lineNL w level

example : GoodTag (text ['m', 'y', '-', 'I', 'n', 't']) ∧ PlainText (text ['a', '>', 'b', ' ', '&']) := by
  refine ⟨⟨by decide, by decide, ?_⟩, ?_⟩
  · unfold IsNameChar; decide
  · unfold PlainText; decide

/-- The code violates C63: `<` inside a string is not escaped; the text is rejected. -/
theorem C63_violation_string :
    xerEncodeString (text ['a']) (text ['1', '<', '2']) (-1) (xerInit 16) =
      .ok (some (), ⟨text ['<', 'a', '>', '1', '<', '2', '<', '/', 'a', '>'] ++ List.replicate 6 0#8, 16, 10, false⟩) ∧
    XReturns (xerDecodeString (text ['a']) (List.replicate 8 0#8) 8) (xerAttach (text ['<', 'a', '>', '1', '<', '2', '<', '/', 'a', '>'])) none :=
  ⟨by decide +kernel, .of (by decide +kernel)⟩

/-- The code violates C63: a tag of 100 characters is written, and cannot be read. -/
theorem C63_violation_long_tag :
    let tag := List.replicate 100 0x61#8
    xerEncodeNull tag (-1) (xerInit 110) = .ok (some (), ⟨emptyTag tag ++ List.replicate 7 0#8, 110, 103, false⟩) ∧
    XReturns (xerDecodeNull tag) (xerAttach (emptyTag tag)) none :=
  ⟨by decide +kernel, .of (by decide +kernel)⟩

/-- The code violates C63: an OCTET STRING of 512 octets or more is written (`C65_octet_string`), and cannot be read whatever room there
is for it: the text is longer than a local array. -/
theorem C63_violation_octet_string (tag c value r : List Byte) (m : Nat) (s : XerStream) (hs : XInput s) (ht : GoodTag tag) (hc : 512 ≤ c.length)
    (hu : s.unread = wrapped tag (hexText c) ++ r) : XReturns (xerDecodeOctetString tag value m) s none := xerDecodeOctetString_long hs ht hc hu

example : ∃ c : List Byte, 512 ≤ c.length ∧ XInput (xerAttach (wrapped (text ['a']) (hexText c))) ∧
    (xerAttach (wrapped (text ['a']) (hexText c))).unread = wrapped (text ['a']) (hexText c) ++ [] := by
  refine ⟨List.replicate 512 7#8, by rw [List.length_replicate], ⟨Nat.le_refl _, Nat.zero_le _⟩, ?_⟩
  unfold XerStream.unread xerAttach
  dsimp only
  rw [List.take_length, List.drop_zero, List.append_nil]

/-- The code violates C63: of an OBJECT IDENTIFIER only the first component is read, and copied into all the others; the number of
components is not returned at all. -/
theorem C63_violation_object_identifier :
    xerEncodeObjectIdentifier (text ['o']) [1, 3, 6] (-1) (xerInit 16) =
      .ok (some (), ⟨text ['<', 'o', '>', '1', '.', '3', '.', '6', '<', '/', 'o', '>'] ++ List.replicate 4 0#8, 16, 12, false⟩) ∧
    XReturns (xerDecodeObjectIdentifier (text ['o']) [0, 0, 0, 9]) (xerAttach (text ['<', 'o', '>', '1', '.', '3', '.', '6', '<', '/', 'o', '>'])) (some [1, 1, 1, 9]) :=
  ⟨by decide +kernel, .of (by decide +kernel)⟩

/-! ## C64: hostile input -/

/-- C64, NULL: every input. -/
theorem C64_null (tag : List Byte) : XSafe (fun _ => True) (xerDecodeNull tag) (fun _ => True) := xerDecodeNull_safe tag

/-- C64, INTEGER that is not negative: every input. -/
theorem C64_pos_integer (tag : List Byte) : XSafe (fun _ => True) (xerDecodePosInteger tag) (fun _ => True) := xerDecodePosInteger_safe tag

/-- C64, INTEGER: every input without more than 18 digits in a row. -/
theorem C64_integer_partial (tag : List Byte) (ht : NoNul tag) : XSafe ShortNumbers (xerDecodeInteger tag) (fun v => -(2 ^ 63) ≤ v ∧ v < 2 ^ 63) :=
  xerDecodeInteger_safe ht

/-- C64, BOOLEAN: every input without a double quote. -/
theorem C64_boolean_partial (tag : List Byte) : XSafe NoQuote (xerDecodeBoolean tag) (fun _ => True) := xerDecodeBoolean_safe tag

/-- C64, ENUMERATED: every input without a double quote; the name that is stored has 1 to 99 name characters. -/
theorem C64_enumerated_partial (tag : List Byte) : XSafe NoQuote (xerDecodeEnumerated tag) GoodTag := xerDecodeEnumerated_safe tag

/-- C64, character strings: every input. -/
theorem C64_string (tag arr : List Byte) (n : Nat) (h0 : 0 < arr.length) (hn : n ≤ arr.length) :
    XSafe (fun _ => True) (xerDecodeString tag arr n) (fun a => a.length = arr.length) := xerDecodeString_safe tag h0 hn

/-- C64, OCTET STRING: every input. -/
theorem C64_octet_string (tag value : List Byte) (m : Nat) (hm : m ≤ value.length) :
    XSafe (fun _ => True) (xerDecodeOctetString tag value m) (fun a => a.1.length = value.length) := xerDecodeOctetString_safe tag hm

/-- C64, BIT STRING: every input, if the array has at least 256 octets. -/
theorem C64_bit_string_partial (tag value : List Byte) (m : Nat) (hv : 256 ≤ value.length) :
    XSafe (fun _ => True) (xerDecodeBitString tag value m) (fun a => a.1.length = value.length) := xerDecodeBitString_safe tag hv

/-- C64, the beginning of a constructed element: every input without a double quote. -/
theorem C64_element_start_partial (tag : List Byte) (attrs : Option XmlAttrs) :
    XSafe NoQuote (decodeElementStart tag attrs) (fun a => a = attrs) := decodeElementStart_safe tag attrs

/-- C64, the end of a constructed element: every input. -/
theorem C64_element_end (tag : List Byte) : XSafe (fun _ => True) (decodeElementEnd tag) (fun _ => True) := decodeElementEnd_safe tag

/-- C64, looking ahead: every input; the tag that is stored has 1 to 99 name characters. -/
theorem C64_look_ahead (tag : List Byte) : XSafe (fun _ => True) (nextEndElementIs tag) (fun _ => True) ∧
    XSafe (fun _ => True) (nextStartElementIs tag) (fun _ => True) ∧ XSafe (fun _ => True) laNextElementTag GoodTag :=
  ⟨nextEndElementIs_safe tag, nextStartElementIs_safe tag, laNextElementTag_safe⟩

/-- Input that is cut off inside a comment. -/
example : XIn (xerAttach (text ['<', 'a', '>', '7', '<', '!', '-', '-'])) ∧ NoQuote (xerAttach (text ['<', 'a', '>', '7', '<', '!', '-', '-'])).whole := by
  unfold NoQuote XIn; decide

example : ShortNumbers (text ['<', 'a', '>', '1', '2', '<', '/', 'a', '>']) := by
  intro d hd _
  exact Nat.le_trans hd.length_le (by decide)

/-- The code violates C64: an attribute of an element that stands for a SEQUENCE, for instance, is stored through a null pointer. -/
theorem C64_violation_attribute :
    decodeElementStart (text ['a']) none (xerAttach (text ['<', 'a', ' ', 'x', '=', '"', '1', '"', '>'])) = .ub := Res.eq_ub (by decide +kernel)

/-- The code violates C64: with an array for the attributes, a name of 50 characters is written behind the end of its field. -/
theorem C64_violation_attribute_name :
    decodeElementStart (text ['a']) (some []) (xerAttach (text ['<', 'a', ' '] ++ List.replicate 50 0x78#8 ++ text ['=', '"', '1', '"', '>'])) = .ub :=
  Res.eq_ub (by decide +kernel)

/-- The code violates C64: `atoll` of a number with 19 digits that is out of range is undefined. -/
theorem C64_violation_integer :
    xerDecodeInteger (text ['a']) (xerAttach (text ['<', 'a', '>'] ++ List.replicate 19 0x39#8 ++ text ['<', '/', 'a', '>'])) = .ub :=
  Res.eq_ub (by decide +kernel)

/-- The code violates C64: 17 bits for a BIT STRING of at most 16 bits are cleared behind the end of its array. -/
theorem C64_violation_bit_string :
    xerDecodeBitString (text ['a']) [0#8, 0#8] 2 (xerAttach (text ['<', 'a', '>'] ++ List.replicate 17 0x31#8 ++ text ['<', '/', 'a', '>'])) = .ub :=
  Res.eq_ub (by decide +kernel)

/-! ## C66: what is accepted -/

/-- C66, character strings: if the decoder returns `TRUE`, it has read the tag, contents without `<`, and the end tag, with nothing but
white space, declarations and comments between the tokens, and the array begins with the contents and a 0. -/
theorem C66_string (tag arr : List Byte) (n : Nat) (ht : NoNul tag) (h0 : 0 < arr.length) (hn : n ≤ arr.length) :
    Accepts (xerDecodeString tag arr n) (fun a l => a.length = arr.length ∧ ∃ c, ElementText tag c l ∧ (c = [] ∨ c.length < n) ∧
      a.take (c.length + 1) = c ++ [0#8]) := decodePrimitiveElement_accepts ht h0 hn

example : NoNul (text ['a']) ∧ XReturns (xerDecodeString (text ['a']) (List.replicate 4 0#8) 4) (xerAttach (text ['<', ' ', 'a', '>', '7', '<', '!', '-', '-', '-', '-', '>', '<', '/', 'a', '>'])) (some (text ['7'] ++ List.replicate 3 0#8)) :=
  ⟨by unfold NoNul; decide, .of (by decide +kernel)⟩

/-- C66, NULL: a NULL decoder that returns `TRUE` has read an element with its tag. Missing: the contents can be anything
(`C66_violation_null`). -/
theorem C66_null_partial (tag : List Byte) (ht : NoNul tag) : Accepts (xerDecodeNull tag) (fun _ l => ∃ c, ElementText tag c l ∧ c.length < 256) := by
  unfold xerDecodeNull
  refine (primitiveText_accepts ht (by decide)).bind (R := fun _ b l => b = () ∧ l = []) (fun _ => Accepts.pure ()) ?_
  rintro a b l m ⟨c, h1, h2, _⟩ ⟨_, rfl⟩
  exact ⟨c, by rwa [List.append_nil], h2⟩

/-- C66, INTEGER that is not negative: the decoder has read an element with its tag. Missing: the contents can be anything
(`C66_violation_integer`). -/
theorem C66_pos_integer_partial (tag : List Byte) (ht : NoNul tag) :
    Accepts (xerDecodePosInteger tag) (fun v l => ∃ c, ElementText tag c l ∧ c.length < 256 ∧ ∀ k, k < 2 ^ 64 → c = decimalNat k → v = k) := by
  unfold xerDecodePosInteger
  refine (primitiveText_accepts ht (by decide)).bind (R := fun a b l => b = strtoullC a ∧ l = []) (fun _ => Accepts.pure _) ?_
  rintro a b l m ⟨c, h1, h2, rfl⟩ ⟨rfl, rfl⟩
  refine ⟨c, by rwa [List.append_nil], h2, ?_⟩
  rintro k hk rfl
  rw [cstr_eq_self decimalNat_plain.noNul, strtoullC_decimalNat hk]

/-- The code violates C66: a NULL with contents. -/
theorem C66_violation_null : XReturns (xerDecodeNull (text ['a'])) (xerAttach (text ['<', 'a', '>', 'x', '<', '/', 'a', '>'])) (some ()) :=
  XReturns.of (by decide +kernel)

/-- The code violates C66: a number without digits, with letters behind it, or with a minus sign. -/
theorem C66_violation_integer :
    (XReturns (xerDecodeInteger (text ['a'])) (xerAttach (text ['<', 'a', '>', 'x', '<', '/', 'a', '>'])) (some 0)) ∧
    (XReturns (xerDecodeInteger (text ['a'])) (xerAttach (text ['<', 'a', '>', '7', 'x', '<', '/', 'a', '>'])) (some 7)) ∧
    XReturns (xerDecodePosInteger (text ['a'])) (xerAttach (text ['<', 'a', '>', '-', '1', '<', '/', 'a', '>'])) (some 18446744073709551615) :=
  ⟨.of (by decide +kernel), .of (by decide +kernel), .of (by decide +kernel)⟩

/-- The code violates C66: three octets are accepted for an OCTET STRING with room for two, and the length reported is 3. -/
theorem C66_violation_octet_string :
    XReturns (xerDecodeOctetString (text ['a']) [0#8, 0#8] 2) (xerAttach (text ['<', 'a', '>', '0', '1', '0', '2', '0', '3', '<', '/', 'a', '>'])) (some ([1#8, 2#8], 3)) := XReturns.of (by decide +kernel)

/-- The code violates C66: a BIT STRING of letters. -/
theorem C66_violation_bit_string :
    XReturns (xerDecodeBitString (text ['a']) [0#8] 1) (xerAttach (text ['<', 'a', '>', 'x', 'y', '<', '/', 'a', '>'])) (some ([0x40#8], 2)) :=
  XReturns.of (by decide +kernel)

/-- The code violates C66: an empty element for a SEQUENCE is rejected although both forms mean the same in XML. -/
theorem C66_violation_empty_element : XReturns (decodeElementStart (text ['a']) none) (xerAttach (text ['<', 'a', '/', '>'])) none :=
  XReturns.of (by decide +kernel)

end Asn1
