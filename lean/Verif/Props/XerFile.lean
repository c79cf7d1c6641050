import Verif.Proof.XerFile2
import Verif.Props.XerGen
/-!
# XML texts of any layout and XML files: C90, C91
-/
namespace Asn1

/-! ## C90: layout does not matter -/

/-- C90: however the tags and innermost elements of the XML text of a value are spread over lines, with any amount of white space of any kind before,
between and behind them, the generated decoder returns `TRUE` and this value, whatever was in the destination and whatever follows. Partial:
names, sizes and texts as in C67 (`XOk`, `XHas`). -/
theorem C90_layout_partial (old : List Nat → Int) (name : List Byte) (t : XTy) (v : XVal) (ht : XOk t (some name)) (hv : XHas t v) (l : List Byte)
    (hl : LaidOut (xParts t (some name) v) l) : XReads (xerDecodeType old name t) (true, v) l :=
  xDec_laid old t (some name) [] v l ht hv hl

/-- C90: the texts that the generated encoder writes, with and without white space, are such layouts (types nested at most 2000 levels deep). -/
theorem C90_written_partial (name : List Byte) (t : XTy) (v : XVal) (hv : XHas t v) (hd : XShallow t) (w : Bool) :
    LaidOut (xParts t (some name) v) (xText w t (some name) v) :=
  (xText_inLines w t (some name) v hd hv).laidOut [] isSpaces_nil

theorem xPerson_shallow : XShallow xPerson := by
  simp only [xPerson, XShallow, XShallowFields, XShallowAlts]; decide

/-- A SEQUENCE with a BOOLEAN and a SEQUENCE OF. -/
def xSmall : XTy :=
  .seq 0 (.cons (text ['a']) .optional (.bool 1) (.cons (text ['f']) .mandatory (.seqOf 1 0 3 (some (text ['x'])) (.int 2 none)) .nil))

theorem xSmall_ok : XOk xSmall (some (text ['S'])) := by
  simp only [xSmall, XOk, XOkFields]
  exact ⟨good_some (goodTag_of (by decide)), by simp only [XFields.names]; decide, goodTag_of (by decide), good_some' (goodTag_of (by decide)),
    goodTag_of (by decide), ⟨good_some (goodTag_of (by decide)), good_some (goodTag_of (by decide))⟩, trivial⟩

/-- A value of it: no BOOLEAN, two elements. -/
def xSmallVal : XVal := .seq [(false, .unset), (true, .seqOf [.int 7, .int (-1)])]

theorem xSmall_has : XHas xSmall xSmallVal := by
  simp only [xSmall, xSmallVal, XHas, XHasFields]
  refine ⟨?_, ?_, trivial⟩
  · rw [if_neg (by decide)]; trivial
  · rw [if_pos trivial]
    refine ⟨by decide, by decide, fun v hv => ?_⟩
    rcases List.mem_cons.mp hv with rfl | hv
    · simp only [XHas]; exact ⟨by decide, by decide, fun f e => by cases e⟩
    · rcases List.mem_cons.mp hv with rfl | hv
      · simp only [XHas]; exact ⟨by decide, by decide, fun f e => by cases e⟩
      · cases hv

/-- Its parts. -/
theorem xSmall_parts : xParts xSmall (some (text ['S'])) xSmallVal =
    [text ['<', 'S', '>'], text ['<', 'f', '>'], text ['<', 'x', '>', '7', '<', '/', 'x', '>'], text ['<', 'x', '>', '-', '1', '<', '/', 'x', '>'],
      text ['<', '/', 'f', '>'], text ['<', '/', 'S', '>']] := by decide +kernel

/-- The example meets the hypotheses, with a layout no encoder writes. -/
example : XOk xSmall (some (text ['S'])) ∧ XHas xSmall xSmallVal ∧ LaidOut (xParts xSmall (some (text ['S'])) xSmallVal)
    (text ['\n', '<', 'S', '>', '\t', ' ', '<', 'f', '>', '<', 'x', '>', '7', '<', '/', 'x', '>', '\n', '\n', '<', 'x', '>', '-', '1', '<', '/', 'x', '>',
      '<', '/', 'f', '>', ' ', '<', '/', 'S', '>', '\r', '\n']) := by
  refine ⟨xSmall_ok, xSmall_has, ?_⟩
  rw [xSmall_parts]
  refine ⟨text ['\n'], _, by unfold IsSpaces; decide, ?_, rfl⟩
  refine ⟨text ['\t', ' '], _, by unfold IsSpaces; decide, ?_, rfl⟩
  refine ⟨[], _, isSpaces_nil, ?_, rfl⟩
  refine ⟨text ['\n', '\n'], _, by unfold IsSpaces; decide, ?_, rfl⟩
  refine ⟨[], _, isSpaces_nil, ?_, rfl⟩
  refine ⟨text [' '], _, by unfold IsSpaces; decide, ?_, rfl⟩
  show IsSpaces _; unfold IsSpaces; decide

/-! ## C91: LoadXmlFile -/

/-- C91: `LoadXmlFile` reads an XML file with a declaration, white space and comments of any kind around the parts of the text of a value: it returns
`TRUE` and the number of octets it has put into the buffer; these are the same parts in the same order with white space at most; it touches no other
octet; and the generated decoder then returns `TRUE` and the value. Whatever state an earlier call has left behind (`prev`). Partial: the buffer has
room for the file, strings of at most 4096 characters, at most 4096 characters of white space in one place, no `->` inside of comments, names and
sizes as in C67. -/
theorem C91_load_partial (old : List Nat → Int) (name : List Byte) (t : XTy) (v : XVal) (ht : XOk t (some name)) (hv : XHas t v) (hsh : XShort t)
    (file : List Byte) (hf : XmlFile (xParts t (some name) v) file) (prev : XmlState) (s : XerStream) (h0 : s.currentByte = 0)
    (hroom : file.length ≤ s.count) (hbuf : s.count ≤ s.buf.length) :
    ∃ n s', loadXmlFile prev file s = .ok (some n, s') ∧ n ≤ file.length ∧ s'.currentByte = 0 ∧ s'.count = s.count ∧
      LaidOut (xParts t (some name) v) (s'.buf.take n) ∧ s'.buf.drop n = s.buf.drop n ∧
      XReturns (xerDecodeType old name t) s' (some (true, v)) := by
  obtain ⟨out, e, hl, hn⟩ := loadXmlFile_run (prev := prev) (xParts_run t (some name) v ht hv hsh) hf (s := s) ⟨by omega, hbuf⟩
  rw [h0, Nat.zero_add] at e
  have hb : (s.put out).buf = out ++ s.buf.drop out.length := by
    unfold XerStream.put; simp [h0]
  refine ⟨out.length, _, e, hn, rfl, rfl, ?_, ?_, ?_⟩
  · show LaidOut _ ((s.put out).buf.take out.length)
    rw [hb, List.take_left' rfl]; exact hl
  · show (s.put out).buf.drop out.length = _
    rw [hb, List.drop_left' rfl]
  · have hin : XInput { s.put out with currentByte := 0 } := by
      refine ⟨?_, Nat.zero_le _⟩
      show s.count ≤ (s.put out).buf.length
      rw [s.put_length out (by omega)]; exact hbuf
    have hu : XerStream.unread { s.put out with currentByte := 0 } = [] ++ out ++ (s.buf.drop out.length).take (s.count - out.length) := by
      show ((s.put out).buf.take s.count).drop 0 = _
      rw [List.drop_zero, hb, List.take_append, List.take_of_length_le (by omega), List.nil_append]
    obtain ⟨s', _, e', _⟩ := C90_layout_partial old name t v ht hv out hl _ [] _ hin isSpaces_nil hu
    exact ⟨s', e'⟩

/-- C91: whatever the generated encoder has written for a value, with or without white space, can be stored in a file and loaded: the decoder
returns the value. -/
theorem C91_written_partial (old : List Nat → Int) (name : List Byte) (t : XTy) (v : XVal) (ht : XOk t (some name)) (hv : XHas t v) (hsh : XShort t)
    (hd : XShallow t) (w : Bool) (prev : XmlState) (s : XerStream) (h0 : s.currentByte = 0)
    (hroom : (xText w t (some name) v).length ≤ s.count) (hbuf : s.count ≤ s.buf.length) :
    ∃ n s', loadXmlFile prev (xText w t (some name) v) s = .ok (some n, s') ∧ XReturns (xerDecodeType old name t) s' (some (true, v)) := by
  have hf : XmlFile (xParts t (some name) v) (xText w t (some name) v) :=
    ⟨[], [], xText w t (some name) v, isSpaces_nil, .inl rfl, (xText_inLines w t (some name) v hd hv).file [] isSpaces_nil (by decide), rfl⟩
  obtain ⟨n, s', h1, _, _, _, _, _, h2⟩ := C91_load_partial old name t v ht hv hsh _ hf prev s h0 hroom hbuf
  exact ⟨n, s', h1, h2⟩

theorem xPerson_short : XShort xPerson := by
  simp only [xPerson, XShort, XShortFields, XShortAlts]; decide

theorem xSmall_short : XShort xSmall := by
  simp only [xSmall, XShort, XShortFields, and_self]

/-- `<!-- a <b> -->` is a comment. -/
theorem xSmall_comment : IsPlainComment (text ['<', '!', '-', '-', ' ', 'a', ' ', '<', 'b', '>', ' ', '-', '-', '>']) :=
  ⟨text ['-', '-', ' ', 'a', ' ', '<', 'b', '>', ' ', '-', '-'], rfl, ⟨_, rfl⟩, ⟨text ['-', '-', ' ', 'a', ' ', '<', 'b', '>', ' '], rfl⟩, by
    decide⟩

/-- `<?xml?>` is a declaration. -/
theorem xSmall_declaration : IsDeclaration (text ['<', '?', 'x', 'm', 'l', '?', '>']) :=
  ⟨text ['?', 'x', 'm', 'l', '?'], rfl, ⟨_, rfl⟩, ⟨text ['?', 'x', 'm', 'l'], rfl⟩, by decide⟩

/-- The examples meet the hypotheses; a file with a declaration and a comment. -/
example : XOk xPerson (some (text ['P', 'e', 'r', 's', 'o', 'n'])) ∧ XHas xPerson xPersonVal ∧ XShort xPerson ∧ XShallow xPerson ∧
    XOk xSmall (some (text ['S'])) ∧ XHas xSmall xSmallVal ∧ XShort xSmall ∧
    XmlFile (xParts xSmall (some (text ['S'])) xSmallVal)
      (text ['<', '?', 'x', 'm', 'l', '?', '>', '\n', '<', 'S', '>', ' ', '<', '!', '-', '-', ' ', 'a', ' ', '<', 'b', '>', ' ', '-', '-', '>', '<', 'f', '>',
        '<', 'x', '>', '7', '<', '/', 'x', '>', '<', 'x', '>', '-', '1', '<', '/', 'x', '>', '<', '/', 'f', '>', '\n', '<', '/', 'S', '>', '\n']) := by
  refine ⟨xPerson_ok, xPerson_has, xPerson_short, xPerson_shallow, xSmall_ok, xSmall_has, xSmall_short, ?_⟩
  rw [xSmall_parts]
  refine ⟨[], text ['<', '?', 'x', 'm', 'l', '?', '>'], _, isSpaces_nil, .inr xSmall_declaration, ?_, rfl⟩
  refine ⟨text ['\n'], _, _, isGap_spaces (by unfold IsSpaces; decide), by decide, ?_, rfl⟩
  refine ⟨text [' ', '<', '!', '-', '-', ' ', 'a', ' ', '<', 'b', '>', ' ', '-', '-', '>'], text [' '], _,
    .space (by unfold IsSpaces; decide) (by have := IsGap.comment xSmall_comment .nil; rwa [List.append_nil] at this), by decide, ?_, rfl⟩
  refine ⟨[], [], _, .nil, by decide, ?_, rfl⟩
  refine ⟨[], [], _, .nil, by decide, ?_, rfl⟩
  refine ⟨[], [], _, .nil, by decide, ?_, rfl⟩
  refine ⟨text ['\n'], _, _, isGap_spaces (by unfold IsSpaces; decide), by decide, ?_, rfl⟩
  exact ⟨text ['\n'], isGap_spaces (by unfold IsSpaces; decide), by decide⟩

/-- C91: whatever the file contains, `LoadXmlFile` comes to an end without undefined behaviour, and changes no octet of the buffer from `count` on. -/
theorem C91_safe (prev : XmlState) (file : List Byte) (s : XerStream) (hs : s.count ≤ s.buf.length) :
    ∃ r s', loadXmlFile prev file s = .ok (r, s') ∧ s'.count = s.count ∧ s'.white = s.white ∧ s'.buf.length = s.buf.length ∧
      s'.buf.drop s.count = s.buf.drop s.count := loadXmlFile_safe prev file s hs

/-- A file that is cut off and does not fit. -/
example : xResult (loadXmlFile .start (text ['<', 'S', '>', 'a', '<', '/', 'b', '<']) (xerInit 5)) = some none := by decide +kernel

/-- The code violates C91: an element with more than 4096 characters is refused, whatever the size of the buffer. -/
theorem C91_long_violation (tag c rest : List Byte) (ht : GoodTag tag) (hc : PlainText c) (hl : 4096 < c.length) (prev : XmlState) (s : XerStream)
    (hr : s.currentByte + tag.length + 2 ≤ s.count) (hb : s.count ≤ s.buf.length) :
    XReturns (loadXmlFile prev (element tag c ++ rest)) s none := by
  have hne : c ≠ [] := by intro h; subst h; simp at hl
  have hlen : (startTag tag).length = tag.length + 2 := by simp [startTag, text]
  have e : loadLoop (element tag c ++ rest) ⟨.start, prev, []⟩ s = .ok (none, s.put (startTag tag)) := by
    unfold element
    rw [if_neg hne, List.append_assoc, List.append_assoc, openRun_startTag ht .start prev [] s _ (.inl rfl) ⟨by omega, hb⟩ (fun _ => rfl)]
    exact load_tooLong (fun b hb => (hc b hb).1) (by decide) (by simpa using hl)
  exact ⟨_, xm_bind_none e⟩

/-- Such an element. -/
example : GoodTag (text ['N']) ∧ PlainText (List.replicate 5000 0x61#8) ∧ 4096 < (List.replicate 5000 (0x61#8 : Byte)).length :=
  ⟨goodTag_of (by decide), fun b hb => by rw [(List.mem_replicate.mp hb).2]; decide, by rw [List.length_replicate]; decide⟩

/-- What the decoder of `INTEGER` returns for a file. -/
def loadInteger (file : List Byte) : XM (Bool × XVal) := do
  let _ ← loadXmlFile .start file
  xerDecodeType (fun _ => 0) (text ['N']) (.int 0 none)

/-- The code violates C91: a comment ends at the first `->`: of `<N><!-- 1->2 -->5</N>` the number 2 is read, and nothing is reported. -/
theorem C91_comment_violation :
    XReturns (loadInteger (text ['<', 'N', '>', '<', '!', '-', '-', ' ', '1', '-', '>', '2', ' ', '-', '-', '>', '5', '<', '/', 'N', '>'])) (xerInit 100)
      (some (true, .int 2)) := xGives_ok (by decide +kernel)

/-- The code violates C91: `<!DOCTYPE N>` is taken for the beginning of a comment: nothing of `<!DOCTYPE N><N>5</N>` is loaded, with the result `TRUE`. -/
theorem C91_doctype_violation :
    XReturns (loadXmlFile .start (text ['<', '!', 'D', 'O', 'C', 'T', 'Y', 'P', 'E', ' ', 'N', '>', '<', 'N', '>', '5', '<', '/', 'N', '>'])) (xerInit 100)
      (some 0) := XReturns.of (by decide +kernel)

end Asn1
