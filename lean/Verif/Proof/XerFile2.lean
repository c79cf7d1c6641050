import Verif.Proof.XerFile
/-!
# Lemmas about `LoadXmlFile`: the text of an encoder is a file; no file is harmful
-/
namespace Asn1

/-- The parts with at most 4000 characters of white space before each and at most one behind. -/
inductive InLines : List (List Byte) → List Byte → Prop
  | nil : InLines [] []
  | cons {p : List Byte} {ps : List (List Byte)} {sp nl l : List Byte} : IsSpaces sp → sp.length ≤ 4000 → IsSpaces nl → nl.length ≤ 1 → InLines ps l →
    InLines (p :: ps) (sp ++ p ++ nl ++ l)

theorem InLines.append {a b : List (List Byte)} {l m : List Byte} (h1 : InLines a l) (h2 : InLines b m) : InLines (a ++ b) (l ++ m) := by
  induction h1 with
  | nil => exact h2
  | @cons p ps sp nl l a1 a2 a3 a4 _ ih =>
    have := InLines.cons (p := p) a1 a2 a3 a4 ih
    simpa using this

theorem indent_length {w : Bool} {l : Int} (h : l ≤ 2000) : (indent w l).length ≤ 4000 := by
  unfold indent
  split
  · rw [List.length_replicate]; omega
  · exact Nat.zero_le _

theorem newLine_length (w : Bool) (l : Int) : (newLine w l).length ≤ 1 := by
  unfold newLine
  split <;> simp

theorem inLines_line {w : Bool} {l : Int} (h : l ≤ 2000) (p : List Byte) : InLines [p] (line w l p) := by
  have := InLines.cons (p := p) (indent_spaces w l) (indent_length h) (newLine_spaces w l) (newLine_length w l) .nil
  simpa [line] using this

theorem inLines_lineNL {w : Bool} {l : Int} (h : l ≤ 2000) (p : List Byte) : InLines [p] (lineNL w l p) := by
  have := InLines.cons (p := p) (indent_spaces w l) (indent_length h) (newLine_spaces w 0) (newLine_length w 0) .nil
  simpa [lineNL] using this

theorem inLines_block {w : Bool} {l : Int} (h : l ≤ 2000) {tag c : List Byte} {ps : List (List Byte)} (hc : InLines ps c) :
    InLines (blockParts tag ps) (block w l tag c) := by
  unfold blockParts block
  split
  · exact hc
  · rw [List.append_assoc]
    exact (inLines_line h (startTag tag)).append (hc.append (inLines_line h (endTag tag)))

mutual
theorem xText_inLines (w : Bool) : ∀ (t : XTy) (tag : Option (List Byte)) (v : XVal), XShallow t → XHas t v → InLines (xParts t tag v) (xText w t tag v)
  | .int l c, tag, v, hs, hv => by
    cases v <;> simp only [XHas] at hv
    simp only [XShallow] at hs
    simp only [xParts, xText]
    exact inLines_line hs _
  | .uint l c, tag, v, hs, hv => by
    cases v <;> simp only [XHas] at hv
    simp only [XShallow] at hs
    simp only [xParts, xText]
    exact inLines_line hs _
  | .bool l, tag, v, hs, hv => by
    cases v <;> simp only [XHas] at hv
    simp only [XShallow] at hs
    simp only [xParts, xText]
    exact inLines_line hs _
  | .null l, tag, v, hs, hv => by
    cases v <;> simp only [XHas] at hv
    simp only [XShallow] at hs
    simp only [xParts, xText]
    exact inLines_line hs _
  | .enum l labels, tag, v, hs, hv => by
    cases v <;> simp only [XHas] at hv
    simp only [XShallow] at hs
    simp only [xParts, xText]
    by_cases h : tagOr tag [] = []
    · rw [if_pos h, h]
      have : ∀ x, wrapped [] x = x := fun x => by simp [wrapped]
      rw [this]
      exact inLines_line hs _
    · rw [if_neg h]
      exact inLines_lineNL hs _
  | .str l numeric m z, tag, v, hs, hv => by
    cases v <;> simp only [XHas] at hv
    simp only [XShallow] at hs
    simp only [xParts, xText]
    exact inLines_line hs _
  | .octets l lo hi, tag, v, hs, hv => by
    cases v <;> simp only [XHas] at hv
    simp only [XShallow] at hs
    simp only [xParts, xText]
    exact inLines_lineNL hs _
  | .bits l lo hi, tag, v, hs, hv => by
    cases v <;> simp only [XHas] at hv
    simp only [XShallow] at hs
    simp only [xParts, xText]
    exact inLines_lineNL hs _
  | .seqOf l lo hi ct t, tag, v, hs, hv => by
    cases v <;> simp only [XHas] at hv
    rename_i vs
    simp only [XShallow] at hs
    simp only [xParts, xText]
    refine inLines_block hs.1 ?_
    replace hv := hv.2.2
    induction vs with
    | nil => exact .nil
    | cons v vs ih =>
      rw [List.flatMap_cons, List.flatMap_cons]
      exact (xText_inLines w t ct v hs.2 (hv v (by simp))).append (ih fun x hx => hv x (by simp [hx]))
  | .seq l fs, tag, v, hs, hv => by
    cases v <;> simp only [XHas] at hv
    simp only [XShallow] at hs
    simp only [xParts, xText]
    exact inLines_block hs.1 (xTextFields_inLines w fs _ hs.2 hv)
  | .choice l alts, tag, v, hs, hv => by
    cases v <;> simp only [XHas] at hv
    simp only [XShallow] at hs
    simp only [xParts, xText]
    exact inLines_block hs.1 (xTextAlt_inLines w alts _ _ hs.2 hv)
  | .ref name t, tag, v, hs, hv => by
    simp only [XHas] at hv
    simp only [XShallow] at hs
    simp only [xParts, xText]
    exact xText_inLines w t _ v hs hv
theorem xTextFields_inLines (w : Bool) : ∀ (fs : XFields) (vs : List (Bool × XVal)), XShallowFields fs → XHasFields fs vs →
    InLines (xPartsFields fs vs) (xTextFields w fs vs)
  | .nil, vs, _, _ => by simp only [xPartsFields, xTextFields]; exact .nil
  | .cons name o t rest, [], _, hv => by simp only [XHasFields] at hv
  | .cons name o t rest, (e, v) :: vs, hs, hv => by
    simp only [XHasFields] at hv
    simp only [XShallowFields] at hs
    simp only [xPartsFields, xTextFields]
    refine InLines.append ?_ (xTextFields_inLines w rest vs hs.2 hv.2)
    cases e with
    | true => exact xText_inLines w t (some name) v hs.1 (by simpa using hv.1)
    | false => exact .nil
theorem xTextAlt_inLines (w : Bool) : ∀ (alts : XAlts) (i : Nat) (v : XVal), XShallowAlts alts → XHasAlt alts i v →
    InLines (xPartsAlt alts i v) (xTextAlt w alts i v)
  | .nil, i, v, _, hv => by simp only [XHasAlt] at hv
  | .cons name t rest, 0, v, hs, hv => by
    simp only [XHasAlt] at hv
    simp only [XShallowAlts] at hs
    simp only [xPartsAlt, xTextAlt]
    exact xText_inLines w t (some name) v hs.1 hv
  | .cons name t rest, i + 1, v, hs, hv => by
    simp only [XHasAlt] at hv
    simp only [XShallowAlts] at hs
    simp only [xPartsAlt, xTextAlt]
    exact xTextAlt_inLines w rest i v hs.2 hv
end

theorem isGap_spaces : ∀ {l : List Byte}, IsSpaces l → IsGap l l
  | [], _ => .nil
  | b :: l, h => .space (fun x hx => h x (by simp at hx; simp [hx])) (isGap_spaces fun x hx => h x (by simp [hx]))

theorem InLines.laidOut {ps : List (List Byte)} {l : List Byte} (h : InLines ps l) : ∀ nl, IsSpaces nl → LaidOut ps (nl ++ l) := by
  induction h with
  | nil => intro nl h; rw [List.append_nil]; exact h
  | @cons p ps sp nl l a1 a2 a3 a4 _ ih =>
    intro nl' h
    exact ⟨nl' ++ sp, nl ++ l, isSpaces_append h a1, ih nl a3, by simp⟩

theorem InLines.file {ps : List (List Byte)} {l : List Byte} (h : InLines ps l) : ∀ nl, IsSpaces nl → nl.length ≤ 1 → LaidOutFile ps (nl ++ l) := by
  induction h with
  | nil => intro nl h hl; rw [List.append_nil]; exact ⟨nl, isGap_spaces h, by omega⟩
  | @cons p ps sp nl l a1 a2 a3 a4 _ ih =>
    intro nl' h hl
    exact ⟨nl' ++ sp, nl' ++ sp, nl ++ l, isGap_spaces (isSpaces_append h a1), by rw [List.length_append]; omega, ih nl a3 a4, by simp⟩

/-! ## Any file -/

/-- What loading may do to a stream, whatever the file is. -/
def LoadSafe {α : Type} (f : XM α) : Prop :=
  ∀ s, s.count ≤ s.buf.length → ∃ r s', f s = .ok (r, s') ∧ s'.count = s.count ∧ s'.white = s.white ∧ s'.buf.length = s.buf.length ∧
    s'.buf.drop s.count = s.buf.drop s.count

theorem LoadSafe.pure {α : Type} (a : α) : LoadSafe (Pure.pure a : XM α) := fun s _ => ⟨some a, s, rfl, rfl, rfl, rfl, rfl⟩

theorem LoadSafe.fail {α : Type} : LoadSafe (xFail : XM α) := fun s _ => ⟨none, s, rfl, rfl, rfl, rfl, rfl⟩

theorem LoadSafe.bind {α β : Type} {f : XM α} {g : α → XM β} (hf : LoadSafe f) (hg : ∀ a, LoadSafe (g a)) : LoadSafe (f >>= g) := by
  intro s hs
  obtain ⟨r, s1, e1, c1, w1, l1, d1⟩ := hf s hs
  cases r with
  | none =>
    refine ⟨none, s1, ?_, c1, w1, l1, d1⟩
    show (match f s with | .ok (some a, s') => g a s' | .ok (none, s') => .ok (none, s') | .ub => .ub | .abort => .abort) = _
    rw [e1]
  | some a =>
    obtain ⟨r2, s2, e2, c2, w2, l2, d2⟩ := hg a s1 (by omega)
    exact ⟨r2, s2, (xm_bind_ok e1).trans e2, c2.trans c1, w2.trans w1, l2.trans l1, by rw [c1] at d2; exact d2.trans d1⟩

theorem appendChar_safe (c : Byte) : LoadSafe (appendChar c) := by
  intro s hs
  by_cases h : s.currentByte ≥ s.count
  · refine ⟨none, s, ?_, rfl, rfl, rfl, rfl⟩
    unfold appendChar
    show (if s.currentByte ≥ s.count then xFail else xPut c : XM Unit) s = _
    rw [if_pos h]; rfl
  · refine ⟨some (), s.put [c], appendChar_run (by omega) hs, rfl, rfl, s.put_length _ (by simp; omega), ?_⟩
    apply List.ext_getElem?
    intro i
    rw [List.getElem?_drop, List.getElem?_drop]
    exact s.put_get _ (by simp; omega) _ (by simp; omega)

theorem appendTmp_safe : ∀ l, LoadSafe (appendTmp l)
  | [] => LoadSafe.pure ()
  | c :: l => (appendChar_safe c).bind fun _ => appendTmp_safe l

theorem onXml_safe (m : XmlLoad) (c : Byte) (l1 : Option Byte) : LoadSafe (onXml m c l1) := by
  obtain ⟨q, prev, tmp⟩ := m
  cases q
  · show LoadSafe (onXmlStart _ _ _)
    unfold onXmlStart
    split
    · exact .pure _
    · split
      · exact .pure _
      · split
        · exact .pure _
        · exact (appendChar_safe _).bind fun _ => .pure _
  · show LoadSafe (onXmlHeader _ _ _)
    unfold onXmlHeader
    split <;> exact .pure _
  · exact (appendChar_safe _).bind fun _ => .pure _
  · show LoadSafe (onXmlContent _ _ _)
    unfold onXmlContent
    split
    · split
      · exact .fail
      · exact .pure _
    · split
      · exact .pure _
      · split
        · exact (appendTmp_safe _).bind fun _ => (appendChar_safe _).bind fun _ => .pure _
        · exact (appendChar_safe _).bind fun _ => .pure _
  · exact (appendChar_safe _).bind fun _ => .pure _
  · show LoadSafe (onXmlMixed _ _ _)
    unfold onXmlMixed
    split
    · exact .pure _
    · split
      · exact .pure _
      · exact (appendChar_safe _).bind fun _ => .pure _
  · show LoadSafe (onXmlComment _ _ _)
    unfold onXmlComment
    split <;> exact .pure _

theorem loadLoop_safe : ∀ (file : List Byte) (m : XmlLoad), LoadSafe (loadLoop file m)
  | [], m => LoadSafe.pure m
  | [c], m => (onXml_safe m c none).bind fun _ => .pure _
  | c :: d :: rest, m => by
    unfold loadLoop
    refine (onXml_safe m c (some d)).bind fun r => ?_
    split
    · exact loadLoop_safe rest r.1
    · exact loadLoop_safe (d :: rest) r.1
termination_by file => file.length

theorem loadXmlFile_safe (prev : XmlState) (file : List Byte) : LoadSafe (loadXmlFile prev file) := by
  unfold loadXmlFile
  refine (loadLoop_safe _ _).bind fun _ => ?_
  intro s _
  exact ⟨some s.currentByte, { s with currentByte := 0 }, rfl, rfl, rfl, rfl, rfl⟩

/-- Text that is longer than the buffer for it. -/
theorem load_tooLong : ∀ {t rest : List Byte} {prev : XmlState} {tmp : List Byte} {s : XerStream}, (∀ b ∈ t, b ≠ 0x3C#8) → tmp.length ≤ 4096 →
    4096 < tmp.length + t.length → loadLoop (t ++ rest) ⟨.content, prev, tmp⟩ s = .ok (none, s)
  | [], rest, prev, tmp, s, _, h1, h2 => by simp at h2; omega
  | c :: t, rest, prev, tmp, s, ht, h1, h2 => by
    simp only [List.length_cons] at h2
    by_cases h : tmp.length < 4096
    · rw [List.cons_append, load_char (.inr (.inl rfl)) (ht c (by simp)) h, if_pos rfl]
      exact load_tooLong (fun b hb => ht b (by simp [hb])) (by simp; omega) (by simp; omega)
    · have hc := ht c (by simp)
      have e : ∀ l1, onXml ⟨.content, prev, tmp⟩ c l1 s = .ok (none, s) := by
        intro l1
        show onXmlContent _ _ _ s = _
        unfold onXmlContent
        rw [if_pos hc, if_pos (show tmp.length ≥ 4096 by omega)]; rfl
      have hb : ∀ {β : Type} (l1 : Option Byte) (g : XmlLoad × Bool → XM β), (onXml ⟨.content, prev, tmp⟩ c l1 >>= g) s = .ok (none, s) :=
        fun l1 g => xm_bind_none (e l1)
      rw [List.cons_append]
      cases t ++ rest with
      | nil => exact hb none _
      | cons d r => exact hb (some d) _

end Asn1
