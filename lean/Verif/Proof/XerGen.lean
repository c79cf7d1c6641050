import Verif.Spec.XerGen
import Verif.Proof.XerRead2
import Verif.Proof.GenStr
/-!
# Lemmas about the generated XER codecs: what the encoders write
-/
namespace Asn1

theorem tagOr_getD (tag : Option (List Byte)) (l : List Char) : tag.getD (chars l) = tagOr tag l := by
  cases tag <;> rfl

theorem tagOr_getD_nil (tag : Option (List Byte)) : tag.getD [] = tagOr tag [] := by
  cases tag <;> rfl

theorem good_tagOr {tag : Option (List Byte)} {l : List Char} (hl : GoodTag (text l)) (h : ∀ t, tag = some t → GoodTag t) :
    GoodTag (tagOr tag l) := by
  cases tag with
  | none => exact hl
  | some t => exact h t rfl

theorem good_tagOr_nil {tag : Option (List Byte)} (h : ∀ t, tag = some t → t = [] ∨ GoodTag t) :
    tagOr tag [] = [] ∨ GoodTag (tagOr tag []) := by
  cases tag with
  | none => exact .inl rfl
  | some t => exact h t rfl

theorem noNul_of_good {tag : List Byte} (h : tag = [] ∨ GoodTag tag) : NoNul tag := by
  rcases h with rfl | h
  · intro b hb; cases hb
  · exact h.noNul

theorem good_integer : GoodTag (text ['I', 'N', 'T', 'E', 'G', 'E', 'R']) := by unfold GoodTag IsNameChar text; decide
theorem good_null : GoodTag (text ['N', 'U', 'L', 'L']) := by unfold GoodTag IsNameChar text; decide
theorem good_octets : GoodTag (text ['O', 'C', 'T', 'E', 'T', '-', 'S', 'T', 'R', 'I', 'N', 'G']) := by unfold GoodTag IsNameChar text; decide
theorem good_bits : GoodTag (text ['B', 'I', 'T', '-', 'S', 'T', 'R', 'I', 'N', 'G']) := by unfold GoodTag IsNameChar text; decide
theorem good_seqOf : GoodTag (text ['S', 'E', 'Q', 'U', 'E', 'N', 'C', 'E', '-', 'O', 'F']) := by unfold GoodTag IsNameChar text; decide
theorem good_seq : GoodTag (text ['S', 'E', 'Q', 'U', 'E', 'N', 'C', 'E']) := by unfold GoodTag IsNameChar text; decide
theorem good_string (numeric : Bool) : GoodTag (text (if numeric then ['N', 'u', 'm', 'e', 'r', 'i', 'c', 'S', 't', 'r', 'i', 'n', 'g']
    else ['I', 'A', '5', 'S', 't', 'r', 'i', 'n', 'g'])) := by cases numeric <;> (unfold GoodTag IsNameChar text; decide)

theorem tagString_eq (numeric : Bool) : tagString numeric = chars (if numeric then ['N', 'u', 'm', 'e', 'r', 'i', 'c', 'S', 't', 'r', 'i', 'n', 'g']
    else ['I', 'A', '5', 'S', 't', 'r', 'i', 'n', 'g']) := by cases numeric <;> rfl

theorem wrapped_emptyTag (tag t : List Byte) :
    wrapped tag (emptyTag t) = if tag = [] then emptyTag t else element tag (emptyTag t) := by
  unfold wrapped
  rw [element_emptyTag]

theorem decimalInt_of_nonneg {v : Int} (h : 0 ≤ v) : decimalInt v = decimalNat v.toNat := by
  unfold decimalInt
  rw [if_neg (by omega), List.nil_append]
  congr 1; omega

theorem block_writes {tag : List Byte} {level : Int} {f : XM Unit} {c : Bool → List Byte} (ht : NoNul tag) (hf : XWrites f c) :
    XWrites (do encodeElementStart tag [] level; f; encodeElementEnd tag level) (fun w => block w level tag (c w)) := by
  refine ((encodeElementStart_writes ht).bind (hf.bind (encodeElementEnd_writes ht))).congr fun w => ?_
  unfold block
  by_cases h : tag = []
  · simp [h]
  · simp [h]

theorem xEncLoop_writes {enc : XVal → XM Unit} {l : Bool → XVal → List Byte} : ∀ (vs : List XVal), (∀ v ∈ vs, XWrites (enc v) (fun w => l w v)) →
    XWrites (xEncLoop enc vs) (fun w => vs.flatMap (l w))
  | [], _ => XWrites.pure
  | v :: vs, h => by
    refine ((h v (by simp)).bind (xEncLoop_writes vs fun u hu => h u (by simp [hu]))).congr fun w => ?_
    simp

mutual
theorem xEnc_writes : ∀ (t : XTy) (tag : Option (List Byte)) (v : XVal), XOk t tag → XHas t v →
    XWrites (xEnc t tag v) (fun w => xText w t tag v)
  | .int l c, tag, v, ho, hv => by
    cases v <;> simp only [XHas] at hv
    simp only [XOk] at ho
    simp only [xEnc, xText]
    rw [show tagInteger = chars ['I', 'N', 'T', 'E', 'G', 'E', 'R'] from rfl, tagOr_getD]
    exact xerEncodeInteger_writes (good_tagOr good_integer ho).noNul ⟨hv.1, hv.2.1⟩
  | .uint l c, tag, v, ho, hv => by
    cases v <;> simp only [XHas] at hv
    simp only [XOk] at ho
    simp only [xEnc, xText]
    rw [show tagInteger = chars ['I', 'N', 'T', 'E', 'G', 'E', 'R'] from rfl, tagOr_getD, decimalInt_of_nonneg hv.1]
    exact xerEncodePosInteger_writes (good_tagOr good_integer ho).noNul (by have := hv.2.1; omega)
  | .bool l, tag, v, ho, hv => by
    cases v <;> simp only [XHas] at hv
    simp only [XOk] at ho
    simp only [xEnc, xText]
    rw [tagOr_getD_nil]
    simp only [wrapped_emptyTag]
    exact xerEncodeBoolean_writes (noNul_of_good (good_tagOr_nil ho))
  | .null l, tag, v, ho, hv => by
    cases v <;> simp only [XHas] at hv
    simp only [XOk] at ho
    simp only [xEnc, xText]
    rw [show tagNull = chars ['N', 'U', 'L', 'L'] from rfl, tagOr_getD]
    exact xerEncodeNull_writes (good_tagOr good_null ho).noNul
  | .enum l labels, tag, v, ho, hv => by
    cases v <;> simp only [XHas] at hv
    rename_i i
    simp only [XOk] at ho
    simp only [xEnc, xText]
    have hg := ho.2.2 labels[i] (List.getElem_mem hv)
    rw [List.getElem?_eq_getElem hv, tagOr_getD_nil, List.getD_eq_getElem?_getD, List.getElem?_eq_getElem hv]
    simp only [Option.getD_some, wrapped_emptyTag]
    refine (xerEncodeEnumerated_writes (noNul_of_good (good_tagOr_nil ho.1)) hg.noNul (by have := hg.2.1; omega)).congr fun w => ?_
    by_cases h : tagOr tag [] = []
    · simp [h]
    · simp [h, lineNL]
  | .str l numeric m z, tag, v, ho, hv => by
    cases v <;> simp only [XHas] at hv
    simp only [XOk] at ho
    simp only [xEnc, xText]
    rw [tagString_eq, tagOr_getD]
    exact encodePrimitiveElement_writes (good_tagOr (good_string numeric) ho.1).noNul hv.1.noNul
  | .octets l lo hi, tag, v, ho, hv => by
    cases v <;> simp only [XHas] at hv
    rename_i n arr
    simp only [XOk] at ho
    simp only [xEnc, xText]
    have e : (if lo = hi then hi else n) = n := by
      by_cases h : lo = hi
      · rw [if_pos h]; omega
      · rw [if_neg h]
    rw [show tagOctets = chars ['O', 'C', 'T', 'E', 'T', '-', 'S', 'T', 'R', 'I', 'N', 'G'] from rfl, tagOr_getD, e]
    exact xerEncodeOctetString_writes (good_tagOr good_octets ho.1).noNul (by omega)
  | .bits l lo hi, tag, v, ho, hv => by
    cases v <;> simp only [XHas] at hv
    rename_i n arr
    simp only [XOk] at ho
    simp only [xEnc, xText]
    have e : (if lo = hi then hi else n) = n := by
      by_cases h : lo = hi
      · rw [if_pos h]; omega
      · rw [if_neg h]
    rw [show tagBits = chars ['B', 'I', 'T', '-', 'S', 'T', 'R', 'I', 'N', 'G'] from rfl, tagOr_getD, e]
    exact xerEncodeBitString_writes (good_tagOr good_bits ho.1).noNul (by omega)
  | .seqOf l lo hi ct t, tag, v, ho, hv => by
    cases v <;> simp only [XHas] at hv
    rename_i vs
    simp only [XOk] at ho
    simp only [xEnc, xText]
    rw [show tagSeqOf = chars ['S', 'E', 'Q', 'U', 'E', 'N', 'C', 'E', '-', 'O', 'F'] from rfl, tagOr_getD]
    exact block_writes (good_tagOr good_seqOf ho.1).noNul
      (xEncLoop_writes vs fun v hm => xEnc_writes t ct v ho.2 (hv.2.2 v hm))
  | .seq l fs, tag, v, ho, hv => by
    cases v <;> simp only [XHas] at hv
    rename_i vs
    simp only [XOk] at ho
    simp only [xEnc, xText]
    rw [show tagSeq = chars ['S', 'E', 'Q', 'U', 'E', 'N', 'C', 'E'] from rfl, tagOr_getD]
    exact block_writes (good_tagOr good_seq ho.1).noNul (xEncFields_writes fs vs ho.2.2 hv)
  | .choice l alts, tag, v, ho, hv => by
    cases v <;> simp only [XHas] at hv
    rename_i i v
    simp only [XOk] at ho
    simp only [xText]
    have h := xEncAlt_writes alts i v ho.2.2 hv
    cases tag with
    | none =>
      simp only [xEnc]
      exact h.congr fun w => by simp [block, tagOr, text]
    | some tag =>
      simp only [xEnc]
      exact block_writes (noNul_of_good (ho.1 tag rfl)) h
  | .ref name t, tag, v, ho, hv => by
    simp only [XHas] at hv
    simp only [XOk] at ho
    simp only [xEnc, xText]
    exact xEnc_writes t _ v ho hv
theorem xEncFields_writes : ∀ (fs : XFields) (vs : List (Bool × XVal)), XOkFields fs → XHasFields fs vs →
    XWrites (xEncFields fs vs) (fun w => xTextFields w fs vs)
  | .nil, vs, _, hv => by
    simp only [xEncFields, xTextFields]
    exact XWrites.pure
  | .cons name o t rest, [], _, hv => by simp only [XHasFields] at hv
  | .cons name o t rest, (e, v) :: vs, ho, hv => by
    simp only [XHasFields] at hv
    simp only [XOkFields] at ho
    simp only [xEncFields, xTextFields]
    have hr := xEncFields_writes rest vs ho.2.2 hv.2
    refine XWrites.bind ?_ hr
    have hv1 := hv.1
    cases e with
    | true =>
      have h := xEnc_writes t (some name) v ho.2.1 (by simpa using hv1)
      cases o <;> simpa using h
    | false =>
      cases o with
      | mandatory => simp at hv1
      | optional => simpa using XWrites.pure
      | default d => simpa using XWrites.pure
theorem xEncAlt_writes : ∀ (alts : XAlts) (i : Nat) (v : XVal), XOkAlts alts → XHasAlt alts i v →
    XWrites (xEncAlt alts i v) (fun w => xTextAlt w alts i v)
  | .nil, i, v, _, hv => by simp only [XHasAlt] at hv
  | .cons name t rest, 0, v, ho, hv => by
    simp only [XHasAlt] at hv
    simp only [XOkAlts] at ho
    simp only [xEncAlt, xTextAlt]
    exact xEnc_writes t (some name) v ho.2.1 hv
  | .cons name t rest, i + 1, v, ho, hv => by
    simp only [XHasAlt] at hv
    simp only [XOkAlts] at ho
    simp only [xEncAlt, xTextAlt]
    exact xEncAlt_writes rest i v ho.2.2 hv
end

end Asn1
