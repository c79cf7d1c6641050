import Verif.Proof.XerGenRead2
import Verif.Proof.XerAccept
/-!
# Lemmas about the generated XER codecs: sizes, safety, what is accepted
-/
namespace Asn1

/-! ## Sizes -/

theorem line_false (l : Int) (t : List Byte) : line false l t = t := by
  unfold line indent newLine; simp

theorem lineNL_false (l : Int) (t : List Byte) : lineNL false l t = t := by
  unfold lineNL indent newLine; simp

theorem startTag_length (tag : List Byte) : (startTag tag).length = tag.length + 2 := by
  rw [startTag_eq]; simp

theorem endTag_length (tag : List Byte) : (endTag tag).length = tag.length + 3 := by
  rw [endTag_eq]; simp

theorem emptyTag_length (tag : List Byte) : (emptyTag tag).length = tag.length + 3 := by
  rw [emptyTag_eq]; simp

theorem element_length (tag c : List Byte) : (element tag c).length ≤ 2 * tag.length + 5 + c.length := by
  unfold element
  split
  · rw [emptyTag_length]; omega
  · simp only [List.length_append, startTag_length, endTag_length]; omega

theorem wrapped_length (tag c : List Byte) : (wrapped tag c).length ≤ 2 * tag.length + 5 + c.length := by
  unfold wrapped
  split
  · omega
  · simp only [List.length_append, startTag_length, endTag_length]; omega

theorem block_length (l : Int) (tag c : List Byte) : (block false l tag c).length ≤ 2 * tag.length + 5 + c.length := by
  unfold block
  split
  · omega
  · simp only [line_false, List.length_append, startTag_length, endTag_length]; omega

theorem strMax_mem : ∀ {l : List (List Byte)}, l ≠ [] → strMax l ∈ l
  | [], h => absurd rfl h
  | [a], _ => by simp [strMax]
  | a :: b :: l, _ => by
    have := strMax_mem (l := b :: l) (by simp)
    simp only [strMax]
    split
    · simp
    · exact List.mem_cons_of_mem _ this

theorem boolWord_length (b : Bool) : (boolWord b).length ≤ 5 := by cases b <;> decide

theorem flatMap_length_le {l : XVal → List Byte} {n : Nat} : ∀ (vs : List XVal), (∀ v ∈ vs, (l v).length ≤ n) → (vs.flatMap l).length ≤ vs.length * n
  | [], _ => by simp
  | v :: vs, h => by
    have h1 := h v (by simp)
    have h2 := flatMap_length_le vs fun u hu => h u (by simp [hu])
    rw [List.flatMap_cons, List.length_append, List.length_cons, Nat.add_mul]
    omega

mutual
theorem xText_length : ∀ (t : XTy) (tag : Option (List Byte)) (v : XVal), XSized t tag → XHas t v →
    (xText false t tag v).length + 1 ≤ xSize t tag
  | .int l c, tag, v, ho, hv => by
    cases v <;> simp only [XHas] at hv
    rename_i v
    simp only [xText, xSize, tagSize, line_false]
    rw [show tagInteger = chars ['I', 'N', 'T', 'E', 'G', 'E', 'R'] from rfl, tagOr_getD]
    have := element_length (tagOr tag ['I', 'N', 'T', 'E', 'G', 'E', 'R']) (decimalInt v)
    have := decimalInt_length ⟨hv.1, hv.2.1⟩
    omega
  | .uint l c, tag, v, ho, hv => by
    cases v <;> simp only [XHas] at hv
    rename_i v
    simp only [xText, xSize, tagSize, line_false]
    rw [show tagInteger = chars ['I', 'N', 'T', 'E', 'G', 'E', 'R'] from rfl, tagOr_getD]
    have := element_length (tagOr tag ['I', 'N', 'T', 'E', 'G', 'E', 'R']) (decimalInt v)
    have : (decimalInt v).length ≤ 20 := by
      rw [decimalInt_of_nonneg hv.1]
      exact decimalNat_length (by have := hv.2.1; omega)
    omega
  | .bool l, tag, v, ho, hv => by
    cases v <;> simp only [XHas] at hv
    rename_i b
    simp only [xText, xSize, tagSize, line_false]
    rw [tagOr_getD_nil]
    have := wrapped_length (tagOr tag []) (emptyTag (boolWord b))
    have := emptyTag_length (boolWord b)
    have := boolWord_length b
    omega
  | .null l, tag, v, ho, hv => by
    cases v <;> simp only [XHas] at hv
    simp only [xText, xSize, tagSize, line_false]
    rw [show tagNull = chars ['N', 'U', 'L', 'L'] from rfl, tagOr_getD, emptyTag_length]
    omega
  | .enum l labels, tag, v, ho, hv => by
    cases v <;> simp only [XHas] at hv
    rename_i i
    simp only [XSized] at ho
    simp only [xText, xSize, tagSize, line_false, lineNL_false]
    rw [tagOr_getD_nil, List.getD_eq_getElem?_getD, List.getElem?_eq_getElem hv]
    simp only [Option.getD_some]
    have h1 := ho labels[i] (List.getElem_mem hv) _ (strMax_mem (l := labels) (by intro h; subst h; simp at hv))
    have h2 := emptyTag_length labels[i]
    have h3 := wrapped_length (tagOr tag []) (emptyTag labels[i])
    split <;> omega
  | .str l numeric m z, tag, v, ho, hv => by
    cases v <;> simp only [XHas] at hv
    rename_i c
    simp only [xText, xSize, tagSize, line_false]
    rw [tagString_eq, tagOr_getD]
    have := element_length (tagOr tag (if numeric then ['N', 'u', 'm', 'e', 'r', 'i', 'c', 'S', 't', 'r', 'i', 'n', 'g']
      else ['I', 'A', '5', 'S', 't', 'r', 'i', 'n', 'g'])) c
    omega
  | .octets l lo hi, tag, v, ho, hv => by
    cases v <;> simp only [XHas] at hv
    rename_i n arr
    simp only [xText, xSize, tagSize, lineNL_false]
    rw [show tagOctets = chars ['O', 'C', 'T', 'E', 'T', '-', 'S', 'T', 'R', 'I', 'N', 'G'] from rfl, tagOr_getD]
    have h1 := wrapped_length (tagOr tag ['O', 'C', 'T', 'E', 'T', '-', 'S', 'T', 'R', 'I', 'N', 'G']) (hexText (arr.take n))
    have h2 := hexText_length (arr.take n)
    rw [List.length_take] at h2
    omega
  | .bits l lo hi, tag, v, ho, hv => by
    cases v <;> simp only [XHas] at hv
    rename_i n arr
    simp only [xText, xSize, tagSize, lineNL_false]
    rw [show tagBits = chars ['B', 'I', 'T', '-', 'S', 'T', 'R', 'I', 'N', 'G'] from rfl, tagOr_getD]
    have h1 := wrapped_length (tagOr tag ['B', 'I', 'T', '-', 'S', 'T', 'R', 'I', 'N', 'G']) (bitText ((bytesBits arr).take n))
    have h2 := bitText_length ((bytesBits arr).take n)
    rw [List.length_take] at h2
    omega
  | .seqOf l lo hi ct t, tag, v, ho, hv => by
    cases v <;> simp only [XHas] at hv
    rename_i vs
    simp only [XSized] at ho
    simp only [xText, xSize, tagSize]
    rw [show tagSeqOf = chars ['S', 'E', 'Q', 'U', 'E', 'N', 'C', 'E', '-', 'O', 'F'] from rfl, tagOr_getD]
    have h1 := block_length l (tagOr tag ['S', 'E', 'Q', 'U', 'E', 'N', 'C', 'E', '-', 'O', 'F']) (vs.flatMap (xText false t ct))
    have h2 := flatMap_length_le (l := xText false t ct) (n := xSize t ct) vs fun v hm => by
      have := xText_length t ct v ho (hv.2.2 v hm)
      omega
    have h3 := Nat.mul_le_mul_right (xSize t ct) hv.2.1
    omega
  | .seq l fs, tag, v, ho, hv => by
    cases v <;> simp only [XHas] at hv
    rename_i vs
    simp only [XSized] at ho
    simp only [xText, xSize, tagSize]
    rw [show tagSeq = chars ['S', 'E', 'Q', 'U', 'E', 'N', 'C', 'E'] from rfl, tagOr_getD]
    have h1 := block_length l (tagOr tag ['S', 'E', 'Q', 'U', 'E', 'N', 'C', 'E']) (xTextFields false fs vs)
    have h2 := xTextFields_length fs vs ho hv
    omega
  | .choice l alts, tag, v, ho, hv => by
    cases v <;> simp only [XHas] at hv
    rename_i i v
    simp only [XSized] at ho
    simp only [xText]
    have h2 := xTextAlt_length alts i v ho hv
    cases tag with
    | none =>
      simp only [xSize, block, tagOr, text, List.map_nil, if_pos]
      exact h2
    | some tag =>
      simp only [xSize, tagSize, tagOr]
      have h1 := block_length l tag (xTextAlt false alts i v)
      omega
  | .ref name t, tag, v, ho, hv => by
    simp only [XHas] at hv
    simp only [XSized] at ho
    simp only [xText, xSize]
    cases tag with
    | some tag => exact xText_length t (some tag) v ho.2 hv
    | none =>
      have hc := ho.1 rfl
      have ih := xText_length t none v ho.2 hv
      have e : xText false t (some (refTag name t none)) v = xText false t none v := by
        cases t <;> simp [XTy.isChoice] at hc
        cases v <;> simp [xText, refTag, XTy.isChoice, block, tagOr, text]
      rw [e]; exact ih
theorem xTextFields_length : ∀ (fs : XFields) (vs : List (Bool × XVal)), XSizedFields fs → XHasFields fs vs →
    (xTextFields false fs vs).length ≤ xSizeFields fs
  | .nil, vs, _, _ => by simp only [xTextFields, xSizeFields]; exact Nat.le_refl _
  | .cons name o t rest, [], _, hv => by simp only [XHasFields] at hv
  | .cons name o t rest, (e, v) :: vs, ho, hv => by
    simp only [XHasFields] at hv
    simp only [XSizedFields] at ho
    simp only [xTextFields, xSizeFields, List.length_append]
    have hr := xTextFields_length rest vs ho.2 hv.2
    cases e with
    | true =>
      have := xText_length t (some name) v ho.1 (by simpa using hv.1)
      rw [if_pos rfl]
      omega
    | false =>
      rw [if_neg (by decide), List.length_nil]
      omega
theorem xTextAlt_length : ∀ (alts : XAlts) (i : Nat) (v : XVal), XSizedAlts alts → XHasAlt alts i v →
    (xTextAlt false alts i v).length + 1 ≤ xSizeAlts alts
  | .nil, i, v, _, hv => by simp only [XHasAlt] at hv
  | .cons name t rest, 0, v, ho, hv => by
    simp only [XHasAlt] at hv
    simp only [XSizedAlts] at ho
    simp only [xTextAlt, xSizeAlts]
    have := xText_length t (some name) v ho.1 hv
    omega
  | .cons name t rest, i + 1, v, ho, hv => by
    simp only [XHasAlt] at hv
    simp only [XSizedAlts] at ho
    simp only [xTextAlt, xSizeAlts]
    have := xTextAlt_length rest i v ho.2 hv
    omega
end

/-! ## Safety -/

variable {Q : List Byte → Prop}

theorem XSafe.attempt {α : Type} {f : XM α} {P : α → Prop} (h : XSafe Q f P) : XSafe Q (attempt f) (fun r => ∀ a, r = some a → P a) := by
  intro s hs hq
  obtain ⟨r, s', e, h1, h2, h3⟩ := h s hs hq
  exact ⟨some r, s', by unfold Asn1.attempt; rw [e], h1, h2, fun a ha b hb => h3 b (by cases ha; exact hb)⟩

theorem XSafe.mono {Q R : List Byte → Prop} {α : Type} {f : XM α} {P : α → Prop} (h : XSafe R f P) (hq : ∀ l, Q l → R l) : XSafe Q f P :=
  fun s hs q => h s hs (hq _ q)

/-- What a call delivers, and what follows from its having read a text. -/
theorem XSafe.accepts {α : Type} {f : XM α} {P : α → Prop} {R : α → List Byte → Prop} (h : XSafe Q f P) (ha : Accepts f R) :
    XSafe Q f (fun a => ∃ l, R a l) := by
  intro s hs hq
  obtain ⟨r, s', e, h1, h2, _⟩ := h s hs hq
  refine ⟨r, s', e, h1, h2, fun a hr => ?_⟩
  subst hr
  obtain ⟨_, _, l, hl, _⟩ := ha s hs a s' e
  exact ⟨l, hl⟩

/-- Texts the safety theorems are about. -/
def PlainInput (l : List Byte) : Prop := NoQuote l ∧ ShortNumbers l

theorem decodeStart_plain (tag : List Byte) : XSafe PlainInput (attempt (decodeElementStart tag none)) (fun _ => True) :=
  ((decodeElementStart_safe tag none).mono fun _ h => h.1).attempt.weaken fun _ _ => trivial

theorem decodeEnd_plain (tag : List Byte) : XSafe PlainInput (attempt (decodeElementEnd tag)) (fun _ => True) :=
  (decodeElementEnd_safe tag).attempt.weaken fun _ _ => trivial

theorem laTag_plain : XSafe PlainInput (attempt laNextElementTag) (fun _ => True) :=
  laNextElementTag_safe.attempt.weaken fun _ _ => trivial

/-- The loop: `D` for every element of the list when the loop returns TRUE. -/
theorem xDecLoop_safe {dec : Nat → XM (Bool × XVal)} {tag : List Byte} {D : XVal → Prop} (hd : ∀ i, XSafe PlainInput (dec i) (fun p => p.1 = true → D p.2)) :
    ∀ n i, XSafe PlainInput (xDecLoop dec tag n i) (fun p => p.1 = true → p.2.length ≤ n ∧ ∀ v ∈ p.2, D v)
  | 0, i => by
    unfold xDecLoop
    exact (nextEndElementIs_safe tag).bind fun e _ => XSafe.pure fun _ => ⟨Nat.le_refl _, fun v hv => by cases hv⟩
  | n + 1, i => by
    unfold xDecLoop
    refine (nextEndElementIs_safe tag).bind fun e _ => ?_
    split
    · exact XSafe.pure fun _ => ⟨Nat.zero_le _, fun v hv => by cases hv⟩
    · refine (hd i).bind fun p hp => ?_
      split
      · next h =>
        refine (xDecLoop_safe hd n (i + 1)).bind fun q hq => XSafe.pure fun hq1 => ?_
        obtain ⟨h1, h2⟩ := hq hq1
        refine ⟨by simpa using h1, fun v hv => ?_⟩
        rcases List.mem_cons.mp hv with rfl | hv
        · exact hp h
        · exact h2 v hv
      · exact XSafe.pure fun h => by cases h

/-- A component. -/
theorem xDecField_safe {o : XOpt} {name : List Byte} {dec : XM (Bool × XVal)} {D : XVal → Prop} (hd : XSafe PlainInput dec (fun p => p.1 = true → D p.2)) :
    XSafe PlainInput (xDecField o name dec) (fun p => p.1 = true → if p.2.1 = true then D p.2.2 else
      match o with | .mandatory => False | .optional => p.2.2 = .unset | .default d => p.2.2 = d) := by
  unfold xDecField
  refine (nextStartElementIs_safe name).bind fun b _ => ?_
  split
  · exact hd.bind fun p hp => XSafe.pure fun h => by simpa using hp h
  · cases o with
    | mandatory => exact XSafe.pure fun h => by cases h
    | optional => exact XSafe.pure fun _ => by simp
    | default d => exact XSafe.pure fun _ => by simp

theorem XSafe.tail {f : XM (Option Unit)} {v : XVal} {D : XVal → Prop} (hf : XSafe PlainInput f (fun _ => True)) (h : D v) :
    XSafe PlainInput (do let e ← f; Pure.pure (e.isSome, v)) (fun p => p.1 = true → D p.2) :=
  hf.bind fun _ _ => XSafe.pure fun _ => h

theorem XSafe.no {v : XVal} {D : XVal → Prop} : XSafe PlainInput (Pure.pure (false, v) : XM (Bool × XVal)) (fun p => p.1 = true → D p.2) :=
  XSafe.pure fun h => by cases h

/-- Anything. -/
def AnyVal : XVal → Prop := fun _ => True

theorem anyVal (p : Bool × XVal) : p.1 = true → AnyVal p.2 := fun _ => trivial

mutual
theorem xDec_safe (old : List Nat → Int) : ∀ (t : XTy) (tag : Option (List Byte)) (path : List Nat), XSafeTy t tag →
    XSafe PlainInput (xDec old t tag path) (fun p => p.1 = true → AnyVal p.2)
  | .int l c, tag, path, h => by
    simp only [XSafeTy] at h
    simp only [xDec]
    have ht : NoNul (tag.getD tagInteger) := by
      cases tag with
      | none => exact good_integer.noNul
      | some x => exact h x rfl
    exact ((xerDecodeInteger_safe ht).mono fun _ h => h.2).attempt.bind fun _ _ => XSafe.pure (anyVal _)
  | .uint l c, tag, path, h => by
    simp only [xDec]
    exact (xerDecodePosInteger_safe _).attempt.bind fun _ _ => XSafe.pure (anyVal _)
  | .bool l, tag, path, h => by
    simp only [xDec]
    exact ((xerDecodeBoolean_safe _).mono fun _ h => h.1).attempt.bind fun _ _ => XSafe.pure (anyVal _)
  | .null l, tag, path, h => by
    simp only [xDec]
    exact (xerDecodeNull_safe _).attempt.bind fun _ _ => XSafe.pure (anyVal _)
  | .enum l labels, tag, path, h => by
    simp only [xDec]
    exact ((xerDecodeEnumerated_safe _).mono fun _ h => h.1).attempt.bind fun _ _ => XSafe.pure (anyVal _)
  | .str l numeric m z, tag, path, h => by
    simp only [XSafeTy] at h
    simp only [xDec]
    exact (xerDecodeString_safe _ (by simp) (by simpa using h)).attempt.bind fun _ _ => XSafe.pure (anyVal _)
  | .octets l lo hi, tag, path, h => by
    simp only [xDec]
    exact (xerDecodeOctetString_safe _ (by simp)).attempt.bind fun _ _ => XSafe.pure (anyVal _)
  | .bits l lo hi, tag, path, h => by
    simp only [XSafeTy] at h
    simp only [xDec]
    exact (xerDecodeBitString_safe _ (by rw [List.length_replicate]; omega)).attempt.bind fun _ _ => XSafe.pure (anyVal _)
  | .seqOf l lo hi ct t, tag, path, h => by
    simp only [XSafeTy] at h
    simp only [xDec]
    refine (decodeStart_plain _).bind fun r _ => ?_
    split
    · refine (xDecLoop_safe (D := AnyVal) (fun i => xDec_safe old t ct (path ++ [i]) h) hi 0).bind fun p _ => ?_
      split
      · exact XSafe.tail (decodeEnd_plain _) trivial
      · exact XSafe.no
    · exact XSafe.no
  | .seq l fs, tag, path, h => by
    simp only [XSafeTy] at h
    simp only [xDec]
    refine (decodeStart_plain _).bind fun r _ => ?_
    split
    · refine (xDecFields_safe old fs path 0 h).bind fun p _ => ?_
      split
      · exact XSafe.tail (decodeEnd_plain _) trivial
      · exact XSafe.no
    · exact XSafe.no
  | .choice l alts, tag, path, h => by
    simp only [XSafeTy] at h
    have hb : XSafe PlainInput (do
        let r ← attempt laNextElementTag
        match r with
        | none => Pure.pure (false, .unset)
        | some next => xDecAlts old alts next path 0) (fun p => p.1 = true → AnyVal p.2) := by
      refine laTag_plain.bind fun r _ => ?_
      cases r with
      | none => exact XSafe.no
      | some next => exact xDecAlts_safe old alts next path 0 h
    cases tag with
    | none => simp only [xDec]; exact hb
    | some tag =>
      simp only [xDec]
      refine (decodeStart_plain _).bind fun r _ => ?_
      split
      · refine laTag_plain.bind fun r _ => ?_
        refine XSafe.bind (P := fun _ => True) ?_ fun p _ => XSafe.tail (decodeEnd_plain _) trivial
        cases r with
        | none => exact XSafe.pure trivial
        | some next => exact (xDecAlts_safe old alts next path 0 h).weaken fun _ _ => trivial
      · exact XSafe.no
  | .ref name t, tag, path, h => by
    simp only [XSafeTy] at h
    simp only [xDec]
    exact xDec_safe old t _ path h
theorem xDecFields_safe (old : List Nat → Int) : ∀ (fs : XFields) (path : List Nat) (j : Nat), XSafeFields fs →
    XSafe PlainInput (xDecFields old fs path j) (fun _ => True)
  | .nil, path, j, _ => by simp only [xDecFields]; exact XSafe.pure trivial
  | .cons name o t rest, path, j, h => by
    simp only [XSafeFields] at h
    simp only [xDecFields]
    refine (xDecField_safe (xDec_safe old t (some name) (path ++ [j]) h.1)).bind fun p _ => ?_
    split
    · exact (xDecFields_safe old rest path (j + 1) h.2).bind fun q _ => XSafe.pure trivial
    · exact XSafe.pure trivial
theorem xDecAlts_safe (old : List Nat → Int) : ∀ (alts : XAlts) (next : List Byte) (path : List Nat) (j : Nat), XSafeAlts alts →
    XSafe PlainInput (xDecAlts old alts next path j) (fun p => p.1 = true → AnyVal p.2)
  | .nil, next, path, j, _ => by simp only [xDecAlts]; exact XSafe.no
  | .cons name t rest, next, path, j, h => by
    simp only [XSafeAlts] at h
    simp only [xDecAlts]
    split
    · exact (xDec_safe old t (some name) (path ++ [j]) h.1).bind fun p _ => XSafe.pure (anyVal _)
    · exact xDecAlts_safe old rest next path (j + 1) h.2
end

/-! ## What TRUE means -/

theorem strtoullC_lt (l : List Byte) : strtoullC l < 2 ^ 64 := by
  unfold strtoullC
  dsimp only
  split
  · omega
  · split
    · exact Nat.mod_lt _ (by decide)
    · omega

theorem checkedInt_true {check : Option (Int → Bool)} {old : Int} {r : Option Int} (h : (checkedInt check old r).1 = true) :
    (checkedInt check old r).2 = .int (r.getD old) ∧ (∀ f, check = some f → f (r.getD old) = true) := by
  refine ⟨rfl, fun f hf => ?_⟩
  subst hf
  exact h

mutual
theorem xDec_true {old : List Nat → Int} (hold : ∀ p, 0 ≤ old p ∧ old p < 2 ^ 63) : ∀ (t : XTy) (tag : Option (List Byte)) (path : List Nat), XChecked t tag →
    XSafe PlainInput (xDec old t tag path) (fun p => p.1 = true → XHas t p.2)
  | .int l c, tag, path, h => by
    simp only [XChecked] at h
    simp only [xDec]
    have ht : NoNul (tag.getD tagInteger) := by
      cases tag with
      | none => exact good_integer.noNul
      | some x => exact h x rfl
    refine ((xerDecodeInteger_safe ht).mono fun _ h => h.2).attempt.bind fun r hr => XSafe.pure fun h1 => ?_
    obtain ⟨e, h2⟩ := checkedInt_true h1
    rw [e]
    simp only [XHas]
    have := hold path
    cases r with
    | none => exact ⟨by simp only [Option.getD_none]; omega, by simp only [Option.getD_none]; omega, h2⟩
    | some v => exact ⟨(hr v rfl).1, (hr v rfl).2, h2⟩
  | .uint l c, tag, path, h => by
    simp only [xDec]
    have hp : XSafe PlainInput (xerDecodePosInteger (tag.getD tagInteger)) (fun v => v < 2 ^ 64) := by
      unfold xerDecodePosInteger
      exact (primitiveText_safe _ (by decide)).bind fun _ _ => XSafe.pure (strtoullC_lt _)
    refine hp.attempt.bind fun r hr => XSafe.pure fun h1 => ?_
    obtain ⟨e, h2⟩ := checkedInt_true h1
    rw [e]
    simp only [XHas]
    have := hold path
    cases r with
    | none => exact ⟨by simp only [Option.map_none, Option.getD_none]; omega, by simp only [Option.map_none, Option.getD_none]; omega, h2⟩
    | some v =>
      have hv := hr v rfl
      exact ⟨Int.natCast_nonneg v, by simp only [Option.map_some, Option.getD_some, Int.ofNat_eq_natCast]; omega, h2⟩
  | .bool l, tag, path, h => by
    simp only [xDec]
    refine ((xerDecodeBoolean_safe _).mono fun _ h => h.1).attempt.bind fun r _ => XSafe.pure fun h => ?_
    cases r with
    | none => cases h
    | some b => simp only [uncheckedVal, XHas]
  | .null l, tag, path, h => by
    simp only [xDec]
    refine (xerDecodeNull_safe _).attempt.bind fun r _ => XSafe.pure fun h => ?_
    cases r with
    | none => cases h
    | some b => simp only [uncheckedVal, XHas]
  | .str l numeric m z, tag, path, h => by
    simp only [XChecked] at h
    simp only [xDec]
    have ht : NoNul (tag.getD (tagString numeric)) := by
      cases tag with
      | none => show NoNul (tagString numeric); rw [tagString_eq]; exact (good_string numeric).noNul
      | some x => exact h.2 x rfl
    have hs := (xerDecodeString_safe (Q := PlainInput) (tag.getD (tagString numeric)) (arr := List.replicate (m + 1) 0#8) (n := z) (by simp) (by simpa using h.1)).accepts
      (decodePrimitiveElement_accepts ht (by simp) (by simpa using h.1))
    refine hs.attempt.bind fun r hr => XSafe.pure fun h1 => ?_
    cases r with
    | none => cases h1
    | some a =>
      obtain ⟨t, hl, c, hc, hc2, hc3⟩ := hr a rfl
      simp only [uncheckedVal, XHas]
      have hpre : a = c ++ [0#8] ++ a.drop (c.length + 1) := by
        conv => lhs; rw [← List.take_append_drop (c.length + 1) a, hc3]
      have hcc : cstr a = cstr c := by
        rw [hpre]
        unfold cstr
        rw [List.append_assoc, List.takeWhile_append]
        split
        · next hh =>
          simp only [List.singleton_append]
          rw [List.takeWhile_cons_of_neg (by simp), List.append_nil]
          exact ((List.takeWhile_sublist _).eq_of_length hh).symm
        · rfl
      rw [hcc]
      constructor
      · intro b hb
        refine ⟨?_, fun hb0 => ?_⟩
        · have hbc : b ∈ c := (List.takeWhile_sublist _).subset hb
          rcases hc with ⟨rfl, _⟩ | ⟨h2, _⟩
          · cases hbc
          · exact h2 b hbc
        · have := List.all_eq_true.mp List.all_takeWhile b hb
          rw [hb0] at this
          exact absurd this (by decide)
      · have := cstr_length_le c
        rcases hc2 with rfl | h2
        · simp [cstr]
        · have := h.1; omega
  | .seqOf l lo hi ct t, tag, path, h => by
    simp only [XChecked] at h
    simp only [xDec]
    refine (decodeStart_plain _).bind fun r _ => ?_
    split
    · refine (xDecLoop_safe (D := XHas t) (fun i => xDec_true hold t ct (path ++ [i]) h.2.2) hi 0).bind fun p hp => ?_
      split
      · next h1 =>
        refine XSafe.tail (decodeEnd_plain _) ?_
        rw [if_neg (by omega)]
        simp only [XHas]
        exact ⟨by omega, (hp h1).1, (hp h1).2⟩
      · exact XSafe.no
    · exact XSafe.no
  | .seq l fs, tag, path, h => by
    simp only [XChecked] at h
    simp only [xDec]
    refine (decodeStart_plain _).bind fun r _ => ?_
    split
    · refine (xDecFields_true hold fs path 0 h).bind fun p hp => ?_
      split
      · next h1 =>
        refine XSafe.tail (decodeEnd_plain _) ?_
        simp only [XHas]
        exact hp h1
      · exact XSafe.no
    · exact XSafe.no
  | .choice l alts, tag, path, h => by
    simp only [XChecked] at h
    rw [h.1]
    simp only [xDec]
    refine laTag_plain.bind fun r _ => ?_
    cases r with
    | none => exact XSafe.no
    | some next =>
      refine (xDecAlts_true hold alts next path 0 h.2).weaken fun p hp h1 => ?_
      obtain ⟨i, v, e, hv⟩ := hp h1
      rw [e, Nat.zero_add]
      simp only [XHas]
      exact hv
  | .ref name t, tag, path, h => by
    simp only [XChecked] at h
    simp only [xDec]
    refine (xDec_true hold t _ path h).weaken fun p hp h1 => ?_
    simp only [XHas]
    exact hp h1
  | .enum .., tag, path, h => by simp only [XChecked] at h
  | .octets .., tag, path, h => by simp only [XChecked] at h
  | .bits .., tag, path, h => by simp only [XChecked] at h
theorem xDecFields_true {old : List Nat → Int} (hold : ∀ p, 0 ≤ old p ∧ old p < 2 ^ 63) : ∀ (fs : XFields) (path : List Nat) (j : Nat), XCheckedFields fs →
    XSafe PlainInput (xDecFields old fs path j) (fun p => p.1 = true → XHasFields fs p.2)
  | .nil, path, j, _ => by simp only [xDecFields]; exact XSafe.pure fun _ => by simp only [XHasFields]
  | .cons name o t rest, path, j, h => by
    simp only [XCheckedFields] at h
    simp only [xDecFields]
    refine (xDecField_safe (xDec_true hold t (some name) (path ++ [j]) h.1)).bind fun p hp => ?_
    split
    · next h1 =>
      refine (xDecFields_true hold rest path (j + 1) h.2).bind fun q hq => XSafe.pure fun h2 => ?_
      obtain ⟨a, b, c⟩ := p
      simp only [XHasFields]
      exact ⟨hp h1, hq h2⟩
    · exact XSafe.pure fun h => by cases h
theorem xDecAlts_true {old : List Nat → Int} (hold : ∀ p, 0 ≤ old p ∧ old p < 2 ^ 63) : ∀ (alts : XAlts) (next : List Byte) (path : List Nat) (j : Nat), XCheckedAlts alts →
    XSafe PlainInput (xDecAlts old alts next path j) (fun p => p.1 = true → ∃ i v, p.2 = .choice (j + i) v ∧ XHasAlt alts i v)
  | .nil, next, path, j, _ => by simp only [xDecAlts]; exact XSafe.pure fun h => by cases h
  | .cons name t rest, next, path, j, h => by
    simp only [XCheckedAlts] at h
    simp only [xDecAlts]
    split
    · refine (xDec_true hold t (some name) (path ++ [j]) h.1).bind fun p hp => XSafe.pure fun h1 => ⟨0, p.2, rfl, ?_⟩
      simp only [XHasAlt]
      exact hp h1
    · refine (xDecAlts_true hold rest next path (j + 1) h.2).weaken fun p hp h1 => ?_
      obtain ⟨i, v, e, hv⟩ := hp h1
      refine ⟨i + 1, v, by rw [e, Nat.add_assoc, Nat.add_comm 1 i], ?_⟩
      simp only [XHasAlt]
      exact hv
end

end Asn1
