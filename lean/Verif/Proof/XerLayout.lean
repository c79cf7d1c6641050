import Verif.Proof.XerGenRead2
import Verif.Spec.XerFile
/-!
# Lemmas about the generated XER decoders: any layout of a value is read
-/
namespace Asn1

theorem LaidOut.append : ∀ {a b : List (List Byte)} {l : List Byte}, LaidOut (a ++ b) l → ∃ l1 l2, LaidOut a l1 ∧ LaidOut b l2 ∧ l = l1 ++ l2
  | [], b, l, h => ⟨[], l, isSpaces_nil, h, rfl⟩
  | p :: a, b, l, h => by
    obtain ⟨sp, r, h1, h2, rfl⟩ := h
    obtain ⟨l1, l2, h3, h4, rfl⟩ := LaidOut.append (a := a) h2
    exact ⟨sp ++ p ++ l1, l2, ⟨sp, l1, h1, h3, rfl⟩, h4, by simp⟩

theorem LaidOut.one {p l : List Byte} (h : LaidOut [p] l) : ∃ v u, IsSpaces v ∧ IsSpaces u ∧ l = v ++ p ++ u := by
  obtain ⟨sp, r, h1, h2, rfl⟩ := h
  exact ⟨sp, r, h1, h2, rfl⟩

theorem XReads.laid {α : Type} {f : XM α} {a : α} {p l : List Byte} (hf : XReads f a p) (h : LaidOut [p] l) : XReads f a l := by
  obtain ⟨v, u, h1, h2, rfl⟩ := h.one
  exact hf.spaces h1 h2

/-- The first part opens the element. -/
def PartsOpen (name : List Byte) (ps : List (List Byte)) : Prop := ∃ p r, ps = p :: r ∧ OpensWith name p

theorem PartsOpen.append {name : List Byte} {ps : List (List Byte)} (qs : List (List Byte)) (h : PartsOpen name ps) : PartsOpen name (ps ++ qs) := by
  obtain ⟨p, r, rfl, h⟩ := h
  exact ⟨p, r ++ qs, rfl, h⟩

theorem OpensWith.parts {name p : List Byte} (h : OpensWith name p) : PartsOpen name [p] := ⟨p, [], rfl, h⟩

theorem PartsOpen.laid {name l : List Byte} {ps : List (List Byte)} (h : PartsOpen name ps) (hl : LaidOut ps l) : XOpens name l := by
  obtain ⟨p, r, rfl, h⟩ := h
  obtain ⟨sp, q, h1, h2, rfl⟩ := hl
  exact ⟨sp, p ++ q, h1, by simp, h.append⟩

theorem partsOpen_block {tag : List Byte} {c : List (List Byte)} (h : tag ≠ []) : PartsOpen tag (blockParts tag c) := by
  unfold blockParts; rw [if_neg h]
  exact ⟨_, _, rfl, opensWith_startTag tag⟩

theorem partsOpen_word {tag word : List Byte} (ht : tag = [] ∨ GoodTag tag) (hw : GoodTag word) :
    ∃ name, GoodTag name ∧ PartsOpen name [wrapped tag (emptyTag word)] ∧ (tag ≠ [] → name = tag) := by
  rcases ht with rfl | ht
  · refine ⟨word, hw, ?_, fun h => absurd rfl h⟩
    unfold wrapped; rw [if_pos rfl]
    exact (opensWith_emptyTag word).parts
  · exact ⟨tag, ht, (opensWith_wrapped ht.1).parts, fun _ => rfl⟩

mutual
theorem xParts_open : ∀ (t : XTy) (tag : Option (List Byte)) (v : XVal), XOk t tag → XHas t v →
    ∃ name, GoodTag name ∧ PartsOpen name (xParts t tag v) ∧ ∀ x, tag = some x → x ≠ [] → name = x
  | .int l c, tag, v, ho, hv => by
    cases v <;> simp only [XHas] at hv
    simp only [XOk] at ho
    simp only [xParts]
    exact ⟨_, good_tagOr good_integer ho, (opensWith_element _ _).parts, fun x h _ => by rw [h]; rfl⟩
  | .uint l c, tag, v, ho, hv => by
    cases v <;> simp only [XHas] at hv
    simp only [XOk] at ho
    simp only [xParts]
    exact ⟨_, good_tagOr good_integer ho, (opensWith_element _ _).parts, fun x h _ => by rw [h]; rfl⟩
  | .bool l, tag, v, ho, hv => by
    cases v <;> simp only [XHas] at hv
    simp only [XOk] at ho
    simp only [xParts]
    obtain ⟨n, h1, h2, h3⟩ := partsOpen_word (good_tagOr_nil ho) (boolWord_good _)
    exact ⟨n, h1, h2, fun x h hx => by subst h; exact h3 hx⟩
  | .null l, tag, v, ho, hv => by
    cases v <;> simp only [XHas] at hv
    simp only [XOk] at ho
    simp only [xParts]
    exact ⟨_, good_tagOr good_null ho, (opensWith_emptyTag _).parts, fun x h _ => by rw [h]; rfl⟩
  | .enum l labels, tag, v, ho, hv => by
    cases v <;> simp only [XHas] at hv
    rename_i i
    simp only [XOk] at ho
    simp only [xParts]
    have hg := ho.2.2 labels[i] (List.getElem_mem hv)
    rw [List.getD_eq_getElem?_getD, List.getElem?_eq_getElem hv]
    simp only [Option.getD_some]
    obtain ⟨n, h1, h2, h3⟩ := partsOpen_word (good_tagOr_nil ho.1) hg
    exact ⟨n, h1, h2, fun x h hx => by subst h; exact h3 hx⟩
  | .str l numeric m z, tag, v, ho, hv => by
    cases v <;> simp only [XHas] at hv
    simp only [XOk] at ho
    simp only [xParts]
    exact ⟨_, good_tagOr (good_string numeric) ho.1, (opensWith_element _ _).parts, fun x h _ => by rw [h]; rfl⟩
  | .octets l lo hi, tag, v, ho, hv => by
    cases v <;> simp only [XHas] at hv
    simp only [XOk] at ho
    simp only [xParts]
    have hg := good_tagOr good_octets ho.1
    exact ⟨_, hg, (opensWith_wrapped hg.1).parts, fun x h _ => by rw [h]; rfl⟩
  | .bits l lo hi, tag, v, ho, hv => by
    cases v <;> simp only [XHas] at hv
    simp only [XOk] at ho
    simp only [xParts]
    have hg := good_tagOr good_bits ho.1
    exact ⟨_, hg, (opensWith_wrapped hg.1).parts, fun x h _ => by rw [h]; rfl⟩
  | .seqOf l lo hi ct t, tag, v, ho, hv => by
    cases v <;> simp only [XHas] at hv
    simp only [XOk] at ho
    simp only [xParts]
    have hg := good_tagOr good_seqOf ho.1
    exact ⟨_, hg, partsOpen_block hg.1, fun x h _ => by rw [h]; rfl⟩
  | .seq l fs, tag, v, ho, hv => by
    cases v <;> simp only [XHas] at hv
    simp only [XOk] at ho
    simp only [xParts]
    have hg := good_tagOr good_seq ho.1
    exact ⟨_, hg, partsOpen_block hg.1, fun x h _ => by rw [h]; rfl⟩
  | .choice l alts, tag, v, ho, hv => by
    cases v <;> simp only [XHas] at hv
    rename_i i v
    simp only [XOk] at ho
    simp only [xParts]
    obtain ⟨name, h1, _, h2⟩ := xPartsAlt_open alts i v ho.2.2 hv
    rcases good_tagOr_nil ho.1 with h | h
    · refine ⟨name, h1, by unfold blockParts; rw [if_pos h]; exact h2, fun x hx hne => ?_⟩
      subst hx; exact absurd h hne
    · exact ⟨_, h, partsOpen_block h.1, fun x hx _ => by rw [hx]; rfl⟩
  | .ref name t, tag, v, ho, hv => by
    simp only [XHas] at hv
    simp only [XOk] at ho
    simp only [xParts]
    obtain ⟨n, h1, h2, h3⟩ := xParts_open t _ v ho hv
    exact ⟨n, h1, h2, fun x h hx => h3 x (by subst h; rfl) hx⟩
theorem xPartsAlt_open : ∀ (alts : XAlts) (i : Nat) (v : XVal), XOkAlts alts → XHasAlt alts i v →
    ∃ name, GoodTag name ∧ alts.names[i]? = some name ∧ PartsOpen name (xPartsAlt alts i v)
  | .nil, i, v, _, hv => by simp only [XHasAlt] at hv
  | .cons name t rest, 0, v, ho, hv => by
    simp only [XHasAlt] at hv
    simp only [XOkAlts] at ho
    simp only [xPartsAlt]
    obtain ⟨n, h1, h2, h3⟩ := xParts_open t (some name) v ho.2.1 hv
    have := h3 name rfl ho.1.1
    subst this
    exact ⟨n, h1, rfl, h2⟩
  | .cons name t rest, i + 1, v, ho, hv => by
    simp only [XHasAlt] at hv
    simp only [XOkAlts] at ho
    simp only [xPartsAlt]
    exact xPartsAlt_open rest i v ho.2.2 hv
end

theorem xPartsFields_open : ∀ (fs : XFields) (vs : List (Bool × XVal)), XOkFields fs → XHasFields fs vs →
    xPartsFields fs vs = [] ∨ ∃ name ∈ fs.names, GoodTag name ∧ PartsOpen name (xPartsFields fs vs)
  | .nil, vs, _, _ => by left; simp only [xPartsFields]
  | .cons name o t rest, [], _, hv => by simp only [XHasFields] at hv
  | .cons name o t rest, (e, v) :: vs, ho, hv => by
    simp only [XHasFields] at hv
    simp only [XOkFields] at ho
    simp only [xPartsFields]
    cases e with
    | true =>
      right
      obtain ⟨n, h1, h2, h3⟩ := xParts_open t (some name) v ho.2.1 (by simpa using hv.1)
      have := h3 name rfl ho.1.1
      subst this
      exact ⟨n, by simp [XFields.names], h1, h2.append _⟩
    | false =>
      rcases xPartsFields_open rest vs ho.2.2 hv.2 with h | ⟨n, h1, h2, h3⟩
      · left; simpa using h
      · right; exact ⟨n, by simp [XFields.names, h1], h2, by simpa using h3⟩

theorem xDecLoop_laid {dec : Nat → XM (Bool × XVal)} {tag : List Byte} {ps : XVal → List (List Byte)} (ht : GoodTag tag) :
    ∀ (vs : List XVal) (n i : Nat) (l : List Byte), vs.length ≤ n → LaidOut (vs.flatMap ps) l →
    (∀ v ∈ vs, (∀ i l, LaidOut (ps v) l → XReads (dec i) (true, v) l) ∧ ∃ name, GoodTag name ∧ PartsOpen name (ps v)) →
    XReadsIf (fun r => ∃ sp r', IsSpaces sp ∧ r = sp ++ (endTag tag ++ r')) (xDecLoop dec tag n i) (true, vs) l
  | [], n, i, l, _, hl, _ => by
    have hl : IsSpaces l := hl
    have hp : ∀ (s : XerStream) (w r : List Byte), XInput s → IsSpaces w → s.unread = w ++ (l ++ r) →
        (∃ sp r', IsSpaces sp ∧ r = sp ++ (endTag tag ++ r')) → nextEndElementIs tag s = .ok (some true, s) := by
      intro s w r hs hw hu ⟨sp, r', h1, h2⟩
      exact nextEndElementIs_end (r := r') hs (isSpaces_append (isSpaces_append hw hl) h1) ht (by rw [hu, h2]; simp)
    have hpure : ∀ {α : Type} (a : α), XReads (Pure.pure a : XM α) a l := by
      intro α a
      have := (XReads.pure a).spaces hl isSpaces_nil
      simpa using this
    cases n with
    | zero =>
      unfold xDecLoop
      exact XReadsIf.peek hp (hpure _).toIf
    | succ n =>
      unfold xDecLoop
      exact XReadsIf.peek hp (by rw [if_pos rfl]; exact (hpure _).toIf)
  | v :: vs, 0, i, l, h, _, _ => by simp at h
  | v :: vs, n + 1, i, l, h, hl, hv => by
    obtain ⟨hd, name, h1, h2⟩ := hv v (by simp)
    rw [List.flatMap_cons] at hl
    obtain ⟨l1, l2, hl1, hl2, rfl⟩ := hl.append
    have ih := xDecLoop_laid (dec := dec) ht vs n (i + 1) l2 (by simpa using h) hl2 (fun u hu => hv u (by simp [hu]))
    unfold xDecLoop
    refine XReadsIf.peek (a := false) ?_ ?_
    · intro s w r hs hw hu _
      exact end_of_opens hs hw h1 ((h2.laid hl1).append (l2 ++ r)) (by rw [hu]; simp)
    · rw [if_neg (by decide)]
      refine (hd i l1 hl1).bindIf ?_
      rw [if_pos rfl]
      exact ih.map rfl

theorem block_laid {tag : List Byte} {c : List (List Byte)} {l : List Byte} {α β : Type} {f : XM α} {a : α} {g : α → Option Unit → β} {h : α → β} {k : β}
    {P : α → Bool} (ht : GoodTag tag) (hf : ∀ l, LaidOut c l → XReadsIf (fun r => ∃ sp r', IsSpaces sp ∧ r = sp ++ (endTag tag ++ r')) f a l)
    (hP : P a = true) (hl : LaidOut (blockParts tag c) l) :
    XReads (do
      let r ← attempt (decodeElementStart tag none)
      if r.isSome then do
        let p ← f
        if P p then do
          let e ← attempt (decodeElementEnd tag)
          Pure.pure (g p e)
        else Pure.pure (h p)
      else Pure.pure k) (g a (some ())) l := by
  unfold blockParts at hl
  rw [if_neg ht.1] at hl
  obtain ⟨l1, l2, hl1, hl2, rfl⟩ := LaidOut.append (a := [startTag tag]) hl
  obtain ⟨l3, l4, hl3, hl4, rfl⟩ := LaidOut.append hl2
  refine (attempt_reads ((decodeElementStart_reads (attrs := none) ht).laid hl1)).bind ?_
  rw [Option.isSome_some, if_pos rfl]
  refine (hf l3 hl3).bind ?_ (fun r => ?_)
  · rw [if_pos hP]
    exact (attempt_reads ((decodeElementEnd_reads ht).laid hl4)).map rfl
  · obtain ⟨v, u, h1, h2, rfl⟩ := hl4.one
    exact ⟨v, u ++ r, h1, by simp⟩

theorem attempt_map_laid {α β : Type} {f : XM α} {a : α} {p l : List Byte} {b : β} {g : Option α → β} (h : XReads f a p) (hl : LaidOut [p] l)
    (hg : g (some a) = b) : XReads (do let r ← attempt f; Pure.pure (g r)) b l := attempt_map (h.laid hl) hg

mutual
theorem xDec_laid (old : List Nat → Int) : ∀ (t : XTy) (tag : Option (List Byte)) (path : List Nat) (v : XVal) (txt : List Byte), XOk t tag → XHas t v →
    LaidOut (xParts t tag v) txt → XReads (xDec old t tag path) (true, v) txt
  | .int l c, tag, path, v, txt, ho, hv, hl => by
    cases v <;> simp only [XHas] at hv
    simp only [XOk] at ho
    simp only [xParts] at hl
    simp only [xDec]
    rw [show tagInteger = chars ['I', 'N', 'T', 'E', 'G', 'E', 'R'] from rfl, tagOr_getD]
    exact attempt_map_laid (xerDecodeInteger_reads (good_tagOr good_integer ho) ⟨hv.1, hv.2.1⟩) hl (checkedInt_ok hv.2.2)
  | .uint l c, tag, path, v, txt, ho, hv, hl => by
    cases v <;> simp only [XHas] at hv
    rename_i v
    simp only [XOk] at ho
    simp only [xParts] at hl
    simp only [xDec]
    rw [decimalInt_of_nonneg hv.1] at hl
    rw [show tagInteger = chars ['I', 'N', 'T', 'E', 'G', 'E', 'R'] from rfl, tagOr_getD]
    refine attempt_map_laid (xerDecodePosInteger_reads (good_tagOr good_integer ho) (v := v.toNat) (by have := hv.2.1; omega)) hl ?_
    have e : (some v.toNat).map Int.ofNat = some v := by
      simp only [Option.map_some]; congr 1; exact Int.toNat_of_nonneg hv.1
    rw [e]
    exact checkedInt_ok hv.2.2
  | .bool l, tag, path, v, txt, ho, hv, hl => by
    cases v <;> simp only [XHas] at hv
    simp only [XOk] at ho
    simp only [xParts] at hl
    simp only [xDec]
    rw [tagOr_getD_nil]
    exact attempt_map_laid (xerDecodeBoolean_reads (good_tagOr_nil ho)) hl rfl
  | .null l, tag, path, v, txt, ho, hv, hl => by
    cases v <;> simp only [XHas] at hv
    simp only [XOk] at ho
    simp only [xParts] at hl
    simp only [xDec]
    rw [show tagNull = chars ['N', 'U', 'L', 'L'] from rfl, tagOr_getD]
    exact attempt_map_laid (xerDecodeNull_reads (good_tagOr good_null ho)) hl rfl
  | .enum l labels, tag, path, v, txt, ho, hv, hl => by
    cases v <;> simp only [XHas] at hv
    rename_i i
    simp only [XOk] at ho
    simp only [xParts] at hl
    simp only [xDec]
    have hg := ho.2.2 labels[i] (List.getElem_mem hv)
    rw [List.getD_eq_getElem?_getD, List.getElem?_eq_getElem hv] at hl
    simp only [Option.getD_some] at hl
    rw [tagOr_getD_nil]
    have he : enumVal labels (some labels[i]) = (true, .enum i) := by
      unfold enumVal
      simp only [findIdx?_label ho.2.1 hv]
    exact attempt_map_laid (xerDecodeEnumerated_reads (good_tagOr_nil ho.1) hg) hl he
  | .str l numeric m z, tag, path, v, txt, ho, hv, hl => by
    cases v <;> simp only [XHas] at hv
    rename_i c
    simp only [XOk] at ho
    simp only [xParts] at hl
    simp only [xDec]
    rw [tagString_eq, tagOr_getD]
    refine attempt_map_laid (xerDecodeString_reads (arr := List.replicate (m + 1) 0#8) (n := z) (good_tagOr (good_string numeric) ho.1) hv.1
      (by have := hv.2; omega) (by rw [List.length_replicate]; omega)) hl ?_
    unfold uncheckedVal
    simp only [cstr_stored hv.1.noNul]
  | .octets l lo hi, tag, path, v, txt, ho, hv, hl => by
    cases v <;> simp only [XHas] at hv
    rename_i n arr
    simp only [XOk] at ho
    simp only [xParts] at hl
    simp only [xDec]
    rw [show tagOctets = chars ['O', 'C', 'T', 'E', 'T', '-', 'S', 'T', 'R', 'I', 'N', 'G'] from rfl, tagOr_getD]
    have hlen : (arr.take n).length = n := by rw [List.length_take]; omega
    refine attempt_map_laid (xerDecodeOctetString_reads (c := arr.take n) (value := List.replicate hi 0#8) (m := hi) (good_tagOr good_octets ho.1)
      (by omega) (by simp) (by omega)) hl ?_
    rw [octets_back hv.2.2.1 hv.2.1 hv.2.2.2, hlen]
    have e : (if lo = hi then hi else n) = n := by
      by_cases h : lo = hi
      · rw [if_pos h]; omega
      · rw [if_neg h]
    simp only [uncheckedVal, e]
  | .bits l lo hi, tag, path, v, txt, ho, hv, hl => by
    cases v <;> simp only [XHas] at hv
    rename_i n arr
    simp only [XOk] at ho
    simp only [xParts] at hl
    simp only [xDec]
    rw [show tagBits = chars ['B', 'I', 'T', '-', 'S', 'T', 'R', 'I', 'N', 'G'] from rfl, tagOr_getD]
    obtain ⟨hp, hback⟩ := bits_back hv.2.2.1 hv.2.1 hv.2.2.2
    have hlen : ((bytesBits arr).take n).length = n := by rw [List.length_take, bytesBits_length]; omega
    have hm : (arr.take ((n + 7) / 8)).length = (n + 7) / 8 := by rw [List.length_take]; omega
    refine attempt_map_laid (xerDecodeBitString_reads (value := List.replicate ((hi + 7) / 8) 0#8) (m := hi) (good_tagOr good_bits ho.1) hp (by omega)
      (by rw [List.length_replicate]; omega) (by omega)) hl ?_
    rw [hback, hlen]
    have e : (if lo = hi then hi else n) = n := by
      by_cases h : lo = hi
      · rw [if_pos h]; omega
      · rw [if_neg h]
    simp only [uncheckedVal, e]
  | .seqOf l lo hi ct t, tag, path, v, txt, ho, hv, hl => by
    cases v <;> simp only [XHas] at hv
    rename_i vs
    simp only [XOk] at ho
    simp only [xParts] at hl
    simp only [xDec]
    rw [show tagSeqOf = chars ['S', 'E', 'Q', 'U', 'E', 'N', 'C', 'E', '-', 'O', 'F'] from rfl, tagOr_getD]
    have hg := good_tagOr good_seqOf ho.1
    have hloop := fun l (hl : LaidOut (vs.flatMap (xParts t ct)) l) =>
      xDecLoop_laid (dec := fun i => xDec old t ct (path ++ [i])) (ps := xParts t ct) hg vs hi 0 l hv.2.1 hl (fun v hm =>
      ⟨fun i l hl => xDec_laid old t ct (path ++ [i]) v l ho.2 (hv.2.2 v hm) hl, by
        obtain ⟨n, h1, h2, _⟩ := xParts_open t ct v ho.2 (hv.2.2 v hm)
        exact ⟨n, h1, h2⟩⟩)
    have := block_laid (f := xDecLoop (fun i => xDec old t ct (path ++ [i])) (tagOr tag ['S', 'E', 'Q', 'U', 'E', 'N', 'C', 'E', '-', 'O', 'F']) hi 0)
      (g := fun p e => (e.isSome, XVal.seqOf (if lo = hi then p.2 ++ List.replicate (hi - p.2.length) .unset else p.2)))
      (h := fun p => (false, XVal.seqOf (if lo = hi then p.2 ++ List.replicate (hi - p.2.length) .unset else p.2)))
      (k := (false, .unset)) (P := fun p => p.1) hg hloop rfl hl
    have e : (if lo = hi then vs ++ List.replicate (hi - vs.length) .unset else vs) = vs := by
      by_cases h : lo = hi
      · have : hi - vs.length = 0 := by omega
        rw [if_pos h, this]; simp
      · rw [if_neg h]
    simp only [Option.isSome_some, e] at this
    exact this
  | .seq l fs, tag, path, v, txt, ho, hv, hl => by
    cases v <;> simp only [XHas] at hv
    rename_i vs
    simp only [XOk] at ho
    simp only [xParts] at hl
    simp only [xDec]
    rw [show tagSeq = chars ['S', 'E', 'Q', 'U', 'E', 'N', 'C', 'E'] from rfl, tagOr_getD]
    have hg := good_tagOr good_seq ho.1
    have hf := fun l => xDecFields_laid old fs path 0 vs l ho.2.1 ho.2.2 hv
    exact block_laid (g := fun p e => (e.isSome, XVal.seq p.2)) (h := fun p => (false, XVal.seq p.2)) (k := (false, .unset))
      (P := fun p => p.1) hg (fun l hl s sp r hs hsp hu hr => hf l hl s sp r hs hsp hu (closes_of_end hr)) rfl hl
  | .choice l alts, tag, path, v, txt, ho, hv, hl => by
    cases v <;> simp only [XHas] at hv
    rename_i i v
    simp only [XOk] at ho
    simp only [xParts] at hl
    obtain ⟨name, h1, hname, h2⟩ := xPartsAlt_open alts i v ho.2.2 hv
    have ha := fun l hl => xDecAlts_laid old alts i v name path 0 l ho.2.1 ho.2.2 hv hname hl
    simp only [Nat.zero_add] at ha
    cases tag with
    | none =>
      simp only [xDec]
      have e : blockParts (tagOr none []) (xPartsAlt alts i v) = xPartsAlt alts i v := by simp [blockParts, tagOr, text]
      rw [e] at hl
      exact XReads.lookTag h1 (h2.laid hl) (ha txt hl)
    | some tag =>
      simp only [xDec]
      replace hl : LaidOut (blockParts tag (xPartsAlt alts i v)) txt := hl
      rcases ho.1 tag rfl with rfl | ht
      · have e : blockParts [] (xPartsAlt alts i v) = xPartsAlt alts i v := by simp [blockParts]
        have e1 : attempt (decodeElementStart [] none) = (Pure.pure (some none) : XM (Option (Option XmlAttrs))) := rfl
        have e2 : attempt (decodeElementEnd []) = (Pure.pure (some ()) : XM (Option Unit)) := rfl
        rw [e] at hl
        rw [e1, e2, pure_bind, Option.isSome_some, if_pos rfl]
        refine XReads.lookTag h1 (h2.laid hl) ?_
        exact (ha txt hl).map rfl
      · unfold blockParts at hl
        rw [if_neg ht.1] at hl
        obtain ⟨l1, l2, hl1, hl2, rfl⟩ := LaidOut.append (a := [startTag tag]) hl
        obtain ⟨l3, l4, hl3, hl4, rfl⟩ := LaidOut.append hl2
        refine (attempt_reads ((decodeElementStart_reads (attrs := none) ht).laid hl1)).bind ?_
        rw [Option.isSome_some, if_pos rfl]
        refine XReads.lookTag h1 ((h2.laid hl3).append _) ?_
        exact (ha l3 hl3).bind ((attempt_reads ((decodeElementEnd_reads ht).laid hl4)).map rfl)
  | .ref name t, tag, path, v, txt, ho, hv, hl => by
    simp only [XHas] at hv
    simp only [XOk] at ho
    simp only [xParts] at hl
    simp only [xDec]
    exact xDec_laid old t _ path v txt ho hv hl
theorem xDecFields_laid (old : List Nat → Int) : ∀ (fs : XFields) (path : List Nat) (j : Nat) (vs : List (Bool × XVal)) (txt : List Byte),
    fs.names.Nodup → XOkFields fs → XHasFields fs vs → LaidOut (xPartsFields fs vs) txt → XReadsIf XCloses (xDecFields old fs path j) (true, vs) txt
  | .nil, path, j, vs, txt, _, _, hv, hl => by
    cases vs with
    | nil =>
      simp only [xPartsFields] at hl
      simp only [xDecFields]
      have hl : IsSpaces txt := hl
      have := (XReads.pure (true, ([] : List (Bool × XVal)))).spaces hl isSpaces_nil
      simp only [List.append_nil] at this
      exact this.toIf
    | cons => simp only [XHasFields] at hv
  | .cons name o t rest, path, j, [], txt, _, _, hv, _ => by simp only [XHasFields] at hv
  | .cons name o t rest, path, j, (e, v) :: vs, txt, hn, ho, hv, hl => by
    have hopen := xPartsFields_open rest vs
    simp only [XHasFields] at hv
    simp only [XOkFields] at ho
    simp only [XFields.names, List.nodup_cons] at hn
    simp only [xPartsFields] at hl
    have ih := fun l => xDecFields_laid old rest path (j + 1) vs l hn.2 ho.2.2 hv.2
    simp only [xDecFields]
    unfold xDecField
    rw [bind_assoc]
    cases e with
    | true =>
      have hv1 : XHas t v := by simpa using hv.1
      obtain ⟨n, h1, h2, h3⟩ := xParts_open t (some name) v ho.2.1 hv1
      have hnn := h3 name rfl ho.1.1
      subst hnn
      rw [if_pos rfl] at hl
      obtain ⟨l1, l2, hl1, hl2, rfl⟩ := LaidOut.append hl
      refine XReadsIf.peek (a := true) ?_ ?_
      · intro s sp r hs hsp hu _
        have := start_of_opens hs hsp h1 h1 ((h2.laid hl1).append (l2 ++ r)) (by rw [hu]; simp)
        simpa using this
      · rw [if_pos rfl, bind_assoc]
        refine (xDec_laid old t (some n) (path ++ [j]) v l1 ho.2.1 hv1 hl1).bindIf ?_
        rw [pure_bind, if_pos rfl]
        exact (ih l2 hl2).map rfl
    | false =>
      rw [if_neg (by decide), List.nil_append] at hl
      have hv1 := hv.1
      simp only [Bool.false_eq_true, if_false] at hv1
      refine XReadsIf.peek (a := false) ?_ ?_
      · intro s sp r hs hsp hu hr
        rcases hopen ho.2.2 hv.2 with h | ⟨n, hm, h1, h2⟩
        · rw [h] at hl
          exact start_of_closes hs (isSpaces_append hsp hl) hr (by rw [hu]; simp)
        · have := start_of_opens hs hsp h1 ho.1 ((h2.laid hl).append r) hu
          have hne : n ≠ name := fun h => hn.1 (h ▸ hm)
          simpa [hne] using this
      · rw [if_neg (by decide)]
        cases o with
        | mandatory => exact absurd hv1 id
        | optional =>
          subst hv1
          rw [pure_bind, if_pos rfl]
          exact (ih txt hl).map rfl
        | default d =>
          simp only at hv1
          subst hv1
          rw [pure_bind, if_pos rfl]
          exact (ih txt hl).map rfl
theorem xDecAlts_laid (old : List Nat → Int) : ∀ (alts : XAlts) (i : Nat) (v : XVal) (name : List Byte) (path : List Nat) (j : Nat) (txt : List Byte),
    alts.names.Nodup → XOkAlts alts → XHasAlt alts i v → alts.names[i]? = some name → LaidOut (xPartsAlt alts i v) txt →
    XReads (xDecAlts old alts name path j) (true, .choice (j + i) v) txt
  | .nil, i, v, name, path, j, txt, _, _, hv, _, _ => by simp only [XHasAlt] at hv
  | .cons name' t rest, 0, v, name, path, j, txt, hn, ho, hv, hname, hl => by
    simp only [XHasAlt] at hv
    simp only [XOkAlts] at ho
    simp only [xPartsAlt] at hl
    simp only [XAlts.names, List.getElem?_cons_zero, Option.some.injEq] at hname
    subst hname
    simp only [xDecAlts, if_pos]
    exact (xDec_laid old t (some name') (path ++ [j]) v txt ho.2.1 hv hl).map rfl
  | .cons name' t rest, i + 1, v, name, path, j, txt, hn, ho, hv, hname, hl => by
    simp only [XHasAlt] at hv
    simp only [XOkAlts] at ho
    simp only [xPartsAlt] at hl
    simp only [XAlts.names, List.getElem?_cons_succ] at hname
    simp only [XAlts.names, List.nodup_cons] at hn
    have hne : ¬ name = name' := fun h => hn.1 (h ▸ List.mem_of_getElem? hname)
    simp only [xDecAlts, if_neg hne]
    have := xDecAlts_laid old rest i v name path (j + 1) txt hn.2 ho.2.2 hv hname hl
    rw [Nat.add_assoc, Nat.add_comm 1 i] at this
    exact this
end

end Asn1
