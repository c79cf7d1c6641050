import Verif.Proof.XerGenRead
/-!
# Lemmas about the generated XER codecs: the decoders read what the encoders write, by induction over types
-/
namespace Asn1

theorem zeros_of_all : ∀ (l : List Byte), (∀ b ∈ l, b = 0#8) → l = List.replicate l.length 0#8
  | [], _ => rfl
  | b :: l, h => by
    rw [h b (by simp), List.length_cons, List.replicate_succ, ← zeros_of_all l fun x hx => h x (by simp [hx])]

theorem octets_back {arr : List Byte} {n hi : Nat} (h : arr.length = hi) (hn : n ≤ hi) (hz : ∀ b ∈ arr.drop n, b = 0#8) :
    arr.take n ++ (List.replicate hi 0#8).drop (arr.take n).length = arr := by
  have e := zeros_of_all _ hz
  rw [List.length_drop, h] at e
  rw [List.length_take, Nat.min_eq_left (by omega), List.drop_replicate, ← e, List.take_append_drop]

theorem falses_of_all : ∀ (l : List Bool), (∀ b ∈ l, b = false) → l = List.replicate l.length false
  | [], _ => rfl
  | b :: l, h => by
    rw [h b (by simp), List.length_cons, List.replicate_succ, ← falses_of_all l fun x hx => h x (by simp [hx])]

theorem bits_back {arr : List Byte} {n hi : Nat} (h : arr.length = (hi + 7) / 8) (hn : n ≤ hi) (hz : ∀ b ∈ (bytesBits arr).drop n, b = false) :
    Packed ((bytesBits arr).take n) (arr.take ((n + 7) / 8)) ∧
      arr.take ((n + 7) / 8) ++ (List.replicate ((hi + 7) / 8) 0#8).drop (arr.take ((n + 7) / 8)).length = arr := by
  have hlen : (bytesBits arr).length = 8 * arr.length := by simp
  have hm : (arr.take ((n + 7) / 8)).length = (n + 7) / 8 := by rw [List.length_take]; omega
  have ez := falses_of_all _ hz
  rw [List.length_drop, hlen] at ez
  have esplit : arr = arr.take ((n + 7) / 8) ++ arr.drop ((n + 7) / 8) := (List.take_append_drop _ _).symm
  have eb : bytesBits arr = bytesBits (arr.take ((n + 7) / 8)) ++ bytesBits (arr.drop ((n + 7) / 8)) := by
    rw [← bytesBits_append, ← esplit]
  have hb1 : (bytesBits (arr.take ((n + 7) / 8))).length = 8 * ((n + 7) / 8) := by rw [bytesBits_length, hm]
  have eall : bytesBits arr = (bytesBits arr).take n ++ List.replicate (8 * arr.length - n) false := by
    rw [← ez, List.take_append_drop]
  have htl : ((bytesBits arr).take n).length = n := by rw [List.length_take, hlen]; omega
  constructor
  · refine ⟨by rw [hm, htl], ?_⟩
    have e1 : bytesBits (arr.take ((n + 7) / 8)) = (bytesBits arr).take (8 * ((n + 7) / 8)) := by
      have h := congrArg (List.take (8 * ((n + 7) / 8))) eb
      rw [List.take_append_of_le_length (by omega), List.take_of_length_le (l := bytesBits (arr.take ((n + 7) / 8))) (by omega)] at h
      exact h.symm
    rw [e1, hm, htl]
    conv => lhs; rw [eall]
    rw [List.take_append, htl, List.take_of_length_le (by omega), List.take_replicate]
    congr 2; omega
  · rw [hm, List.drop_replicate]
    have e2 : bytesBits (arr.drop ((n + 7) / 8)) = List.replicate (8 * arr.length - 8 * ((n + 7) / 8)) false := by
      have : bytesBits (arr.drop ((n + 7) / 8)) = (bytesBits arr).drop (8 * ((n + 7) / 8)) := by
        have h := congrArg (List.drop (8 * ((n + 7) / 8))) eb
        rw [List.drop_append, List.drop_of_length_le (l := bytesBits (arr.take ((n + 7) / 8))) (by omega), hb1, Nat.sub_self] at h
        exact h.symm
      rw [this, eall, List.drop_append, htl, List.drop_of_length_le (by omega), List.nil_append, List.drop_replicate]
      congr 1; omega
    have e3 : arr.drop ((n + 7) / 8) = List.replicate ((hi + 7) / 8 - (n + 7) / 8) 0#8 := by
      apply eq_of_bitAt (by rw [List.length_drop, List.length_replicate, h])
      intro j
      rw [bitAt_zeros, ← bytesBits_getD, e2, List.getElem?_replicate]
      split <;> rfl
    rw [← e3, List.take_append_drop]

theorem findIdx?_label {labels : List (List Byte)} {i : Nat} (hn : labels.Nodup) (hi : i < labels.length) :
    labels.findIdx? (· == labels[i]) = some i := by
  rw [List.findIdx?_eq_some_iff_getElem]
  refine ⟨hi, by simp, fun j hj => ?_⟩
  intro h
  have h' : labels[j] = labels[i] := by simpa using h
  exact List.pairwise_iff_getElem.mp hn j i (by omega) hi hj h'

theorem checkedInt_ok {check : Option (Int → Bool)} {old v : Int} (h : ∀ f, check = some f → f v = true) :
    checkedInt check old (some v) = (true, .int v) := by
  unfold checkedInt
  cases check with
  | none => rfl
  | some f => simp [h f rfl]

mutual
theorem xDec_reads (old : List Nat → Int) (w : Bool) : ∀ (t : XTy) (tag : Option (List Byte)) (path : List Nat) (v : XVal), XOk t tag → XHas t v →
    XReads (xDec old t tag path) (true, v) (xText w t tag v)
  | .int l c, tag, path, v, ho, hv => by
    cases v <;> simp only [XHas] at hv
    simp only [XOk] at ho
    simp only [xDec, xText]
    rw [show tagInteger = chars ['I', 'N', 'T', 'E', 'G', 'E', 'R'] from rfl, tagOr_getD]
    exact attempt_map ((xerDecodeInteger_reads (good_tagOr good_integer ho) ⟨hv.1, hv.2.1⟩).line w l) (checkedInt_ok hv.2.2)
  | .uint l c, tag, path, v, ho, hv => by
    cases v <;> simp only [XHas] at hv
    rename_i v
    simp only [XOk] at ho
    simp only [xDec, xText]
    rw [show tagInteger = chars ['I', 'N', 'T', 'E', 'G', 'E', 'R'] from rfl, tagOr_getD, decimalInt_of_nonneg hv.1]
    refine attempt_map ((xerDecodePosInteger_reads (good_tagOr good_integer ho) (v := v.toNat) (by have := hv.2.1; omega)).line w l) ?_
    have e : (some v.toNat).map Int.ofNat = some v := by
      simp only [Option.map_some]; congr 1; exact Int.toNat_of_nonneg hv.1
    rw [e]
    exact checkedInt_ok hv.2.2
  | .bool l, tag, path, v, ho, hv => by
    cases v <;> simp only [XHas] at hv
    simp only [XOk] at ho
    simp only [xDec, xText]
    rw [tagOr_getD_nil]
    exact attempt_map ((xerDecodeBoolean_reads (good_tagOr_nil ho)).line w l) rfl
  | .null l, tag, path, v, ho, hv => by
    cases v <;> simp only [XHas] at hv
    simp only [XOk] at ho
    simp only [xDec, xText]
    rw [show tagNull = chars ['N', 'U', 'L', 'L'] from rfl, tagOr_getD]
    exact attempt_map ((xerDecodeNull_reads (good_tagOr good_null ho)).line w l) rfl
  | .enum l labels, tag, path, v, ho, hv => by
    cases v <;> simp only [XHas] at hv
    rename_i i
    simp only [XOk] at ho
    simp only [xDec, xText]
    have hg := ho.2.2 labels[i] (List.getElem_mem hv)
    rw [tagOr_getD_nil, List.getD_eq_getElem?_getD, List.getElem?_eq_getElem hv]
    simp only [Option.getD_some]
    have hr := xerDecodeEnumerated_reads (good_tagOr_nil ho.1) hg
    have he : enumVal labels (some labels[i]) = (true, .enum i) := by
      unfold enumVal
      simp only [findIdx?_label ho.2.1 hv]
    by_cases h : tagOr tag [] = []
    · rw [if_pos h]
      unfold tagged at hr
      rw [if_pos h] at hr
      exact attempt_map (hr.line w l) he
    · rw [if_neg h]
      exact attempt_map (hr.lineNL w l) he
  | .str l numeric m z, tag, path, v, ho, hv => by
    cases v <;> simp only [XHas] at hv
    rename_i c
    simp only [XOk] at ho
    simp only [xDec, xText]
    rw [tagString_eq, tagOr_getD]
    refine attempt_map ((xerDecodeString_reads (arr := List.replicate (m + 1) 0#8) (n := z) (good_tagOr (good_string numeric) ho.1) hv.1 (by have := hv.2; omega)
      (by rw [List.length_replicate]; omega)).line w l) ?_
    unfold uncheckedVal
    simp only [cstr_stored hv.1.noNul]
  | .octets l lo hi, tag, path, v, ho, hv => by
    cases v <;> simp only [XHas] at hv
    rename_i n arr
    simp only [XOk] at ho
    simp only [xDec, xText]
    rw [show tagOctets = chars ['O', 'C', 'T', 'E', 'T', '-', 'S', 'T', 'R', 'I', 'N', 'G'] from rfl, tagOr_getD]
    have hl : (arr.take n).length = n := by rw [List.length_take]; omega
    refine attempt_map ((xerDecodeOctetString_reads (c := arr.take n) (value := List.replicate hi 0#8) (m := hi) (good_tagOr good_octets ho.1) (by omega)
      (by simp) (by omega)).lineNL w l) ?_
    rw [octets_back hv.2.2.1 hv.2.1 hv.2.2.2, hl]
    have e : (if lo = hi then hi else n) = n := by
      by_cases h : lo = hi
      · rw [if_pos h]; omega
      · rw [if_neg h]
    simp only [uncheckedVal, e]
  | .bits l lo hi, tag, path, v, ho, hv => by
    cases v <;> simp only [XHas] at hv
    rename_i n arr
    simp only [XOk] at ho
    simp only [xDec, xText]
    rw [show tagBits = chars ['B', 'I', 'T', '-', 'S', 'T', 'R', 'I', 'N', 'G'] from rfl, tagOr_getD]
    obtain ⟨hp, hback⟩ := bits_back hv.2.2.1 hv.2.1 hv.2.2.2
    have hl : ((bytesBits arr).take n).length = n := by rw [List.length_take, bytesBits_length]; omega
    have hm : (arr.take ((n + 7) / 8)).length = (n + 7) / 8 := by rw [List.length_take]; omega
    refine attempt_map ((xerDecodeBitString_reads (value := List.replicate ((hi + 7) / 8) 0#8) (m := hi) (good_tagOr good_bits ho.1) hp (by omega)
      (by rw [List.length_replicate]; omega) (by omega)).lineNL w l) ?_
    rw [hback, hl]
    have e : (if lo = hi then hi else n) = n := by
      by_cases h : lo = hi
      · rw [if_pos h]; omega
      · rw [if_neg h]
    simp only [uncheckedVal, e]
  | .seqOf l lo hi ct t, tag, path, v, ho, hv => by
    cases v <;> simp only [XHas] at hv
    rename_i vs
    simp only [XOk] at ho
    simp only [xDec, xText]
    rw [show tagSeqOf = chars ['S', 'E', 'Q', 'U', 'E', 'N', 'C', 'E', '-', 'O', 'F'] from rfl, tagOr_getD]
    have hg := good_tagOr good_seqOf ho.1
    have hloop := xDecLoop_reads (w := w) (dec := fun i => xDec old t ct (path ++ [i])) (l := xText w t ct) hg vs hi 0 hv.2.1 (fun v hm =>
      ⟨fun i => xDec_reads old w t ct (path ++ [i]) v ho.2 (hv.2.2 v hm), by
        obtain ⟨n, h1, h2, _⟩ := xText_opens w t ct v ho.2 (hv.2.2 v hm)
        exact ⟨n, h1, h2⟩⟩)
    have := block_reads (w := w) (level := l) (f := xDecLoop (fun i => xDec old t ct (path ++ [i])) (tagOr tag ['S', 'E', 'Q', 'U', 'E', 'N', 'C', 'E', '-', 'O', 'F']) hi 0)
      (g := fun p e => (e.isSome, XVal.seqOf (if lo = hi then p.2 ++ List.replicate (hi - p.2.length) .unset else p.2)))
      (h := fun p => (false, XVal.seqOf (if lo = hi then p.2 ++ List.replicate (hi - p.2.length) .unset else p.2)))
      (k := (false, .unset)) (P := fun p => p.1) hg hloop rfl
    have e : (if lo = hi then vs ++ List.replicate (hi - vs.length) .unset else vs) = vs := by
      by_cases h : lo = hi
      · have : hi - vs.length = 0 := by omega
        rw [if_pos h, this]; simp
      · rw [if_neg h]
    simp only [Option.isSome_some, e] at this
    exact this
  | .seq l fs, tag, path, v, ho, hv => by
    cases v <;> simp only [XHas] at hv
    rename_i vs
    simp only [XOk] at ho
    simp only [xDec, xText]
    rw [show tagSeq = chars ['S', 'E', 'Q', 'U', 'E', 'N', 'C', 'E'] from rfl, tagOr_getD]
    have hg := good_tagOr good_seq ho.1
    have hf := xDecFields_reads old w fs path 0 vs ho.2.1 ho.2.2 hv
    exact block_reads (w := w) (level := l) (g := fun p e => (e.isSome, XVal.seq p.2)) (h := fun p => (false, XVal.seq p.2)) (k := (false, .unset))
      (P := fun p => p.1) hg (fun s sp r hs hsp hu hr => hf s sp r hs hsp hu (closes_of_end hr)) rfl
  | .choice l alts, tag, path, v, ho, hv => by
    cases v <;> simp only [XHas] at hv
    rename_i i v
    simp only [XOk] at ho
    simp only [xText]
    obtain ⟨name, h1, hname, h2⟩ := xTextAlt_opens w alts i v ho.2.2 hv
    have ha := xDecAlts_reads old w alts i v name path 0 ho.2.1 ho.2.2 hv hname
    rw [Nat.zero_add] at ha
    cases tag with
    | none =>
      simp only [xDec]
      have e : block w l (tagOr none []) (xTextAlt w alts i v) = xTextAlt w alts i v := by simp [block, tagOr, text]
      rw [e]
      exact XReads.lookTag h1 h2 ha
    | some tag =>
      simp only [xDec]
      show XReads _ _ (block w l tag _)
      rcases ho.1 tag rfl with rfl | ht
      · have e : block w l [] (xTextAlt w alts i v) = xTextAlt w alts i v := by simp [block]
        have e1 : attempt (decodeElementStart [] none) = (Pure.pure (some none) : XM (Option (Option XmlAttrs))) := rfl
        have e2 : attempt (decodeElementEnd []) = (Pure.pure (some ()) : XM (Option Unit)) := rfl
        rw [e, e1, e2, pure_bind, Option.isSome_some, if_pos rfl]
        refine XReads.lookTag h1 h2 ?_
        exact ha.map rfl
      · unfold block
        rw [if_neg ht.1, List.append_assoc]
        refine (attempt_reads ((decodeElementStart_reads (attrs := none) ht).line w l)).bind ?_
        rw [Option.isSome_some, if_pos rfl]
        refine XReads.lookTag h1 (h2.append _) ?_
        exact ha.bind ((attempt_reads ((decodeElementEnd_reads ht).line w l)).map rfl)
  | .ref name t, tag, path, v, ho, hv => by
    simp only [XHas] at hv
    simp only [XOk] at ho
    simp only [xDec, xText]
    exact xDec_reads old w t _ path v ho hv
theorem xDecFields_reads (old : List Nat → Int) (w : Bool) : ∀ (fs : XFields) (path : List Nat) (j : Nat) (vs : List (Bool × XVal)),
    fs.names.Nodup → XOkFields fs → XHasFields fs vs → XReadsIf XCloses (xDecFields old fs path j) (true, vs) (xTextFields w fs vs)
  | .nil, path, j, vs, _, _, hv => by
    cases vs with
    | nil =>
      simp only [xDecFields, xTextFields]
      exact XReadsIf.pure _
    | cons => simp only [XHasFields] at hv
  | .cons name o t rest, path, j, [], _, _, hv => by simp only [XHasFields] at hv
  | .cons name o t rest, path, j, (e, v) :: vs, hn, ho, hv => by
    have hopen := xTextFields_opens w rest vs
    simp only [XHasFields] at hv
    simp only [XOkFields] at ho
    simp only [XFields.names, List.nodup_cons] at hn
    have ih := xDecFields_reads old w rest path (j + 1) vs hn.2 ho.2.2 hv.2
    simp only [xDecFields, xTextFields]
    unfold xDecField
    rw [bind_assoc]
    cases e with
    | true =>
      have hv1 : XHas t v := by simpa using hv.1
      obtain ⟨n, h1, h2, h3⟩ := xText_opens w t (some name) v ho.2.1 hv1
      have hnn := h3 name rfl ho.1.1
      subst hnn
      rw [if_pos rfl]
      refine XReadsIf.peek (a := true) ?_ ?_
      · intro s sp r hs hsp hu _
        have := start_of_opens hs hsp h1 h1 (h2.append (xTextFields w rest vs ++ r)) (by rw [hu]; simp)
        simpa using this
      · rw [if_pos rfl, bind_assoc]
        refine (xDec_reads old w t (some n) (path ++ [j]) v ho.2.1 hv1).bindIf ?_
        rw [pure_bind, if_pos rfl]
        exact ih.map rfl
    | false =>
      rw [if_neg (by decide), List.nil_append]
      have hv1 := hv.1
      simp only [Bool.false_eq_true, if_false] at hv1
      refine XReadsIf.peek (a := false) ?_ ?_
      · intro s sp r hs hsp hu hr
        rcases hopen ho.2.2 hv.2 with h | ⟨n, hm, h1, h2⟩
        · exact start_of_closes hs hsp hr (by rw [hu, h]; rfl)
        · have := start_of_opens hs hsp h1 ho.1 (h2.append r) hu
          have hne : n ≠ name := fun h => hn.1 (h ▸ hm)
          simpa [hne] using this
      · rw [if_neg (by decide)]
        cases o with
        | mandatory => exact absurd hv1 id
        | optional =>
          subst hv1
          rw [pure_bind, if_pos rfl]
          exact ih.map rfl
        | default d =>
          simp only at hv1
          subst hv1
          rw [pure_bind, if_pos rfl]
          exact ih.map rfl
theorem xDecAlts_reads (old : List Nat → Int) (w : Bool) : ∀ (alts : XAlts) (i : Nat) (v : XVal) (name : List Byte) (path : List Nat) (j : Nat),
    alts.names.Nodup → XOkAlts alts → XHasAlt alts i v → alts.names[i]? = some name →
    XReads (xDecAlts old alts name path j) (true, .choice (j + i) v) (xTextAlt w alts i v)
  | .nil, i, v, name, path, j, _, _, hv, _ => by simp only [XHasAlt] at hv
  | .cons name' t rest, 0, v, name, path, j, hn, ho, hv, hname => by
    simp only [XHasAlt] at hv
    simp only [XOkAlts] at ho
    simp only [xTextAlt]
    simp only [XAlts.names, List.getElem?_cons_zero, Option.some.injEq] at hname
    subst hname
    simp only [xDecAlts, if_pos]
    exact (xDec_reads old w t (some name') (path ++ [j]) v ho.2.1 hv).map rfl
  | .cons name' t rest, i + 1, v, name, path, j, hn, ho, hv, hname => by
    simp only [XHasAlt] at hv
    simp only [XOkAlts] at ho
    simp only [xTextAlt]
    simp only [XAlts.names, List.getElem?_cons_succ] at hname
    simp only [XAlts.names, List.nodup_cons] at hn
    have hne : ¬ name = name' := fun h => hn.1 (h ▸ List.mem_of_getElem? hname)
    simp only [xDecAlts, if_neg hne]
    have := xDecAlts_reads old w rest i v name path (j + 1) hn.2 ho.2.2 hv hname
    rw [Nat.add_assoc, Nat.add_comm 1 i] at this
    exact this
end

end Asn1
