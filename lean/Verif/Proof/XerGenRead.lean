import Verif.Proof.XerGen
/-!
# Lemmas about the generated XER codecs: the decoders read what the encoders write
-/
namespace Asn1

/-- Like `XReads`, for texts followed by something with the property `P`. -/
def XReadsIf (P : List Byte → Prop) {α : Type} (f : XM α) (a : α) (l : List Byte) : Prop :=
  ∀ s w rest, XInput s → IsSpaces w → s.unread = w ++ l ++ rest → P rest →
    ∃ s' w', f s = .ok (some a, s') ∧ XInput s' ∧ s'.buf = s.buf ∧ s'.count = s.count ∧ s'.white = s.white ∧ IsSpaces w' ∧
      s'.unread = w' ++ rest

theorem XReads.bindIf {α β : Type} {P : List Byte → Prop} {f : XM α} {g : α → XM β} {a : α} {b : β} {l m : List Byte} (hf : XReads f a l)
    (hg : XReadsIf P (g a) b m) : XReadsIf P (f >>= g) b (l ++ m) := by
  intro s w r hs hw hu hr
  obtain ⟨s1, w1, e1, i1, b1, c1, wh1, sp1, u1⟩ := hf s w (m ++ r) hs hw (by rw [hu]; simp)
  obtain ⟨s2, w2, e2, i2, b2, c2, wh2, sp2, u2⟩ := hg s1 w1 r i1 sp1 (by rw [u1]; simp) hr
  exact ⟨s2, w2, (xm_bind_ok e1).trans e2, i2, b2.trans b1, c2.trans c1, wh2.trans wh1, sp2, u2⟩

theorem XReadsIf.bind {α β : Type} {P : List Byte → Prop} {f : XM α} {g : α → XM β} {a : α} {b : β} {l m : List Byte} (hf : XReadsIf P f a l)
    (hg : XReads (g a) b m) (hP : ∀ r, P (m ++ r)) : XReads (f >>= g) b (l ++ m) := by
  intro s w r hs hw hu
  obtain ⟨s1, w1, e1, i1, b1, c1, wh1, sp1, u1⟩ := hf s w (m ++ r) hs hw (by rw [hu]; simp) (hP r)
  obtain ⟨s2, w2, e2, i2, b2, c2, wh2, sp2, u2⟩ := hg s1 w1 r i1 sp1 (by rw [u1]; simp)
  exact ⟨s2, w2, (xm_bind_ok e1).trans e2, i2, b2.trans b1, c2.trans c1, wh2.trans wh1, sp2, u2⟩

theorem XReadsIf.map {α β : Type} {P : List Byte → Prop} {f : XM α} {g : α → XM β} {a : α} {b : β} {l : List Byte} (hf : XReadsIf P f a l)
    (hg : g a = Pure.pure b) : XReadsIf P (f >>= g) b l := by
  intro s w r hs hw hu hP
  obtain ⟨s1, w1, e1, i1⟩ := hf s w r hs hw hu hP
  refine ⟨s1, w1, (xm_bind_ok e1).trans ?_, i1⟩
  rw [hg]; rfl

theorem XReadsIf.pure {P : List Byte → Prop} {α : Type} (a : α) : XReadsIf P (Pure.pure a : XM α) a [] :=
  fun s w r hs hw hu _ => XReads.pure a s w r hs hw hu

/-- A look ahead that has the result `b` and changes nothing. -/
theorem XReadsIf.peek {P : List Byte → Prop} {α β : Type} {f : XM α} {g : α → XM β} {a : α} {b : β} {l : List Byte}
    (hf : ∀ s w r, XInput s → IsSpaces w → s.unread = w ++ (l ++ r) → P r → f s = .ok (some a, s)) (hg : XReadsIf P (g a) b l) :
    XReadsIf P (f >>= g) b l := by
  intro s w r hs hw hu hr
  rw [xm_bind_ok (hf s w r hs hw (by rw [hu]; simp) hr)]
  exact hg s w r hs hw hu hr

theorem attempt_reads {α : Type} {f : XM α} {a : α} {l : List Byte} (h : XReads f a l) : XReads (attempt f) (some a) l := by
  intro s w r hs hw hu
  obtain ⟨s1, w1, e1, i1⟩ := h s w r hs hw hu
  refine ⟨s1, w1, ?_, i1⟩
  unfold attempt; rw [e1]

theorem attempt_map {α β : Type} {f : XM α} {a : α} {l : List Byte} {b : β} {g : Option α → β} (h : XReads f a l) (hg : g (some a) = b) :
    XReads (do let r ← attempt f; Pure.pure (g r)) b l := (attempt_reads h).map (by rw [hg])

/-! ## What a text begins with -/

/-- After white space the text begins with `<name>` or `<name/>`. -/
def XOpens (name l : List Byte) : Prop := ∃ sp t, IsSpaces sp ∧ l = sp ++ t ∧ OpensWith name t

/-- After white space the text begins with `</`. -/
def XCloses (l : List Byte) : Prop := ∃ sp t, IsSpaces sp ∧ l = sp ++ t ∧ ClosesFirst t

theorem XOpens.append {name l : List Byte} (m : List Byte) (h : XOpens name l) : XOpens name (l ++ m) := by
  obtain ⟨sp, t, h1, rfl, h2⟩ := h
  exact ⟨sp, t ++ m, h1, by simp, h2.append⟩

theorem OpensWith.line {name t : List Byte} (h : OpensWith name t) (w : Bool) (l : Int) : XOpens name (line w l t) :=
  ⟨indent w l, t ++ newLine w l, indent_spaces w l, by simp [Asn1.line], h.append⟩

theorem OpensWith.lineNL {name t : List Byte} (h : OpensWith name t) (w : Bool) (l : Int) : XOpens name (lineNL w l t) :=
  ⟨indent w l, t ++ newLine w 0, indent_spaces w l, by simp [Asn1.lineNL], h.append⟩

theorem opensWith_startTag (tag : List Byte) : OpensWith tag (startTag tag) := ⟨[], .inl (by simp)⟩

theorem opensWith_wrapped {tag c : List Byte} (h : tag ≠ []) : OpensWith tag (wrapped tag c) := by
  unfold wrapped; rw [if_neg h, List.append_assoc]
  exact (opensWith_startTag tag).append

theorem opens_block {w : Bool} {l : Int} {tag c : List Byte} (h : tag ≠ []) : XOpens tag (block w l tag c) := by
  unfold block; rw [if_neg h, List.append_assoc]
  exact ((opensWith_startTag tag).line w l).append _

/-- What the text of a value begins with: the tag, if there is one. -/
def Opening (tag l : List Byte) : Prop := ∃ name, GoodTag name ∧ XOpens name l ∧ (tag ≠ [] → name = tag)

theorem Opening.of_tag {tag l : List Byte} (ht : GoodTag tag) (h : XOpens tag l) : Opening tag l := ⟨tag, ht, h, fun _ => rfl⟩

theorem Opening.word {w : Bool} {l : Int} {tag word : List Byte} (ht : tag = [] ∨ GoodTag tag) (hw : GoodTag word) :
    Opening tag (line w l (wrapped tag (emptyTag word))) := by
  rcases ht with rfl | ht
  · refine ⟨word, hw, ?_, fun h => absurd rfl h⟩
    unfold wrapped; rw [if_pos rfl]
    exact (opensWith_emptyTag word).line w l
  · exact .of_tag ht ((opensWith_wrapped ht.1).line w l)

theorem endTag_closes (tag : List Byte) : ClosesFirst (endTag tag) := ⟨tag ++ [0x3E#8], by rw [endTag_eq]⟩

theorem endTag_line (w : Bool) (l : Int) (tag r : List Byte) : ∃ sp r', IsSpaces sp ∧ line w l (endTag tag) ++ r = sp ++ (endTag tag ++ r') :=
  ⟨indent w l, newLine w l ++ r, indent_spaces w l, by simp [line]⟩

theorem closes_of_end {l tag : List Byte} (h : ∃ sp r', IsSpaces sp ∧ l = sp ++ (endTag tag ++ r')) : XCloses l := by
  obtain ⟨sp, r', h1, rfl⟩ := h
  refine ⟨sp, _, h1, rfl, ?_⟩
  obtain ⟨t, ht⟩ := endTag_closes tag
  exact ⟨t ++ r', by rw [ht]; rfl⟩

theorem Opening.block {w : Bool} {l : Int} {tag c : List Byte} (ht : tag = [] ∨ GoodTag tag) (hc : ∃ name, GoodTag name ∧ XOpens name c) :
    Opening tag (block w l tag c) := by
  rcases ht with rfl | ht
  · obtain ⟨name, h1, h2⟩ := hc
    refine ⟨name, h1, ?_, fun h => absurd rfl h⟩
    unfold Asn1.block; rw [if_pos rfl]; exact h2
  · exact .of_tag ht (opens_block ht.1)

mutual
theorem xText_opens (w : Bool) : ∀ (t : XTy) (tag : Option (List Byte)) (v : XVal), XOk t tag → XHas t v →
    ∃ name, GoodTag name ∧ XOpens name (xText w t tag v) ∧ ∀ x, tag = some x → x ≠ [] → name = x
  | .int l c, tag, v, ho, hv => by
    cases v <;> simp only [XHas] at hv
    simp only [XOk] at ho
    simp only [xText]
    exact ⟨_, good_tagOr good_integer ho, (opensWith_element _ _).line w l, fun x h _ => by rw [h]; rfl⟩
  | .uint l c, tag, v, ho, hv => by
    cases v <;> simp only [XHas] at hv
    simp only [XOk] at ho
    simp only [xText]
    exact ⟨_, good_tagOr good_integer ho, (opensWith_element _ _).line w l, fun x h _ => by rw [h]; rfl⟩
  | .bool l, tag, v, ho, hv => by
    cases v <;> simp only [XHas] at hv
    simp only [XOk] at ho
    simp only [xText]
    obtain ⟨n, h1, h2, h3⟩ := Opening.word (w := w) (l := l) (good_tagOr_nil ho) (boolWord_good _)
    exact ⟨n, h1, h2, fun x h hx => by subst h; exact h3 hx⟩
  | .null l, tag, v, ho, hv => by
    cases v <;> simp only [XHas] at hv
    simp only [XOk] at ho
    simp only [xText]
    exact ⟨_, good_tagOr good_null ho, (opensWith_emptyTag _).line w l, fun x h _ => by rw [h]; rfl⟩
  | .enum l labels, tag, v, ho, hv => by
    cases v <;> simp only [XHas] at hv
    rename_i i
    simp only [XOk] at ho
    simp only [xText]
    have hg := ho.2.2 labels[i] (List.getElem_mem hv)
    rw [List.getD_eq_getElem?_getD, List.getElem?_eq_getElem hv]
    simp only [Option.getD_some]
    by_cases h : tagOr tag [] = []
    · rw [if_pos h]
      exact ⟨_, hg, (opensWith_emptyTag _).line w l, fun x h' hx => by subst h'; exact absurd h hx⟩
    · rw [if_neg h]
      exact ⟨_, (good_tagOr_nil ho.1).resolve_left h, (opensWith_wrapped h).lineNL w l, fun x h' hx => by subst h'; rfl⟩
  | .str l numeric m z, tag, v, ho, hv => by
    cases v <;> simp only [XHas] at hv
    simp only [XOk] at ho
    simp only [xText]
    exact ⟨_, good_tagOr (good_string numeric) ho.1, (opensWith_element _ _).line w l, fun x h _ => by rw [h]; rfl⟩
  | .octets l lo hi, tag, v, ho, hv => by
    cases v <;> simp only [XHas] at hv
    simp only [XOk] at ho
    simp only [xText]
    have hg := good_tagOr good_octets ho.1
    exact ⟨_, hg, (opensWith_wrapped hg.1).lineNL w l, fun x h _ => by rw [h]; rfl⟩
  | .bits l lo hi, tag, v, ho, hv => by
    cases v <;> simp only [XHas] at hv
    simp only [XOk] at ho
    simp only [xText]
    have hg := good_tagOr good_bits ho.1
    exact ⟨_, hg, (opensWith_wrapped hg.1).lineNL w l, fun x h _ => by rw [h]; rfl⟩
  | .seqOf l lo hi ct t, tag, v, ho, hv => by
    cases v <;> simp only [XHas] at hv
    simp only [XOk] at ho
    simp only [xText]
    have hg := good_tagOr good_seqOf ho.1
    exact ⟨_, hg, opens_block hg.1, fun x h _ => by rw [h]; rfl⟩
  | .seq l fs, tag, v, ho, hv => by
    cases v <;> simp only [XHas] at hv
    simp only [XOk] at ho
    simp only [xText]
    have hg := good_tagOr good_seq ho.1
    exact ⟨_, hg, opens_block hg.1, fun x h _ => by rw [h]; rfl⟩
  | .choice l alts, tag, v, ho, hv => by
    cases v <;> simp only [XHas] at hv
    rename_i i v
    simp only [XOk] at ho
    simp only [xText]
    obtain ⟨name, h1, _, h2⟩ := xTextAlt_opens w alts i v ho.2.2 hv
    obtain ⟨n, g1, g2, g3⟩ := Opening.block (w := w) (l := l) (good_tagOr_nil ho.1) ⟨name, h1, h2⟩
    exact ⟨n, g1, g2, fun x h hx => by subst h; exact g3 hx⟩
  | .ref name t, tag, v, ho, hv => by
    simp only [XHas] at hv
    simp only [XOk] at ho
    simp only [xText]
    obtain ⟨n, h1, h2, h3⟩ := xText_opens w t _ v ho hv
    exact ⟨n, h1, h2, fun x h hx => h3 x (by subst h; rfl) hx⟩
theorem xTextAlt_opens (w : Bool) : ∀ (alts : XAlts) (i : Nat) (v : XVal), XOkAlts alts → XHasAlt alts i v →
    ∃ name, GoodTag name ∧ alts.names[i]? = some name ∧ XOpens name (xTextAlt w alts i v)
  | .nil, i, v, _, hv => by simp only [XHasAlt] at hv
  | .cons name t rest, 0, v, ho, hv => by
    simp only [XHasAlt] at hv
    simp only [XOkAlts] at ho
    simp only [xTextAlt]
    obtain ⟨n, h1, h2, h3⟩ := xText_opens w t (some name) v ho.2.1 hv
    have := h3 name rfl ho.1.1
    subst this
    exact ⟨n, h1, rfl, h2⟩
  | .cons name t rest, i + 1, v, ho, hv => by
    simp only [XHasAlt] at hv
    simp only [XOkAlts] at ho
    simp only [xTextAlt]
    exact xTextAlt_opens w rest i v ho.2.2 hv
end

theorem xTextFields_opens (w : Bool) : ∀ (fs : XFields) (vs : List (Bool × XVal)), XOkFields fs → XHasFields fs vs →
    xTextFields w fs vs = [] ∨ ∃ name ∈ fs.names, GoodTag name ∧ XOpens name (xTextFields w fs vs)
  | .nil, vs, _, _ => by left; simp only [xTextFields]
  | .cons name o t rest, [], _, hv => by simp only [XHasFields] at hv
  | .cons name o t rest, (e, v) :: vs, ho, hv => by
    simp only [XHasFields] at hv
    simp only [XOkFields] at ho
    simp only [xTextFields]
    cases e with
    | true =>
      right
      obtain ⟨n, h1, h2, h3⟩ := xText_opens w t (some name) v ho.2.1 (by simpa using hv.1)
      have := h3 name rfl ho.1.1
      subst this
      exact ⟨n, by simp [XFields.names], h1, h2.append _⟩
    | false =>
      rcases xTextFields_opens w rest vs ho.2.2 hv.2 with h | ⟨n, h1, h2, h3⟩
      · left; simpa using h
      · right; exact ⟨n, by simp [XFields.names, h1], h2, by simpa using h3⟩

/-! ## Looking ahead -/

theorem start_of_opens {s : XerStream} {w name name' l : List Byte} (hs : XInput s) (hw : IsSpaces w) (h1 : GoodTag name) (h2 : GoodTag name')
    (ho : XOpens name l) (hu : s.unread = w ++ l) : nextStartElementIs name' s = .ok (some (decide (name = name')), s) := by
  obtain ⟨sp, t, h3, rfl, h4⟩ := ho
  exact nextStartElementIs_run hs (isSpaces_append hw h3) h1 h2 h4 (by rw [hu]; simp)

theorem start_of_closes {s : XerStream} {w name l : List Byte} (hs : XInput s) (hw : IsSpaces w)
    (ho : XCloses l) (hu : s.unread = w ++ l) : nextStartElementIs name s = .ok (some false, s) := by
  obtain ⟨sp, t, h3, rfl, h4⟩ := ho
  exact nextStartElementIs_end hs (isSpaces_append hw h3) h4 (by rw [hu]; simp)

theorem end_of_opens {s : XerStream} {w name tag l : List Byte} (hs : XInput s) (hw : IsSpaces w) (h1 : GoodTag name)
    (ho : XOpens name l) (hu : s.unread = w ++ l) : nextEndElementIs tag s = .ok (some false, s) := by
  obtain ⟨sp, t, h3, rfl, h4⟩ := ho
  exact nextEndElementIs_start hs (isSpaces_append hw h3) h1 h4 (by rw [hu]; simp)

theorem tag_of_opens {s : XerStream} {w name l : List Byte} (hs : XInput s) (hw : IsSpaces w) (h1 : GoodTag name)
    (ho : XOpens name l) (hu : s.unread = w ++ l) : laNextElementTag s = .ok (some name, s) := by
  obtain ⟨sp, t, h3, rfl, h4⟩ := ho
  exact laNextElementTag_run hs (isSpaces_append hw h3) h1 h4 (by rw [hu]; simp)

theorem XReads.toIf {P : List Byte → Prop} {α : Type} {f : XM α} {a : α} {l : List Byte} (h : XReads f a l) : XReadsIf P f a l :=
  fun s w r hs hw hu _ => h s w r hs hw hu

theorem XReads.lookTag {β : Type} {g : Option (List Byte) → XM β} {b : β} {name l : List Byte} (ht : GoodTag name) (ho : XOpens name l)
    (hg : XReads (g (some name)) b l) : XReads (attempt laNextElementTag >>= g) b l := by
  intro s w r hs hw hu
  have e : attempt laNextElementTag s = .ok (some (some name), s) := by
    unfold attempt
    rw [tag_of_opens hs hw ht (ho.append r) (by rw [hu]; simp)]
  rw [xm_bind_ok e]
  exact hg s w r hs hw hu

/-! ## Lists of elements and components -/

theorem XReadsIf.bind_pure {P : List Byte → Prop} {α β : Type} {f : XM α} {g : α → β} {a : α} {l : List Byte} (hf : XReadsIf P f a l) :
    XReadsIf P (do let x ← f; Pure.pure (g x)) (g a) l := hf.map rfl

theorem xDecLoop_reads {w : Bool} {dec : Nat → XM (Bool × XVal)} {tag : List Byte} {l : XVal → List Byte} (ht : GoodTag tag) :
    ∀ (vs : List XVal) (n i : Nat), vs.length ≤ n → (∀ v ∈ vs, (∀ i, XReads (dec i) (true, v) (l v)) ∧ ∃ name, GoodTag name ∧ XOpens name (l v)) →
    XReadsIf (fun r => ∃ sp r', IsSpaces sp ∧ r = sp ++ (endTag tag ++ r')) (xDecLoop dec tag n i) (true, vs) (vs.flatMap l)
  | [], n, i, _, _ => by
    have hp : ∀ (s : XerStream) (w r : List Byte), XInput s → IsSpaces w → s.unread = w ++ ([] ++ r) →
        (∃ sp r', IsSpaces sp ∧ r = sp ++ (endTag tag ++ r')) → nextEndElementIs tag s = .ok (some true, s) := by
      intro s w r hs hw hu ⟨sp, r', h1, h2⟩
      exact nextEndElementIs_end (r := r') hs (isSpaces_append hw h1) ht (by rw [hu, h2]; simp)
    cases n with
    | zero =>
      unfold xDecLoop
      exact XReadsIf.peek hp (XReadsIf.pure _)
    | succ n =>
      unfold xDecLoop
      exact XReadsIf.peek hp (by rw [if_pos rfl]; exact XReadsIf.pure _)
  | v :: vs, 0, i, h, _ => by simp at h
  | v :: vs, n + 1, i, h, hv => by
    obtain ⟨hd, name, h1, h2⟩ := hv v (by simp)
    have ih := xDecLoop_reads (w := w) (dec := dec) ht vs n (i + 1) (by simpa using h) (fun u hu => hv u (by simp [hu]))
    unfold xDecLoop
    refine XReadsIf.peek (a := false) ?_ ?_
    · intro s w r hs hw hu _
      exact end_of_opens hs hw h1 (h2.append (vs.flatMap l ++ r)) (by rw [hu]; simp)
    · rw [if_neg (by decide)]
      rw [List.flatMap_cons]
      refine (hd i).bindIf ?_
      rw [if_pos rfl]
      exact ih.map rfl

theorem block_reads {w : Bool} {level : Int} {tag c : List Byte} {α β : Type} {f : XM α} {a : α} {g : α → Option Unit → β} {h : α → β} {k : β} {P : α → Bool}
    (ht : GoodTag tag) (hf : XReadsIf (fun r => ∃ sp r', IsSpaces sp ∧ r = sp ++ (endTag tag ++ r')) f a c) (hP : P a = true) :
    XReads (do
      let r ← attempt (decodeElementStart tag none)
      if r.isSome then do
        let p ← f
        if P p then do
          let e ← attempt (decodeElementEnd tag)
          Pure.pure (g p e)
        else Pure.pure (h p)
      else Pure.pure k) (g a (some ())) (block w level tag c) := by
  unfold block
  rw [if_neg ht.1, List.append_assoc]
  refine (attempt_reads ((decodeElementStart_reads (attrs := none) ht).line w level)).bind ?_
  rw [Option.isSome_some, if_pos rfl]
  refine hf.bind ?_ (fun r => endTag_line w level tag r)
  rw [if_pos hP]
  exact (attempt_reads ((decodeElementEnd_reads ht).line w level)).map rfl

end Asn1
