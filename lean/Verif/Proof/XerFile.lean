import Verif.Proof.XerLayout
import Verif.Model.XerFile
/-!
# Lemmas about `LoadXmlFile`
-/
namespace Asn1

/-! ## Writing to the stream -/

theorem appendChar_run {s : XerStream} {c : Byte} (h : s.currentByte < s.count) (hf : s.count ≤ s.buf.length) :
    appendChar c s = .ok (some (), s.put [c]) := by
  unfold appendChar
  show (if s.currentByte ≥ s.count then xFail else xPut c : XM Unit) s = _
  rw [if_neg (by omega)]
  exact xPut_put (by omega)

/-- There is room for `n` more octets. -/
def XRoom (s : XerStream) (n : Nat) : Prop := s.currentByte + n ≤ s.count ∧ s.count ≤ s.buf.length

theorem XRoom.mono {s : XerStream} {n m : Nat} (h : XRoom s n) (hm : m ≤ n) : XRoom s m := ⟨by have := h.1; omega, h.2⟩

theorem XRoom.put {s : XerStream} {l : List Byte} {n : Nat} (h : XRoom s (l.length + n)) : XRoom (s.put l) n := by
  refine ⟨?_, ?_⟩
  · show s.currentByte + l.length + n ≤ s.count
    have := h.1; omega
  · show s.count ≤ (s.put l).buf.length
    rw [s.put_length l (by have := h.1; have := h.2; omega)]; exact h.2

theorem XRoom.put_put {s : XerStream} {l m : List Byte} (h : XRoom s (l.length + m.length)) : (s.put l).put m = s.put (l ++ m) :=
  s.put_put l m (by have := h.1; have := h.2; omega)

theorem XRoom.append {s : XerStream} {c : Byte} (h : XRoom s 1) : appendChar c s = .ok (some (), s.put [c]) :=
  appendChar_run (by have := h.1; omega) h.2

theorem appendTmp_run : ∀ {l : List Byte} {s : XerStream}, XRoom s l.length → appendTmp l s = .ok (some (), s.put l)
  | [], s, _ => by rw [s.put_nil]; rfl
  | c :: l, s, h => by
    unfold appendTmp
    rw [xm_bind_ok (XRoom.append (h.mono (by simp)))]
    have h' : XRoom s ([c].length + l.length) := h.mono (by simp; omega)
    rw [appendTmp_run h'.put, h'.put_put]
    rfl

/-! ## Steps -/

theorem loadLoop_step {m m' : XmlLoad} {c : Byte} {rest : List Byte} {s s' : XerStream} (h : onXml m c rest.head? s = .ok (some (m', false), s')) :
    loadLoop (c :: rest) m s = loadLoop rest m' s' := by
  cases rest with
  | nil => exact (xm_bind_ok (x := onXml m c none) (f := fun r => pure r.1) h)
  | cons d rest =>
    exact xm_bind_ok (x := onXml m c (some d)) (f := fun r => if r.2 then loadLoop rest r.1 else loadLoop (d :: rest) r.1) h

theorem loadLoop_step2 {m m' : XmlLoad} {c d : Byte} {rest : List Byte} {s s' : XerStream} (h : onXml m c (some d) s = .ok (some (m', true), s')) :
    loadLoop (c :: d :: rest) m s = loadLoop rest m' s' := by
  exact xm_bind_ok (x := onXml m c (some d)) (f := fun r => if r.2 then loadLoop rest r.1 else loadLoop (d :: rest) r.1) h

/-- The rest of a start tag. -/
theorem load_startTag : ∀ {t rest : List Byte} {prev : XmlState} {tmp : List Byte} {s : XerStream}, 0x3E#8 ∉ t → XRoom s (t.length + 1) →
    loadLoop (t ++ 0x3E#8 :: rest) ⟨.startTag, prev, tmp⟩ s = loadLoop rest ⟨.content, prev, tmp⟩ (s.put (t ++ [0x3E#8]))
  | [], rest, prev, tmp, s, _, hr => by
    refine loadLoop_step (c := 0x3E#8) ?_
    show onXmlStartTag _ _ s = _
    unfold onXmlStartTag
    rw [xm_bind_ok hr.append]; rfl
  | c :: t, rest, prev, tmp, s, ht, hr => by
    have hc : c ≠ 0x3E#8 := fun h => ht (by simp [h])
    have h' : XRoom s ([c].length + (t.length + 1)) := hr.mono (by simp; omega)
    rw [List.cons_append, loadLoop_step (m' := ⟨.startTag, prev, tmp⟩) (s' := s.put [c])
      (by
        show onXmlStartTag _ _ s = _
        unfold onXmlStartTag
        rw [xm_bind_ok (h'.mono (by simp)).append]
        rw [if_neg hc]; rfl),
      load_startTag (fun h => ht (by simp [h])) h'.put, XRoom.put_put (h'.mono (by simp))]
    rfl

/-- The rest of an end tag. -/
theorem load_endTag : ∀ {t rest : List Byte} {prev : XmlState} {tmp : List Byte} {s : XerStream}, 0x3E#8 ∉ t → XRoom s (t.length + 1) →
    loadLoop (t ++ 0x3E#8 :: rest) ⟨.endTag, prev, tmp⟩ s = loadLoop rest ⟨.mixed, prev, tmp⟩ (s.put (t ++ [0x3E#8]))
  | [], rest, prev, tmp, s, _, hr => by
    refine loadLoop_step (c := 0x3E#8) ?_
    show onXmlEndTag _ _ s = _
    unfold onXmlEndTag
    rw [xm_bind_ok hr.append]; rfl
  | c :: t, rest, prev, tmp, s, ht, hr => by
    have hc : c ≠ 0x3E#8 := fun h => ht (by simp [h])
    have h' : XRoom s ([c].length + (t.length + 1)) := hr.mono (by simp; omega)
    rw [List.cons_append, loadLoop_step (m' := ⟨.endTag, prev, tmp⟩) (s' := s.put [c])
      (by
        show onXmlEndTag _ _ s = _
        unfold onXmlEndTag
        rw [xm_bind_ok (h'.mono (by simp)).append]
        rw [if_neg hc]; rfl),
      load_endTag (fun h => ht (by simp [h])) h'.put, XRoom.put_put (h'.mono (by simp))]
    rfl

/-- The states between two parts. -/
def Between (q : XmlState) : Prop := q = .start ∨ q = .content ∨ q = .mixed

/-- A character that is not `<` between two parts. -/
theorem load_char {q prev : XmlState} {tmp : List Byte} {c : Byte} {rest : List Byte} {s : XerStream} (hq : Between q) (hc : c ≠ 0x3C#8) (ht : tmp.length < 4096) :
    loadLoop (c :: rest) ⟨q, prev, tmp⟩ s = loadLoop rest ⟨q, prev, if q = .content then tmp ++ [c] else tmp⟩ s := by
  refine loadLoop_step ?_
  rcases hq with rfl | rfl | rfl
  · show onXmlStart _ _ _ s = _
    unfold onXmlStart; rw [if_pos hc]; rfl
  · show onXmlContent _ _ _ s = _
    unfold onXmlContent; rw [if_pos hc, if_neg (show ¬ tmp.length ≥ 4096 by omega)]; rfl
  · show onXmlMixed _ _ _ s = _
    unfold onXmlMixed; rw [if_pos hc]; rfl

/-- Text. -/
theorem load_text : ∀ {t rest : List Byte} {prev : XmlState} {tmp : List Byte} {s : XerStream}, (∀ b ∈ t, b ≠ 0x3C#8) → tmp.length + t.length ≤ 4096 →
    loadLoop (t ++ rest) ⟨.content, prev, tmp⟩ s = loadLoop rest ⟨.content, prev, tmp ++ t⟩ s
  | [], rest, prev, tmp, s, _, _ => by rw [List.append_nil]; rfl
  | c :: t, rest, prev, tmp, s, ht, hl => by
    simp only [List.length_cons] at hl
    rw [List.cons_append, load_char (.inr (.inl rfl)) (ht c (by simp)) (by omega), if_pos rfl,
      load_text (fun b hb => ht b (by simp [hb])) (by simp; omega)]
    simp

/-- The rest of a comment. -/
theorem load_comment : ∀ {t rest : List Byte} {prev : XmlState} {tmp : List Byte} {s : XerStream},
    ¬ text ['-', '>'] <:+: t ++ [0x2D#8] →
    loadLoop (t ++ 0x2D#8 :: 0x3E#8 :: rest) ⟨.comment, prev, tmp⟩ s = loadLoop rest ⟨prev, prev, tmp⟩ s
  | [], rest, prev, tmp, s, _ => by
    refine loadLoop_step2 ?_
    show onXmlComment _ _ _ s = _
    unfold onXmlComment; rw [if_pos ⟨rfl, rfl⟩]; rfl
  | c :: t, rest, prev, tmp, s, h => by
    rw [List.cons_append, loadLoop_step (m' := ⟨.comment, prev, tmp⟩) (s' := s)]
    · refine load_comment fun h' => h ?_
      exact h'.trans (List.suffix_cons c _).isInfix
    · show onXmlComment _ _ _ s = _
      unfold onXmlComment
      rw [if_neg]; · rfl
      intro ⟨h1, h2⟩
      subst h1
      apply h
      cases t with
      | nil => simp at h2
      | cons d t =>
        simp only [List.cons_append, List.head?_cons, Option.some.injEq] at h2
        subst h2
        exact ⟨[], t ++ [0x2D#8], rfl⟩

/-- The rest of a declaration. -/
theorem load_header : ∀ {t rest : List Byte} {prev : XmlState} {tmp : List Byte} {s : XerStream},
    ¬ text ['?', '>'] <:+: t ++ [0x3F#8] →
    loadLoop (t ++ 0x3F#8 :: 0x3E#8 :: rest) ⟨.header, prev, tmp⟩ s = loadLoop rest ⟨.start, prev, tmp⟩ s
  | [], rest, prev, tmp, s, _ => by
    refine loadLoop_step2 ?_
    show onXmlHeader _ _ _ s = _
    unfold onXmlHeader; rw [if_pos ⟨rfl, rfl⟩]; rfl
  | c :: t, rest, prev, tmp, s, h => by
    rw [List.cons_append, loadLoop_step (m' := ⟨.header, prev, tmp⟩) (s' := s)]
    · refine load_header fun h' => h ?_
      exact h'.trans (List.suffix_cons c _).isInfix
    · show onXmlHeader _ _ _ s = _
      unfold onXmlHeader
      rw [if_neg]; · rfl
      intro ⟨h1, h2⟩
      subst h1
      apply h
      cases t with
      | nil => simp at h2
      | cons d t =>
        simp only [List.cons_append, List.head?_cons, Option.some.injEq] at h2
        subst h2
        exact ⟨[], t ++ [0x3F#8], rfl⟩

theorem load_bang {q prev : XmlState} {tmp rest : List Byte} {s : XerStream} (hq : Between q) :
    loadLoop (0x3C#8 :: 0x21#8 :: rest) ⟨q, prev, tmp⟩ s = loadLoop (0x21#8 :: rest) ⟨.comment, q, tmp⟩ s := by
  refine loadLoop_step ?_
  rcases hq with rfl | rfl | rfl <;> rfl

theorem load_plainComment {q prev : XmlState} {tmp c rest : List Byte} {s : XerStream} (hq : Between q) (hc : IsPlainComment c) :
    loadLoop (c ++ rest) ⟨q, prev, tmp⟩ s = loadLoop rest ⟨q, q, tmp⟩ s := by
  obtain ⟨d, rfl, ⟨x, hx⟩, ⟨y, hy⟩, hn⟩ := hc
  have e : text ['<', '!'] ++ d ++ text ['>'] ++ rest = 0x3C#8 :: 0x21#8 :: (y ++ 0x2D#8 :: 0x2D#8 :: 0x3E#8 :: rest) := by
    rw [← hy]; simp [text]
  rw [e, load_bang hq, ← List.cons_append, show (0x21#8 :: y) ++ 0x2D#8 :: 0x2D#8 :: 0x3E#8 :: rest =
    (0x21#8 :: (y ++ [0x2D#8])) ++ 0x2D#8 :: 0x3E#8 :: rest by simp]
  refine load_comment fun h => hn ?_
  rw [← hy]
  have e2 : (0x21#8 :: (y ++ [0x2D#8])) ++ [0x2D#8] = 0x21#8 :: (y ++ text ['-', '-']) := by simp [text]
  rw [e2] at h
  obtain ⟨a, b, h⟩ := h
  cases a with
  | nil => simp [text] at h
  | cons a0 a =>
    simp only [List.cons_append, List.cons.injEq] at h
    exact ⟨a, b, h.2⟩

theorem space_not_lt {b : Byte} (h : IsSpaces [b]) : b ≠ 0x3C#8 := by
  intro e; subst e
  have := h _ (List.mem_singleton.mpr rfl)
  revert this; decide

/-- White space and comments between two parts. -/
theorem load_gap {q : XmlState} (hq : Between q) {g sp rest : List Byte} (hg : IsGap g sp) : ∀ {prev : XmlState} {tmp : List Byte} {s : XerStream},
    tmp.length + sp.length ≤ 4096 →
    ∃ prev', loadLoop (g ++ rest) ⟨q, prev, tmp⟩ s = loadLoop rest ⟨q, prev', if q = .content then tmp ++ sp else tmp⟩ s := by
  induction hg with
  | nil => intro prev tmp s _; exact ⟨prev, by simp⟩
  | @space b l sp hb _ ih =>
    intro prev tmp s hl
    simp only [List.length_cons] at hl
    rw [List.cons_append, load_char hq (space_not_lt hb) (by omega)]
    by_cases h : q = .content
    · rw [if_pos h, if_pos h]
      obtain ⟨p, e⟩ := ih (prev := prev) (tmp := tmp ++ [b]) (s := s) (by simp; omega)
      rw [if_pos h] at e
      exact ⟨p, by rw [e]; simp⟩
    · rw [if_neg h, if_neg h]
      obtain ⟨p, e⟩ := ih (prev := prev) (tmp := tmp) (s := s) (by omega)
      rw [if_neg h] at e
      exact ⟨p, e⟩
  | @comment c l sp hc _ ih =>
    intro prev tmp s hl
    rw [List.append_assoc, load_plainComment hq hc]
    exact ih hl

theorem IsGap.spaces {g sp : List Byte} (h : IsGap g sp) : IsSpaces sp ∧ sp.length ≤ g.length := by
  induction h with
  | nil => exact ⟨isSpaces_nil, by simp⟩
  | @space b l sp hb _ ih =>
    refine ⟨?_, by simp; exact ih.2⟩
    have := isSpaces_append hb ih.1
    simpa using this
  | @comment c l sp _ _ ih => exact ⟨ih.1, by rw [List.length_append]; have := ih.2; omega⟩

/-! ## Parts -/

/-- `LoadXmlFile` passes the part on, possibly with white space before it. -/
def PartRun (p : List Byte) : Prop :=
  ∀ q prev tmp s rest, Between q → IsSpaces tmp → XRoom s (tmp.length + p.length) → (q ≠ .content → tmp = []) →
    ∃ w q' prev', IsSpaces w ∧ w.length ≤ tmp.length ∧ Between q' ∧
      loadLoop (p ++ rest) ⟨q, prev, tmp⟩ s = loadLoop rest ⟨q', prev', []⟩ (s.put (w ++ p))

/-- As `PartRun`, ending behind a start tag. -/
def OpenRun (p : List Byte) : Prop :=
  ∀ q prev tmp s rest, Between q → XRoom s p.length → (q ≠ .content → tmp = []) →
    loadLoop (p ++ rest) ⟨q, prev, tmp⟩ s = loadLoop rest ⟨.content, prev, []⟩ (s.put p)

theorem OpenRun.part {p : List Byte} (h : OpenRun p) : PartRun p := fun q prev tmp s rest hq _ hr ht =>
  ⟨[], .content, prev, isSpaces_nil, Nat.zero_le _, .inr (.inl rfl), h q prev tmp s rest hq (hr.mono (by omega)) ht⟩

/-- `<` and what follows it. -/
def TagText (t : List Byte) : Prop := 0x3E#8 ∉ t ∧ ∃ c r, t = c :: r ∧ c ≠ 0x21#8 ∧ c ≠ 0x3F#8

theorem openRun_tag {t : List Byte} (ht : TagText t) (hs : t.head? ≠ some 0x2F#8) : OpenRun (0x3C#8 :: (t ++ [0x3E#8])) := by
  intro q prev tmp s rest hq hr htmp
  obtain ⟨hgt, c, r, rfl, h1, h2⟩ := ht
  have h3 : c ≠ 0x2F#8 := fun h => hs (by simp [h])
  have hr' : XRoom s ([(0x3C#8 : Byte)].length + ((c :: r).length + 1)) := hr.mono (by simp; omega)
  have ha : appendChar 0x3C#8 s = .ok (some (), s.put [0x3C#8]) := (hr'.mono (by simp)).append
  have e : (0x3C#8 :: (c :: r ++ [0x3E#8])) ++ rest = 0x3C#8 :: ((c :: r) ++ 0x3E#8 :: rest) := by simp
  rw [e, loadLoop_step (m' := ⟨.startTag, prev, []⟩) (s' := s.put [0x3C#8]), load_startTag hgt hr'.put,
    XRoom.put_put (hr'.mono (by simp))]
  · rfl
  · show onXml _ _ (some c) s = _
    rcases hq with rfl | rfl | rfl
    · rw [htmp (by decide)]
      show onXmlStart _ _ _ s = _
      unfold onXmlStart
      rw [if_neg (by simp), if_neg (by simpa using h1), if_neg (by simpa using h2), xm_bind_ok ha]; rfl
    · show onXmlContent _ _ _ s = _
      unfold onXmlContent
      rw [if_neg (by simp), if_neg (by simpa using h1), if_neg (by simpa using h3), xm_bind_ok ha]; rfl
    · rw [htmp (by decide)]
      show onXmlMixed _ _ _ s = _
      unfold onXmlMixed
      rw [if_neg (by simp), if_neg (by simpa using h1), xm_bind_ok ha, if_neg (by simpa using h3)]; rfl

/-- An end tag behind text. -/
theorem load_close {t rest tmp : List Byte} {prev : XmlState} {s : XerStream} (ht : 0x3E#8 ∉ t) (hr : XRoom s (tmp.length + (t.length + 3))) :
    loadLoop (0x3C#8 :: 0x2F#8 :: (t ++ [0x3E#8]) ++ rest) ⟨.content, prev, tmp⟩ s =
      loadLoop rest ⟨.mixed, prev, []⟩ (s.put (tmp ++ 0x3C#8 :: 0x2F#8 :: (t ++ [0x3E#8]))) := by
  have e : (0x3C#8 :: 0x2F#8 :: (t ++ [0x3E#8])) ++ rest = 0x3C#8 :: ((0x2F#8 :: t) ++ 0x3E#8 :: rest) := by simp
  have hr1 : XRoom (s.put tmp) (t.length + 3) := hr.put
  have hr2 : XRoom (s.put tmp) ([(0x3C#8 : Byte)].length + ((0x2F#8 :: t).length + 1)) := hr1.mono (by simp; omega)
  have ha : appendChar 0x3C#8 (s.put tmp) = .ok (some (), (s.put tmp).put [0x3C#8]) := (hr2.mono (by simp)).append
  rw [e, loadLoop_step (m' := ⟨.endTag, prev, []⟩) (s' := (s.put tmp).put [0x3C#8]), load_endTag (by simpa using ht) hr2.put,
    XRoom.put_put (hr2.mono (by simp)), XRoom.put_put (hr.mono (by simp))]
  · rfl
  · show onXmlContent _ _ (some 0x2F#8) s = _
    unfold onXmlContent
    rw [if_neg (by simp), if_neg (by decide), if_pos rfl, xm_bind_ok (appendTmp_run (hr.mono (Nat.le_add_right _ _))), xm_bind_ok ha]; rfl

theorem partRun_close {t : List Byte} (ht : 0x3E#8 ∉ t) : PartRun (0x3C#8 :: 0x2F#8 :: (t ++ [0x3E#8])) := by
  intro q prev tmp s rest hq hsp hr htmp
  have e : (0x3C#8 :: 0x2F#8 :: (t ++ [0x3E#8])) ++ rest = 0x3C#8 :: ((0x2F#8 :: t) ++ 0x3E#8 :: rest) := by simp
  rcases hq with rfl | rfl | rfl
  · rw [htmp (by decide)] at hr ⊢
    have hr2 : XRoom s ([(0x3C#8 : Byte)].length + ((0x2F#8 :: t).length + 1)) := hr.mono (by simp; omega)
    refine ⟨[], .content, prev, isSpaces_nil, Nat.zero_le _, .inr (.inl rfl), ?_⟩
    rw [e, loadLoop_step (m' := ⟨.startTag, prev, []⟩) (s' := s.put [0x3C#8]), load_startTag (by simpa using ht) hr2.put,
      XRoom.put_put (hr2.mono (by simp))]
    · rfl
    · show onXmlStart _ _ (some 0x2F#8) s = _
      unfold onXmlStart
      rw [if_neg (by simp), if_neg (by decide), if_neg (by decide), xm_bind_ok (hr2.mono (by simp)).append]; rfl
  · refine ⟨tmp, .mixed, prev, hsp, Nat.le_refl _, .inr (.inr rfl), ?_⟩
    exact load_close ht (hr.mono (by simp))
  · rw [htmp (by decide)] at hr ⊢
    have hr2 : XRoom s ([(0x3C#8 : Byte)].length + ((0x2F#8 :: t).length + 1)) := hr.mono (by simp; omega)
    refine ⟨[], .mixed, prev, isSpaces_nil, Nat.zero_le _, .inr (.inr rfl), ?_⟩
    rw [e, loadLoop_step (m' := ⟨.endTag, prev, []⟩) (s' := s.put [0x3C#8]), load_endTag (by simpa using ht) hr2.put,
      XRoom.put_put (hr2.mono (by simp))]
    · rfl
    · show onXmlMixed _ _ (some 0x2F#8) s = _
      unfold onXmlMixed
      rw [if_neg (by simp), if_neg (by decide), xm_bind_ok (hr2.mono (by simp)).append, if_pos rfl]; rfl

theorem PartRun.append {p r : List Byte} (hp : PartRun p) (hr : PartRun r) : PartRun (p ++ r) := by
  intro q prev tmp s rest hq hsp hroom htmp
  rw [List.length_append] at hroom
  obtain ⟨w, q1, prev1, h1, h2, h3, h4⟩ := hp q prev tmp s (r ++ rest) hq hsp (hroom.mono (by omega)) htmp
  have hroom' : XRoom s ((w ++ p).length + r.length) := hroom.mono (by rw [List.length_append]; omega)
  obtain ⟨w', q2, prev2, g1, g2, g3, g4⟩ := hr q1 prev1 [] (s.put (w ++ p)) rest h3 isSpaces_nil ((hroom'.put).mono (by simp)) (fun _ => rfl)
  have hw : w' = [] := List.eq_nil_of_length_eq_zero (by simpa using g2)
  subst hw
  refine ⟨w, q2, prev2, h1, h2, g3, ?_⟩
  rw [List.append_assoc, h4, g4, List.nil_append, hroom'.put_put, List.append_assoc]

/-- A start tag, text and an end tag. -/
theorem partRun_text {p c t : List Byte} (hp : OpenRun p) (hc : ∀ b ∈ c, b ≠ 0x3C#8) (hl : c.length ≤ 4096) (ht : 0x3E#8 ∉ t) :
    PartRun (p ++ c ++ 0x3C#8 :: 0x2F#8 :: (t ++ [0x3E#8])) := by
  intro q prev tmp s rest hq hsp hroom htmp
  simp only [List.length_append, List.length_cons, List.length_nil] at hroom
  refine ⟨[], .mixed, prev, isSpaces_nil, Nat.zero_le _, .inr (.inr rfl), ?_⟩
  have hroom' : XRoom s (p.length + (c.length + (t.length + 3))) := hroom.mono (by omega)
  rw [List.append_assoc, List.append_assoc, hp q prev tmp s _ hq (hroom.mono (by omega)) htmp, load_text hc (by simpa using hl), List.nil_append,
    load_close ht hroom'.put, XRoom.put_put (hroom.mono (by simp; omega))]
  simp

/-! ## Parts of values -/

theorem nameChar_not {b : Byte} (h : IsNameChar b) : b ≠ 0x3E#8 ∧ b ≠ 0x21#8 ∧ b ≠ 0x3F#8 ∧ b ≠ 0x2F#8 := by
  unfold IsNameChar at h
  refine ⟨?_, ?_, ?_, ?_⟩ <;> intro e <;> subst e <;> revert h <;> decide

theorem GoodTag.no_gt {tag : List Byte} (h : GoodTag tag) : 0x3E#8 ∉ tag := fun hm => (nameChar_not (h.2.2 _ hm)).1 rfl

theorem GoodTag.tagText {tag : List Byte} (h : GoodTag tag) (r : List Byte) (hr : 0x3E#8 ∉ r) : TagText (tag ++ r) ∧ (tag ++ r).head? ≠ some 0x2F#8 := by
  obtain ⟨h1, _, h3⟩ := id h
  cases tag with
  | nil => exact absurd rfl h1
  | cons c t =>
    have hc := nameChar_not (h3 c (by simp))
    refine ⟨⟨?_, c, t ++ r, rfl, hc.2.1, hc.2.2.1⟩, by simpa using hc.2.2.2⟩
    rw [List.mem_append]
    rintro (h' | h')
    · exact h.no_gt h'
    · exact hr h'

theorem openRun_startTag {tag : List Byte} (h : GoodTag tag) : OpenRun (startTag tag) := by
  obtain ⟨h1, h2⟩ := h.tagText [] (by simp)
  have := openRun_tag h1 h2
  have e : startTag tag = 0x3C#8 :: (tag ++ [] ++ [0x3E#8]) := by simp [startTag, text]
  rw [e]; exact this

theorem openRun_emptyTag {tag : List Byte} (h : GoodTag tag) : OpenRun (emptyTag tag) := by
  obtain ⟨h1, h2⟩ := h.tagText [0x2F#8] (by decide)
  have := openRun_tag h1 h2
  have e : emptyTag tag = 0x3C#8 :: (tag ++ [0x2F#8] ++ [0x3E#8]) := by simp [emptyTag, text]
  rw [e]; exact this

theorem endTag_cons (tag : List Byte) : endTag tag = 0x3C#8 :: 0x2F#8 :: (tag ++ [0x3E#8]) := by simp [endTag, text]

theorem partRun_endTag {tag : List Byte} (h : GoodTag tag) : PartRun (endTag tag) := by
  rw [endTag_cons]; exact partRun_close h.no_gt

theorem partRun_element {tag c : List Byte} (h : GoodTag tag) (hc : ∀ b ∈ c, b ≠ 0x3C#8) (hl : c.length ≤ 4096) : PartRun (element tag c) := by
  unfold element
  split
  · exact (openRun_emptyTag h).part
  · rw [endTag_cons]; exact partRun_text (openRun_startTag h) hc hl h.no_gt

theorem partRun_wrapped {tag c : List Byte} (h : GoodTag tag) (hc : ∀ b ∈ c, b ≠ 0x3C#8) (hl : c.length ≤ 4096) : PartRun (wrapped tag c) := by
  unfold wrapped
  rw [if_neg h.1, endTag_cons]; exact partRun_text (openRun_startTag h) hc hl h.no_gt

theorem partRun_word {tag word : List Byte} (h : tag = [] ∨ GoodTag tag) (hw : GoodTag word) : PartRun (wrapped tag (emptyTag word)) := by
  unfold wrapped
  rcases h with rfl | h
  · rw [if_pos rfl]; exact (openRun_emptyTag hw).part
  · rw [if_neg h.1]; exact ((openRun_startTag h).part.append (openRun_emptyTag hw).part).append (partRun_endTag h)

theorem hexUpper_not_lt : ∀ n, n < 16 → hexUpper n ≠ 0x3C#8 := by decide

theorem hexText_not_lt (l : List Byte) : ∀ b ∈ hexText l, b ≠ 0x3C#8 := by
  intro b hb
  unfold hexText at hb
  obtain ⟨x, _, hx⟩ := List.mem_flatMap.mp hb
  have h1 := x.isLt
  rcases List.mem_cons.mp hx with rfl | hx
  · exact hexUpper_not_lt _ (by omega)
  · rw [List.mem_singleton] at hx; subst hx
    exact hexUpper_not_lt _ (by omega)

theorem hexText_len (l : List Byte) : (hexText l).length = 2 * l.length := by
  induction l with
  | nil => rfl
  | cons b l ih => rw [hexText_cons]; simp [ih]; omega

theorem bitText_not_lt (l : List Bool) : ∀ b ∈ bitText l, b ≠ 0x3C#8 := by
  intro b hb
  unfold bitText at hb
  obtain ⟨x, _, rfl⟩ := List.mem_map.mp hb
  cases x <;> decide

theorem blockParts_all {tag : List Byte} {c : List (List Byte)} (h : tag = [] ∨ GoodTag tag) (hc : ∀ p ∈ c, PartRun p) : ∀ p ∈ blockParts tag c, PartRun p := by
  intro p hp
  unfold blockParts at hp
  rcases h with rfl | h
  · rw [if_pos rfl] at hp; exact hc p hp
  · rw [if_neg h.1] at hp
    rcases List.mem_cons.mp hp with rfl | hp
    · exact (openRun_startTag h).part
    · rcases List.mem_append.mp hp with hp | hp
      · exact hc p hp
      · rw [List.mem_singleton] at hp; subst hp; exact partRun_endTag h

mutual
theorem xParts_run : ∀ (t : XTy) (tag : Option (List Byte)) (v : XVal), XOk t tag → XHas t v → XShort t → ∀ p ∈ xParts t tag v, PartRun p
  | .int l c, tag, v, ho, hv, _ => by
    cases v <;> simp only [XHas] at hv
    simp only [XOk] at ho
    simp only [xParts, List.mem_singleton, forall_eq]
    exact partRun_element (good_tagOr good_integer ho) (fun b hb => (decimalInt_plain b hb).1) (Nat.le_trans (decimalInt_length ⟨hv.1, hv.2.1⟩) (by decide))
  | .uint l c, tag, v, ho, hv, _ => by
    cases v <;> simp only [XHas] at hv
    simp only [XOk] at ho
    simp only [xParts, List.mem_singleton, forall_eq]
    refine partRun_element (good_tagOr good_integer ho) (fun b hb => (decimalInt_plain b hb).1) ?_
    rw [decimalInt_of_nonneg hv.1]
    exact Nat.le_trans (decimalNat_length (by have := hv.2.1; omega)) (by decide)
  | .bool l, tag, v, ho, hv, _ => by
    cases v <;> simp only [XHas] at hv
    simp only [XOk] at ho
    simp only [xParts, List.mem_singleton, forall_eq]
    exact partRun_word (good_tagOr_nil ho) (boolWord_good _)
  | .null l, tag, v, ho, hv, _ => by
    cases v <;> simp only [XHas] at hv
    simp only [XOk] at ho
    simp only [xParts, List.mem_singleton, forall_eq]
    exact (openRun_emptyTag (good_tagOr good_null ho)).part
  | .enum l labels, tag, v, ho, hv, _ => by
    cases v <;> simp only [XHas] at hv
    rename_i i
    simp only [XOk] at ho
    simp only [xParts, List.mem_singleton, forall_eq]
    rw [List.getD_eq_getElem?_getD, List.getElem?_eq_getElem hv]
    exact partRun_word (good_tagOr_nil ho.1) (ho.2.2 labels[i] (List.getElem_mem hv))
  | .str l numeric m z, tag, v, ho, hv, hs => by
    cases v <;> simp only [XHas] at hv
    simp only [XOk] at ho
    simp only [XShort] at hs
    simp only [xParts, List.mem_singleton, forall_eq]
    exact partRun_element (good_tagOr (good_string numeric) ho.1) (fun b hb => (hv.1 b hb).1) (Nat.le_trans hv.2 hs)
  | .octets l lo hi, tag, v, ho, hv, _ => by
    cases v <;> simp only [XHas] at hv
    simp only [XOk] at ho
    simp only [xParts, List.mem_singleton, forall_eq]
    refine partRun_wrapped (good_tagOr good_octets ho.1) (hexText_not_lt _) ?_
    rw [hexText_len, List.length_take]; omega
  | .bits l lo hi, tag, v, ho, hv, _ => by
    cases v <;> simp only [XHas] at hv
    simp only [XOk] at ho
    simp only [xParts, List.mem_singleton, forall_eq]
    refine partRun_wrapped (good_tagOr good_bits ho.1) (bitText_not_lt _) ?_
    unfold bitText; rw [List.length_map, List.length_take]; omega
  | .seqOf l lo hi ct t, tag, v, ho, hv, hs => by
    cases v <;> simp only [XHas] at hv
    simp only [XOk] at ho
    simp only [XShort] at hs
    simp only [xParts]
    refine blockParts_all (.inr (good_tagOr good_seqOf ho.1)) fun p hp => ?_
    obtain ⟨x, hx, hp⟩ := List.mem_flatMap.mp hp
    exact xParts_run t ct x ho.2 (hv.2.2 x hx) hs p hp
  | .seq l fs, tag, v, ho, hv, hs => by
    cases v <;> simp only [XHas] at hv
    simp only [XOk] at ho
    simp only [XShort] at hs
    simp only [xParts]
    exact blockParts_all (.inr (good_tagOr good_seq ho.1)) (xPartsFields_run fs _ ho.2.2 hv hs)
  | .choice l alts, tag, v, ho, hv, hs => by
    cases v <;> simp only [XHas] at hv
    simp only [XOk] at ho
    simp only [XShort] at hs
    simp only [xParts]
    exact blockParts_all (good_tagOr_nil ho.1) (xPartsAlt_run alts _ _ ho.2.2 hv hs)
  | .ref name t, tag, v, ho, hv, hs => by
    simp only [XHas] at hv
    simp only [XOk] at ho
    simp only [XShort] at hs
    simp only [xParts]
    exact xParts_run t _ v ho hv hs
theorem xPartsFields_run : ∀ (fs : XFields) (vs : List (Bool × XVal)), XOkFields fs → XHasFields fs vs → XShortFields fs →
    ∀ p ∈ xPartsFields fs vs, PartRun p
  | .nil, vs, _, _, _ => by simp [xPartsFields]
  | .cons name o t rest, [], _, hv, _ => by simp only [XHasFields] at hv
  | .cons name o t rest, (e, v) :: vs, ho, hv, hs => by
    simp only [XHasFields] at hv
    simp only [XOkFields] at ho
    simp only [XShortFields] at hs
    simp only [xPartsFields]
    intro p hp
    rcases List.mem_append.mp hp with hp | hp
    · cases e with
      | true => exact xParts_run t (some name) v ho.2.1 (by simpa using hv.1) hs.1 p (by simpa using hp)
      | false => simp at hp
    · exact xPartsFields_run rest vs ho.2.2 hv.2 hs.2 p hp
theorem xPartsAlt_run : ∀ (alts : XAlts) (i : Nat) (v : XVal), XOkAlts alts → XHasAlt alts i v → XShortAlts alts →
    ∀ p ∈ xPartsAlt alts i v, PartRun p
  | .nil, i, v, _, hv, _ => by simp only [XHasAlt] at hv
  | .cons name t rest, 0, v, ho, hv, hs => by
    simp only [XHasAlt] at hv
    simp only [XOkAlts] at ho
    simp only [XShortAlts] at hs
    simp only [xPartsAlt]
    exact xParts_run t (some name) v ho.2.1 hv hs.1
  | .cons name t rest, i + 1, v, ho, hv, hs => by
    simp only [XHasAlt] at hv
    simp only [XOkAlts] at ho
    simp only [XShortAlts] at hs
    simp only [xPartsAlt]
    exact xPartsAlt_run rest i v ho.2.2 hv hs.2
end

/-! ## Files -/

theorem load_laidOut : ∀ {ps : List (List Byte)} {l : List Byte} {q prev : XmlState} {s : XerStream}, (∀ p ∈ ps, PartRun p) → LaidOutFile ps l → Between q →
    XRoom s l.length → ∃ m out, loadLoop l ⟨q, prev, []⟩ s = .ok (some m, s.put out) ∧ LaidOut ps out ∧ out.length ≤ l.length
  | [], l, q, prev, s, _, hl, hq, hr => by
    obtain ⟨sp, hg, hsp⟩ := hl
    obtain ⟨p', e⟩ := load_gap hq hg (rest := []) (prev := prev) (tmp := []) (s := s) (by simpa using hsp)
    rw [List.append_nil] at e
    exact ⟨_, [], by rw [e, s.put_nil]; unfold loadLoop; rfl, isSpaces_nil, Nat.zero_le _⟩
  | p :: ps, l, q, prev, s, hps, hl, hq, hr => by
    obtain ⟨g, sp, r, hg, hsp, hl, rfl⟩ := hl
    obtain ⟨g1, g2⟩ := hg.spaces
    simp only [List.length_append] at hr
    rw [List.append_assoc]
    obtain ⟨p', e⟩ := load_gap hq hg (rest := p ++ r) (prev := prev) (tmp := []) (s := s) (by simpa using hsp)
    rw [e]
    have h1 : IsSpaces (if q = .content then [] ++ sp else []) ∧ (if q = .content then [] ++ sp else []).length ≤ g.length := by
      split
      · simpa using ⟨g1, g2⟩
      · exact ⟨isSpaces_nil, Nat.zero_le _⟩
    obtain ⟨w, q', prev', h2, h3, h4, h5⟩ := hps p (by simp) q p' _ s r hq h1.1 (hr.mono (by omega)) (fun h => if_neg h)
    rw [h5]
    have hr' : XRoom s ((w ++ p).length + r.length) := hr.mono (by rw [List.length_append]; omega)
    obtain ⟨m, out, e2, hout, hlen⟩ := load_laidOut (prev := prev') (fun x hx => hps x (by simp [hx])) hl h4 hr'.put
    refine ⟨m, w ++ p ++ out, ?_, ⟨w, out, h2, hout, rfl⟩, by simp; omega⟩
    rw [e2, XRoom.put_put (hr'.mono (by omega))]

theorem load_spaces : ∀ {w rest : List Byte} {prev : XmlState} {s : XerStream}, IsSpaces w →
    loadLoop (w ++ rest) ⟨.start, prev, []⟩ s = loadLoop rest ⟨.start, prev, []⟩ s
  | [], rest, prev, s, _ => rfl
  | c :: w, rest, prev, s, h => by
    rw [List.cons_append, load_char (.inl rfl) (space_not_lt fun b hb => h b (by simp at hb; simp [hb])) (by decide), if_neg (by decide),
      load_spaces fun b hb => h b (by simp [hb])]

theorem load_declaration {h rest : List Byte} {prev : XmlState} {s : XerStream} (hh : h = [] ∨ IsDeclaration h) :
    loadLoop (h ++ rest) ⟨.start, prev, []⟩ s = loadLoop rest ⟨.start, prev, []⟩ s := by
  rcases hh with rfl | ⟨d, rfl, ⟨x, hx⟩, ⟨y, hy⟩, hn⟩
  · rfl
  · have e : text ['<'] ++ d ++ text ['>'] ++ rest = 0x3C#8 :: (y ++ 0x3F#8 :: 0x3E#8 :: rest) := by
      rw [← hy]; simp [text]
    have hd : (y ++ 0x3F#8 :: 0x3E#8 :: rest).head? = some 0x3F#8 := by
      have : y ++ 0x3F#8 :: 0x3E#8 :: rest = d ++ 0x3E#8 :: rest := by rw [← hy]; simp [text]
      rw [this, ← hx]; rfl
    rw [e, loadLoop_step (m' := ⟨.header, prev, []⟩) (s' := s) (by rw [hd]; rfl)]
    refine load_header ?_
    have e2 : y ++ [0x3F#8] = d := by rw [← hy]; rfl
    rw [e2]; exact hn

theorem loadXmlFile_run {ps : List (List Byte)} {file : List Byte} {prev : XmlState} {s : XerStream} (hps : ∀ p ∈ ps, PartRun p) (hf : XmlFile ps file)
    (hr : XRoom s file.length) :
    ∃ out, loadXmlFile prev file s = .ok (some (s.currentByte + out.length), { s.put out with currentByte := 0 }) ∧ LaidOut ps out ∧ out.length ≤ file.length := by
  obtain ⟨w, h, l, hw, hh, hl, rfl⟩ := hf
  simp only [List.length_append] at hr
  obtain ⟨m, out, e, h1, h2⟩ := load_laidOut (prev := prev) hps hl (.inl rfl) (hr.mono (by omega))
  refine ⟨out, ?_, h1, by simp; omega⟩
  have : loadLoop (w ++ h ++ l) ⟨.start, prev, []⟩ s = .ok (some m, s.put out) := by
    rw [List.append_assoc, load_spaces hw, load_declaration hh, e]
  unfold loadXmlFile
  rw [xm_bind_ok this]
  rfl

end Asn1
