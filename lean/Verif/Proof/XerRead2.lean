import Verif.Proof.XerRead
/-!
# Lemmas about XER: decoders of values
-/
namespace Asn1

/-! ## Combining -/

theorem XReads.of_run {α : Type} {f : XM α} {a : α} {l : List Byte}
    (h : ∀ s w r, XInput s → IsSpaces w → s.unread = w ++ l ++ r → f s = .ok (some a, s.adv (w.length + l.length))) : XReads f a l := by
  intro s w r hs hw hu
  have hlen : w.length + l.length ≤ s.unread.length := by rw [hu]; simp
  refine ⟨_, [], h s w r hs hw hu, hs.adv hlen, rfl, rfl, rfl, isSpaces_nil, ?_⟩
  have e : w.length + l.length = (w ++ l).length := by simp
  rw [XerStream.adv_unread, hu, e, List.drop_left]
  rfl

theorem isSpaces_append {l m : List Byte} (h1 : IsSpaces l) (h2 : IsSpaces m) : IsSpaces (l ++ m) := by
  intro b hb
  rcases List.mem_append.mp hb with h | h
  · exact h1 b h
  · exact h2 b h

theorem XReads.bind {α β : Type} {f : XM α} {g : α → XM β} {a : α} {b : β} {l m : List Byte} (hf : XReads f a l) (hg : XReads (g a) b m) :
    XReads (f >>= g) b (l ++ m) := by
  intro s w r hs hw hu
  obtain ⟨s1, w1, e1, i1, b1, c1, wh1, sp1, u1⟩ := hf s w (m ++ r) hs hw (by rw [hu]; simp)
  obtain ⟨s2, w2, e2, i2, b2, c2, wh2, sp2, u2⟩ := hg s1 w1 r i1 sp1 (by rw [u1]; simp)
  exact ⟨s2, w2, (xm_bind_ok e1).trans e2, i2, b2.trans b1, c2.trans c1, wh2.trans wh1, sp2, u2⟩

theorem XReads.pure {α : Type} (a : α) : XReads (Pure.pure a : XM α) a [] := by
  intro s w r hs hw hu
  exact ⟨s, w, rfl, hs, rfl, rfl, rfl, hw, by rw [hu]; simp⟩

theorem XReads.map {α β : Type} {f : XM α} {g : α → XM β} {a : α} {b : β} {l : List Byte} (hf : XReads f a l) (hg : g a = Pure.pure b) :
    XReads (f >>= g) b l := by
  have := hf.bind (g := g) (b := b) (m := []) (by rw [hg]; exact XReads.pure b)
  rwa [List.append_nil] at this

theorem XReads.bind' {α β : Type} {f : XM α} {g : α → XM β} {a : α} {b : β} {l m k : List Byte} (hf : XReads f a l) (hg : XReads (g a) b m)
    (h : l ++ m = k) : XReads (f >>= g) b k := h ▸ hf.bind hg

/-- White space around the text. -/
theorem XReads.spaces {α : Type} {f : XM α} {a : α} {l v u : List Byte} (hf : XReads f a l) (hv : IsSpaces v) (hu : IsSpaces u) :
    XReads f a (v ++ l ++ u) := by
  intro s w r hs hw hun
  obtain ⟨s1, w1, e1, i1, b1, c1, wh1, sp1, u1⟩ := hf s (w ++ v) (u ++ r) hs (isSpaces_append hw hv) (by rw [hun]; simp)
  exact ⟨s1, w1 ++ u, e1, i1, b1, c1, wh1, isSpaces_append sp1 hu, by rw [u1]; simp⟩

theorem indent_spaces (w : Bool) (level : Int) : IsSpaces (indent w level) := by
  unfold indent
  split
  · intro b hb; left; exact (List.mem_replicate.mp hb).2
  · exact isSpaces_nil

theorem newLine_spaces (w : Bool) (level : Int) : IsSpaces (newLine w level) := by
  unfold newLine
  split
  · intro b hb; rw [List.mem_singleton] at hb; subst hb; right; decide
  · exact isSpaces_nil

theorem XReads.line {α : Type} {f : XM α} {a : α} {l : List Byte} (hf : XReads f a l) (w : Bool) (level : Int) :
    XReads f a (line w level l) := hf.spaces (indent_spaces w level) (newLine_spaces w level)

theorem XReads.lineNL {α : Type} {f : XM α} {a : α} {l : List Byte} (hf : XReads f a l) (w : Bool) (level : Int) :
    XReads f a (lineNL w level l) := hf.spaces (indent_spaces w level) (newLine_spaces w 0)

/-! ## Elements -/

theorem decodeElementStart_reads {tag : List Byte} {attrs : Option XmlAttrs} (ht : GoodTag tag) :
    XReads (decodeElementStart tag attrs) attrs (startTag tag) := .of_run fun _ _ _ hs hw hu => decodeElementStart_run hs hw ht hu

theorem decodeElementEnd_reads {tag : List Byte} (ht : GoodTag tag) : XReads (decodeElementEnd tag) () (endTag tag) :=
  .of_run fun _ _ _ hs hw hu => decodeElementEnd_run hs hw ht hu

theorem decodePrimitiveElement_reads {tag c arr : List Byte} {maxLen : Nat} (ht : GoodTag tag) (hc : ∀ b ∈ c, b ≠ 0x3C#8)
    (hl : c.length < maxLen) (ha : maxLen ≤ arr.length) :
    XReads (decodePrimitiveElement tag arr maxLen) (stored arr c) (startTag tag ++ c ++ endTag tag) :=
  .of_run fun _ _ _ hs hw hu => decodePrimitiveElement_run hs hw ht hc hl ha hu

theorem decodePrimitiveElement_reads' {tag c arr : List Byte} {maxLen : Nat} (ht : GoodTag tag) (hc : ∀ b ∈ c, b ≠ 0x3C#8)
    (hl : c.length < maxLen) (ha : maxLen ≤ arr.length) :
    XReads (decodePrimitiveElement tag arr maxLen) (stored arr c) (element tag c) := by
  unfold element
  by_cases h : c = []
  · rw [if_pos h, h]
    exact .of_run fun _ _ _ hs hw hu => decodePrimitiveElement_empty hs hw ht (by omega) hu
  · rw [if_neg h]
    exact decodePrimitiveElement_reads ht hc hl ha

theorem primitiveText_reads {tag c : List Byte} {n : Nat} (ht : GoodTag tag) (hc : PlainText c) (hl : c.length < n) :
    XReads (primitiveText tag n) c (element tag c) := by
  unfold primitiveText
  refine (decodePrimitiveElement_reads' ht (fun b hb => (hc b hb).1) hl (by simp)).map ?_
  rw [cstr_stored hc.noNul]

theorem primitiveText_reads' {tag c : List Byte} {n : Nat} (ht : GoodTag tag) (hc : PlainText c) (hl : c.length < n) :
    XReads (primitiveText tag n) c (startTag tag ++ c ++ endTag tag) := by
  unfold primitiveText
  refine (decodePrimitiveElement_reads ht (fun b hb => (hc b hb).1) hl (by simp)).map ?_
  rw [cstr_stored hc.noNul]

theorem plainText_nil : PlainText [] := fun b hb => by cases hb

theorem xerDecodeNull_reads {tag : List Byte} (ht : GoodTag tag) : XReads (xerDecodeNull tag) () (emptyTag tag) := by
  unfold xerDecodeNull
  exact (primitiveText_reads ht plainText_nil (by decide)).map rfl

/-! ## Numbers -/

theorem isDigitC_iff {b : Byte} : isDigitC b = true ↔ 0x30 ≤ b.toNat ∧ b.toNat ≤ 0x39 := by
  unfold isDigitC; simp

theorem readDigits_append_one : ∀ (l : List Byte) (acc : Nat) (b : Byte), (∀ x ∈ l, isDigitC x = true) → isDigitC b = true →
    readDigits (l ++ [b]) acc = 10 * readDigits l acc + (b.toNat - 0x30)
  | [], acc, b, _, hb => by simp [readDigits, hb]
  | c :: l, acc, b, hl, hb => by
    show readDigits (c :: (l ++ [b])) acc = _
    unfold readDigits
    rw [if_pos (hl c (by simp)), if_pos (hl c (by simp))]
    exact readDigits_append_one l _ b (fun x hx => hl x (by simp [hx])) hb

theorem decimalNat_isDigit {n : Nat} : ∀ b ∈ decimalNat n, isDigitC b = true := fun b hb => isDigitC_iff.mpr (decimalNat_digit b hb)

theorem digit_toNat : ∀ d, d < 10 → (BitVec.ofNat 8 (Nat.digitChar d).toNat : Byte).toNat = 0x30 + d := by decide

theorem readDigits_decimalNat (n : Nat) : readDigits (decimalNat n) 0 = n := by
  induction n using Nat.strongRecOn with
  | ind n ih =>
    by_cases hn : n < 10
    · unfold decimalNat
      rw [Nat.toDigits_of_lt_base hn]
      have hd := digit_toNat n hn
      simp only [text, List.map_cons, List.map_nil, readDigits]
      rw [if_pos (isDigitC_iff.mpr (by omega))]
      omega
    · have e : decimalNat n = decimalNat (n / 10) ++ [BitVec.ofNat 8 (Nat.digitChar (n % 10)).toNat] := by
        unfold decimalNat
        rw [Nat.toDigits_of_base_le (by omega) (by omega)]
        simp [text]
      have hd := digit_toNat (n % 10) (by omega)
      rw [e, readDigits_append_one _ _ _ decimalNat_isDigit (isDigitC_iff.mpr (by omega)), ih _ (by omega), hd]
      omega

theorem decimalNat_cons (n : Nat) : ∃ c l, decimalNat n = c :: l ∧ isDigitC c = true := by
  have h := @decimalNat_ne_nil n
  have hd := @decimalNat_isDigit n
  revert h hd
  cases decimalNat n with
  | nil => intro h; exact absurd rfl h
  | cons c l => intro _ hd; exact ⟨c, l, rfl, hd c (by simp)⟩

theorem digit_not_sign {c : Byte} (h : isDigitC c = true) : isSpaceC c = false ∧ c ≠ 0x2D#8 ∧ c ≠ 0x2B#8 := by
  revert h; unfold isDigitC isSpaceC; revert c; decide

theorem readNumber_decimalNat (n : Nat) : readNumber (decimalNat n) = (false, n) := by
  obtain ⟨c, l, e, hc⟩ := decimalNat_cons n
  obtain ⟨h1, h2, h3⟩ := digit_not_sign hc
  unfold readNumber
  have e2 : (decimalNat n).dropWhile isSpaceC = c :: l := by rw [e, List.dropWhile_cons_of_neg (by rw [h1]; simp)]
  rw [e2]
  dsimp only
  rw [if_neg h2, if_neg h3, ← e, readDigits_decimalNat]

theorem readNumber_decimalInt (v : Int) : readNumber (decimalInt v) = (decide (v < 0), v.natAbs) := by
  unfold decimalInt
  by_cases hv : v < 0
  · rw [if_pos hv]
    have e : text ['-'] ++ decimalNat v.natAbs = 0x2D#8 :: decimalNat v.natAbs := rfl
    rw [e]
    unfold readNumber
    rw [List.dropWhile_cons_of_neg (by decide)]
    dsimp only
    rw [if_pos rfl, readDigits_decimalNat, decide_eq_true hv]
  · rw [if_neg hv, List.nil_append, readNumber_decimalNat, decide_eq_false hv]

theorem atollC_decimalInt {v : Int} (h : -(2 ^ 63) ≤ v ∧ v < 2 ^ 63) : atollC (decimalInt v) = pure v := by
  unfold atollC
  rw [readNumber_decimalInt]
  dsimp only
  have e : (if (decide (v < 0)) = true then -((v.natAbs : Nat) : Int) else (v.natAbs : Int)) = v := by
    by_cases hv : v < 0
    · rw [if_pos (by simpa using hv)]; omega
    · rw [if_neg (by simpa using hv)]; omega
  rw [e, if_pos h]

theorem strtoullC_decimalNat {n : Nat} (h : n < 2 ^ 64) : strtoullC (decimalNat n) = n := by
  unfold strtoullC
  rw [readNumber_decimalNat]
  dsimp only
  rw [if_neg (by omega)]
  rfl

theorem decimalNat_length {n : Nat} (h : n < 2 ^ 64) : (decimalNat n).length ≤ 20 := by
  unfold decimalNat text
  rw [List.length_map, Nat.length_toDigits_le_iff (by decide) (by decide)]
  exact Nat.lt_trans h (by decide)

theorem decimalInt_length {v : Int} (h : -(2 ^ 63) ≤ v ∧ v < 2 ^ 63) : (decimalInt v).length ≤ 20 := by
  have : (decimalNat v.natAbs).length ≤ 19 := by
    unfold decimalNat text
    rw [List.length_map, Nat.length_toDigits_le_iff (by decide) (by decide)]
    omega
  unfold decimalInt
  rw [List.length_append]
  have e : ((if v < 0 then text ['-'] else []) : List Byte).length ≤ 1 := by split <;> decide
  omega

theorem xerDecodeInteger_reads {tag : List Byte} {v : Int} (ht : GoodTag tag) (hv : -(2 ^ 63) ≤ v ∧ v < 2 ^ 63) :
    XReads (xerDecodeInteger tag) v (element tag (decimalInt v)) := by
  unfold xerDecodeInteger
  have := decimalInt_length hv
  exact (primitiveText_reads ht decimalInt_plain (by omega)).map (atollC_decimalInt hv)

theorem xerDecodePosInteger_reads {tag : List Byte} {v : Nat} (ht : GoodTag tag) (hv : v < 2 ^ 64) :
    XReads (xerDecodePosInteger tag) v (element tag (decimalNat v)) := by
  unfold xerDecodePosInteger
  have := decimalNat_length hv
  exact (primitiveText_reads ht decimalNat_plain (by omega)).map (by rw [strtoullC_decimalNat hv])

/-! ## Looking ahead -/

/-- The text begins with `<tag>` or `<tag/>`. -/
def OpensWith (tag l : List Byte) : Prop := ∃ r, l = startTag tag ++ r ∨ l = emptyTag tag ++ r

/-- The text begins with `</`. -/
def ClosesFirst (l : List Byte) : Prop := ∃ r, l = 0x3C#8 :: 0x2F#8 :: r

theorem peekFlag_some {α : Type} {f : XM α} {s : XerStream} {a : α} {n : Nat} (h : f s = .ok (some a, s.adv n)) :
    peekFlag f s = .ok (some (some a), s) := by
  unfold peekFlag; rw [h]; rfl

theorem peekFlag_none {α : Type} {f : XM α} {s : XerStream} {n : Nat} (h : f s = .ok (none, s.adv n)) :
    peekFlag f s = .ok (some none, s) := by
  unfold peekFlag; rw [h]; rfl

theorem tagEnd_run {s : XerStream} {r : List Byte} (hs : XInput s) (hu : (∃ r', r = 0x3E#8 :: r') ∨ (∃ r', r = 0x2F#8 :: 0x3E#8 :: r'))
    (h : s.unread = r) : ∃ n, tagEnd s = .ok (some (), s.adv n) := by
  unfold tagEnd
  rcases hu with ⟨r', hr⟩ | ⟨r', hr⟩
  · refine ⟨1, ?_⟩
    rw [xm_bind_ok (nt_special (w := []) hs isSpaces_nil (by decide) (noMarkup_of_ne (by decide)) (h.trans hr)), if_neg (by decide),
      if_neg (by decide)]
    rfl
  · refine ⟨2, ?_⟩
    rw [xm_bind_ok (nt_special (w := []) hs isSpaces_nil (by decide) (noMarkup_of_ne (by decide)) (h.trans hr)), if_pos (by decide)]
    rw [expect_run (w := []) (r := r') (hs.adv (by rw [h, hr]; simp)) isSpaces_nil (by decide) (noMarkup_of_ne (by decide))
      (by rw [XerStream.adv_unread, h, hr]; rfl), XerStream.adv_adv]
    rfl

theorem OpensWith.split {tag l : List Byte} (h : OpensWith tag l) : ∃ r, l = 0x3C#8 :: (tag ++ r) ∧ NoNameFirst r ∧
    ((∃ r', r = 0x3E#8 :: r') ∨ (∃ r', r = 0x2F#8 :: 0x3E#8 :: r')) := by
  obtain ⟨r, h | h⟩ := h
  · exact ⟨0x3E#8 :: r, by rw [h, startTag_eq]; simp, noNameFirst_gt, .inl ⟨r, rfl⟩⟩
  · exact ⟨0x2F#8 :: 0x3E#8 :: r, by rw [h, emptyTag_eq]; simp, noNameFirst_slash, .inr ⟨r, rfl⟩⟩

theorem OpensWith.append {tag l m : List Byte} (h : OpensWith tag l) : OpensWith tag (l ++ m) := by
  obtain ⟨r, h | h⟩ := h
  · exact ⟨r ++ m, .inl (by rw [h, List.append_assoc])⟩
  · exact ⟨r ++ m, .inr (by rw [h, List.append_assoc])⟩

theorem opensWith_element (tag c : List Byte) : OpensWith tag (element tag c) := by
  unfold element
  split
  · exact ⟨[], .inr (by simp)⟩
  · exact ⟨c ++ endTag tag, .inl (by simp)⟩

theorem laNextElementTag_run {w tag l : List Byte} {s : XerStream} (hs : XInput s) (hw : IsSpaces w) (ht : GoodTag tag)
    (hl : OpensWith tag l) (hu : s.unread = w ++ l) : laNextElementTag s = .ok (some tag, s) := by
  obtain ⟨r, rfl, hr, hr'⟩ := hl.split
  have hu2 : (s.adv (w.length + 1)).unread = [] ++ (tag ++ r) := by
    rw [XerStream.adv_unread, hu, List.drop_append]; simp
  have hs2 : XInput (s.adv (w.length + 1)) := hs.adv (by rw [hu]; simp)
  have hs3 : XInput (s.adv (w.length + 1 + tag.length)) := by rw [← XerStream.adv_adv]; exact hs2.adv (by rw [hu2]; simp)
  obtain ⟨n, e⟩ := tagEnd_run hs3 hr' (by rw [← XerStream.adv_adv, XerStream.adv_unread, hu2]; simp)
  unfold laNextElementTag
  have : peekFlag (do
    expect 0x3C#8
    let t ← nt
    if t.id ≠ wordId then xFail else do
      tagEnd
      pure t.value) s = .ok (some (some tag), s) := by
    refine peekFlag_some (n := w.length + 1 + tag.length + n) ?_
    rw [xm_bind_ok (expect_run hs hw (by decide) ht.noMarkup hu), xm_bind_ok (nt_word hs2 isSpaces_nil ht hr hu2), if_neg (by simp)]
    simp only [XerStream.adv_adv, List.length_nil, Nat.zero_add]
    rw [xm_bind_ok e, XerStream.adv_adv]
    rfl
  rw [xm_bind_ok this]
  rfl

theorem nextStartElementIs_run {w tag tag' l : List Byte} {s : XerStream} (hs : XInput s) (hw : IsSpaces w) (ht : GoodTag tag)
    (ht' : GoodTag tag') (hl : OpensWith tag l) (hu : s.unread = w ++ l) :
    nextStartElementIs tag' s = .ok (some (decide (tag = tag')), s) := by
  obtain ⟨r, rfl, hr, hr'⟩ := hl.split
  have hu2 : (s.adv (w.length + 1)).unread = [] ++ (tag ++ r) := by
    rw [XerStream.adv_unread, hu, List.drop_append]; simp
  have hs2 : XInput (s.adv (w.length + 1)) := hs.adv (by rw [hu]; simp)
  have hs3 : XInput (s.adv (w.length + 1 + tag.length)) := by rw [← XerStream.adv_adv]; exact hs2.adv (by rw [hu2]; simp)
  obtain ⟨n, e⟩ := tagEnd_run hs3 hr' (by rw [← XerStream.adv_adv, XerStream.adv_unread, hu2]; simp)
  unfold nextStartElementIs
  by_cases h : tag = tag'
  · subst h
    have : peekFlag (do expect 0x3C#8; expectTag tag; tagEnd) s = .ok (some (some ()), s) := by
      obtain ⟨e1, _, _⟩ := open_run hs hw ht hr hu (fun _ => tagEnd)
      refine peekFlag_some (n := w.length + 1 + tag.length + n) (e1.trans ?_)
      rw [e, XerStream.adv_adv]
    rw [xm_bind_ok this]
    simp; rfl
  · have : peekFlag (do expect 0x3C#8; expectTag tag'; tagEnd) s = .ok (some none, s) := by
      refine peekFlag_none (n := w.length + 1 + tag.length) ?_
      rw [xm_bind_ok (expect_run hs hw (by decide) ht.noMarkup hu)]
      have e2 : expectTag tag' (s.adv (w.length + 1)) = .ok (none, s.adv (w.length + 1 + tag.length)) := by
        unfold expectTag
        rw [xm_bind_ok (nt_word hs2 isSpaces_nil ht hr hu2), if_neg (by rw [cstr_eq_self ht'.noNul]; simp [h]), XerStream.adv_adv]
        simp; rfl
      rw [xm_bind_none e2]
    rw [xm_bind_ok this]
    simp [h]; rfl

theorem nextStartElementIs_end {w tag l : List Byte} {s : XerStream} (hs : XInput s) (hw : IsSpaces w) (hl : ClosesFirst l)
    (hu : s.unread = w ++ l) : nextStartElementIs tag s = .ok (some false, s) := by
  obtain ⟨r, rfl⟩ := hl
  have hu2 : (s.adv (w.length + 1)).unread = [] ++ (0x2F#8 :: r) := by
    rw [XerStream.adv_unread, hu, List.drop_append]; simp
  have hs2 : XInput (s.adv (w.length + 1)) := hs.adv (by rw [hu]; simp)
  unfold nextStartElementIs
  have : peekFlag (do expect 0x3C#8; expectTag tag; tagEnd) s = .ok (some none, s) := by
    refine peekFlag_none (n := w.length + 2) ?_
    rw [xm_bind_ok (expect_run hs hw (by decide) noMarkup_slash hu)]
    have e2 : expectTag tag (s.adv (w.length + 1)) = .ok (none, s.adv (w.length + 2)) := by
      unfold expectTag
      rw [xm_bind_ok (nt_special hs2 isSpaces_nil (by decide) (noMarkup_of_ne (by decide)) hu2), if_neg (by simp [wordId]), XerStream.adv_adv]
      rfl
    rw [xm_bind_none e2]
  rw [xm_bind_ok this]
  rfl

theorem nextEndElementIs_start {w tag tag' l : List Byte} {s : XerStream} (hs : XInput s) (hw : IsSpaces w) (ht : GoodTag tag)
    (hl : OpensWith tag l) (hu : s.unread = w ++ l) : nextEndElementIs tag' s = .ok (some false, s) := by
  obtain ⟨r, rfl, hr, hr'⟩ := hl.split
  have hu2 : (s.adv (w.length + 1)).unread = [] ++ (tag ++ r) := by
    rw [XerStream.adv_unread, hu, List.drop_append]; simp
  have hs2 : XInput (s.adv (w.length + 1)) := hs.adv (by rw [hu]; simp)
  unfold nextEndElementIs
  have : peekFlag (do expect 0x3C#8; expect 0x2F#8; expectTag tag'; expect 0x3E#8) s = .ok (some none, s) := by
    refine peekFlag_none (n := w.length + 1 + tag.length) ?_
    rw [xm_bind_ok (expect_run hs hw (by decide) ht.noMarkup hu)]
    have e2 : expect 0x2F#8 (s.adv (w.length + 1)) = .ok (none, s.adv (w.length + 1 + tag.length)) := by
      unfold expect
      rw [xm_bind_ok (nt_word hs2 isSpaces_nil ht hr hu2), if_neg (by simp [wordId]), XerStream.adv_adv]
      simp; rfl
    rw [xm_bind_none e2]
  rw [xm_bind_ok this]
  rfl

theorem nextEndElementIs_end {w tag r : List Byte} {s : XerStream} (hs : XInput s) (hw : IsSpaces w) (ht : GoodTag tag)
    (hu : s.unread = w ++ (endTag tag ++ r)) : nextEndElementIs tag s = .ok (some true, s) := by
  unfold nextEndElementIs
  have : peekFlag (do expect 0x3C#8; expect 0x2F#8; expectTag tag; expect 0x3E#8) s = .ok (some (some ()), s) := by
    obtain ⟨e, hu2, hs2⟩ := close_run (r := 0x3E#8 :: r) hs hw ht noNameFirst_gt (by rw [hu, endTag_eq]; simp) (fun _ => expect 0x3E#8)
    refine peekFlag_some (n := w.length + 2 + tag.length + 1) (e.trans ?_)
    rw [expect_run (w := []) hs2 isSpaces_nil (by decide) (noMarkup_of_ne (by decide)) hu2, XerStream.adv_adv]
    rfl
  rw [xm_bind_ok this]
  rfl

/-! ## The other values -/

theorem XReads.look {β : Type} {g : List Byte → XM β} {b : β} {tag l : List Byte} (ht : GoodTag tag) (ho : OpensWith tag l)
    (hg : XReads (g tag) b l) : XReads (laNextElementTag >>= g) b l := by
  intro s w r hs hw hu
  rw [xm_bind_ok (laNextElementTag_run hs hw ht (ho.append (m := r)) (by rw [hu]; simp))]
  exact hg s w r hs hw hu

theorem openTag_reads {tag : List Byte} (ht : GoodTag tag) : XReads (openTag tag) () (startTag tag) := by
  unfold openTag
  rw [cstr_eq_self ht.noNul, if_pos (List.length_pos_iff.mpr ht.1)]
  exact (decodeElementStart_reads ht).map rfl

theorem closeTag_reads {tag : List Byte} (ht : GoodTag tag) : XReads (closeTag tag) () (endTag tag) := by
  unfold closeTag
  rw [cstr_eq_self ht.noNul, if_pos (List.length_pos_iff.mpr ht.1)]
  exact decodeElementEnd_reads ht

theorem emptyTag_ne_nil (tag : List Byte) : emptyTag tag ≠ [] := by rw [emptyTag_eq]; simp

theorem element_emptyTag (tag t : List Byte) : element tag (emptyTag t) = startTag tag ++ emptyTag t ++ endTag tag := by
  unfold element; rw [if_neg (emptyTag_ne_nil t)]

theorem opensWith_emptyTag (t : List Byte) : OpensWith t (emptyTag t) := ⟨[], .inr (by simp)⟩

theorem emptyTag_reads {t : List Byte} (ht : GoodTag t) : XReads (primitiveText t 256) [] (emptyTag t) :=
  primitiveText_reads (c := []) ht plainText_nil (by decide)

theorem boolWord_good (v : Bool) : GoodTag (boolWord v) := by
  unfold GoodTag IsNameChar boolWord text; cases v <;> decide

/-- The text around a word: without a tag the word alone. -/
def tagged (tag c : List Byte) : List Byte := if tag = [] then c else startTag tag ++ c ++ endTag tag

theorem tagged_reads {α : Type} {f : XM α} {a : α} {tag c : List Byte} (ht : tag = [] ∨ GoodTag tag) (hf : XReads f a c) :
    XReads (do openTag tag; let v ← f; closeTag tag; Pure.pure v) a (tagged tag c) := by
  unfold tagged
  rcases ht with rfl | ht
  · rw [if_pos rfl]
    have e1 : openTag [] = Pure.pure () := rfl
    have e2 : closeTag [] = Pure.pure () := rfl
    rw [e1, e2, pure_bind]
    exact hf.map rfl
  · rw [if_neg ht.1]
    exact (openTag_reads ht).bind' (hf.bind ((closeTag_reads ht).map (b := a) rfl)) (by simp)

/-- The inner part of `xerDecodeBoolean`. -/
def boolBody : XM Bool := do
  let t ← laNextElementTag
  if t = txtTrue then do
    let _ ← primitiveText txtTrue 256
    Pure.pure true
  else do
    let _ ← primitiveText txtFalse 256
    Pure.pure false

theorem boolBody_reads (v : Bool) : XReads boolBody v (emptyTag (boolWord v)) := by
  refine XReads.look (boolWord_good v) (opensWith_emptyTag _) ?_
  have e1 : txtTrue = boolWord true := rfl
  have e2 : txtFalse = boolWord false := rfl
  rw [e1, e2]
  cases v
  · rw [if_neg (by decide)]
    exact XReads.map (emptyTag_reads (boolWord_good false)) rfl
  · rw [if_pos rfl]
    exact XReads.map (emptyTag_reads (boolWord_good true)) rfl

theorem xerDecodeBoolean_reads {tag : List Byte} {v : Bool} (ht : tag = [] ∨ GoodTag tag) :
    XReads (xerDecodeBoolean tag) v (tagged tag (emptyTag (boolWord v))) := by
  have e : xerDecodeBoolean tag = (do openTag tag; let v ← boolBody; closeTag tag; Pure.pure v) := by
    unfold xerDecodeBoolean boolBody
    congr 1; funext _
    rw [bind_assoc]
    congr 1; funext t
    by_cases h : t = txtTrue
    · rw [if_pos h, if_pos h, bind_assoc]; simp only [pure_bind]
    · rw [if_neg h, if_neg h, bind_assoc]; simp only [pure_bind]
  rw [e]
  exact tagged_reads ht (boolBody_reads v)

/-- The inner part of `xerDecodeEnumerated`. -/
def enumBody : XM (List Byte) := do
  let t ← laNextElementTag
  let _ ← primitiveText t 256
  Pure.pure t

theorem xerDecodeEnumerated_reads {tag value : List Byte} (ht : tag = [] ∨ GoodTag tag) (hv : GoodTag value) :
    XReads (xerDecodeEnumerated tag) value (tagged tag (emptyTag value)) := by
  have hf : XReads enumBody value (emptyTag value) :=
    XReads.look hv (opensWith_emptyTag _) ((emptyTag_reads hv).map rfl)
  have e : xerDecodeEnumerated tag = (do openTag tag; let v ← enumBody; closeTag tag; Pure.pure v) := by
    unfold xerDecodeEnumerated enumBody
    simp only [bind_assoc, pure_bind]
  rw [e]
  exact tagged_reads ht hf

theorem xerDecodeString_reads {tag c arr : List Byte} {n : Nat} (ht : GoodTag tag) (hc : PlainText c) (hl : c.length < n) (ha : n ≤ arr.length) :
    XReads (xerDecodeString tag arr n) (stored arr c) (element tag c) :=
  decodePrimitiveElement_reads' ht (fun b hb => (hc b hb).1) hl ha

/-! ### Octets -/

theorem hexText_cons (b : Byte) (l : List Byte) : hexText (b :: l) = hexUpper (b.toNat / 16) :: hexUpper (b.toNat % 16) :: hexText l := rfl

theorem hexUpper_props : ∀ n, n < 16 → isSpaceC (hexUpper n) = false ∧ charToNibble (hexUpper n) = some (BitVec.ofNat 8 n) := by decide

theorem hexText_plain (l : List Byte) : PlainText (hexText l) := by
  intro b hb
  unfold hexText at hb
  obtain ⟨x, _, hx⟩ := List.mem_flatMap.mp hb
  have hlt := x.isLt
  rcases List.mem_cons.mp hx with rfl | hx
  · exact (hexUpper_ne _ (by omega)).symm
  · rw [List.mem_singleton] at hx; subst hx
    exact (hexUpper_ne _ (by omega)).symm

theorem hexText_strip (l : List Byte) : stripSpaces (hexText l) = hexText l := by
  unfold stripSpaces
  rw [List.filter_eq_self]
  intro b hb
  unfold hexText at hb
  obtain ⟨x, _, hx⟩ := List.mem_flatMap.mp hb
  have hlt := x.isLt
  rcases List.mem_cons.mp hx with rfl | hx
  · rw [(hexUpper_props _ (by omega)).1]; rfl
  · rw [List.mem_singleton] at hx; subst hx
    rw [(hexUpper_props _ (by omega)).1]; rfl

theorem hexText_length (l : List Byte) : (hexText l).length = 2 * l.length := by
  induction l with
  | nil => rfl
  | cons b l ih => rw [hexText_cons]; simp [ih]; omega

theorem nibble_join : ∀ b : Byte, (BitVec.ofNat 8 (b.toNat / 16) <<< 4) ||| BitVec.ofNat 8 (b.toNat % 16) = b := by decide

theorem nibbleLoop_run (m : Nat) : ∀ (l pre value : List Byte), pre.length + l.length ≤ m → m ≤ value.length →
    nibbleLoop m (hexText l) (2 * pre.length) (pre ++ value.drop pre.length) = Pure.pure (pre ++ l ++ value.drop (pre.length + l.length))
  | [], pre, value, _, _ => by simp [hexText, nibbleLoop]
  | b :: l, pre, value, h1, h2 => by
    have hlt := b.isLt
    simp only [List.length_cons] at h1
    rw [hexText_cons]
    unfold nibbleLoop
    rw [if_pos (by omega), (hexUpper_props _ (by omega)).2]
    dsimp only
    rw [if_pos (by omega)]
    have e1 : 2 * pre.length / 2 = pre.length := by omega
    have ed : value.drop pre.length = value[pre.length] :: value.drop (pre.length + 1) := List.drop_eq_getElem_cons (by omega)
    have e2 : xArrSet (pre ++ value.drop pre.length) (2 * pre.length / 2) (BitVec.ofNat 8 (b.toNat / 16) <<< 4) =
        Pure.pure (pre ++ (BitVec.ofNat 8 (b.toNat / 16) <<< 4) :: value.drop (pre.length + 1)) := by
      unfold xArrSet
      rw [e1, if_pos (by simp; omega), ed, List.set_append_right _ _ (Nat.le_refl _), Nat.sub_self, List.set_cons_zero]
    rw [e2, pure_bind]
    unfold nibbleLoop
    rw [if_pos (by omega), (hexUpper_props _ (by omega)).2]
    dsimp only
    rw [if_neg (by omega)]
    have e3 : (2 * pre.length + 1) / 2 = pre.length := by omega
    have e4 : xArrGet (pre ++ (BitVec.ofNat 8 (b.toNat / 16) <<< 4) :: value.drop (pre.length + 1)) ((2 * pre.length + 1) / 2) =
        Pure.pure (BitVec.ofNat 8 (b.toNat / 16) <<< 4) := by
      unfold xArrGet
      rw [e3]; simp
    have e5 : xArrSet (pre ++ (BitVec.ofNat 8 (b.toNat / 16) <<< 4) :: value.drop (pre.length + 1)) ((2 * pre.length + 1) / 2)
        ((BitVec.ofNat 8 (b.toNat / 16) <<< 4) ||| BitVec.ofNat 8 (b.toNat % 16)) = Pure.pure (pre ++ b :: value.drop (pre.length + 1)) := by
      unfold xArrSet
      rw [e3, if_pos (by simp), nibble_join]; simp
    rw [e4, pure_bind, e5, pure_bind]
    have ih := nibbleLoop_run m l (pre ++ [b]) value (by simp; omega) h2
    have e6 : 2 * (pre ++ [b]).length = 2 * pre.length + 1 + 1 := by simp; omega
    rw [e6] at ih
    simp only [List.append_assoc, List.singleton_append, List.length_append, List.length_cons, List.length_nil, Nat.zero_add] at ih
    rw [ih]
    simp only [List.append_assoc, List.cons_append, List.length_cons]
    rw [Nat.add_assoc, Nat.add_comm 1]

theorem xerDecodeOctetString_reads {tag c value : List Byte} {m : Nat} (ht : GoodTag tag) (hc : c.length ≤ m) (hm : m ≤ value.length)
    (h511 : c.length ≤ 511) :
    XReads (xerDecodeOctetString tag value m) (c ++ value.drop c.length, c.length) (wrapped tag (hexText c)) := by
  unfold xerDecodeOctetString wrapped
  rw [if_neg ht.1]
  refine (primitiveText_reads' ht (hexText_plain c) (by rw [hexText_length]; omega)).map ?_
  dsimp only
  rw [hexText_strip]
  have := nibbleLoop_run m c [] value (by simpa using hc) hm
  simp only [List.length_nil, Nat.mul_zero, List.nil_append, List.drop_zero, Nat.zero_add] at this
  rw [this, pure_bind, hexText_length]
  have e : 2 * c.length / 2 + 2 * c.length % 2 = c.length := by omega
  rw [e]

/-! ### Bits -/

theorem bitText_plain (l : List Bool) : PlainText (bitText l) := by
  intro b hb
  obtain ⟨x, _, rfl⟩ := List.mem_map.mp hb
  cases x <;> decide

theorem bitText_strip (l : List Bool) : stripSpaces (bitText l) = bitText l := by
  unfold stripSpaces
  rw [List.filter_eq_self]
  intro b hb
  obtain ⟨x, _, rfl⟩ := List.mem_map.mp hb
  cases x <;> decide

theorem bitText_length (l : List Bool) : (bitText l).length = l.length := by simp [bitText]

theorem bitChar_msb : ∀ (x : Bool) (r q : Fin 8),
    ((((if x then 0x31#8 else 0x30#8) - 0x30#8 : Byte) <<< (7 - r.val)) : Byte).getMsbD q.val = (x && decide (q = r)) := by decide

theorem bitsLoop_run (m : Nat) : ∀ (l : List Bool) (i : Nat) (v : List Byte), i + l.length ≤ 8 * m → i + l.length ≤ 8 * v.length →
    ∃ v', bitsLoop m (bitText l) i v = Pure.pure v' ∧ v'.length = v.length ∧
      ∀ j, bitAt v' j = (bitAt v j || (decide (i ≤ j) && l.getD (j - i) false))
  | [], i, v, _, _ => ⟨v, rfl, rfl, fun j => by simp⟩
  | x :: l, i, v, h1, h2 => by
    simp only [List.length_cons] at h1 h2
    have hlt : i / 8 < v.length := by omega
    have hb : v[i / 8]? = some v[i / 8] := List.getElem?_eq_getElem hlt
    have e1 : xArrGet v (i / 8) = Pure.pure v[i / 8] := by unfold xArrGet; rw [hb]
    let y : Byte := v[i / 8] ||| (((if x then 0x31#8 else 0x30#8) - 0x30#8) <<< (7 - i % 8))
    have e2 : xArrSet v (i / 8) (v[i / 8] ||| (((if x then 0x31#8 else 0x30#8) - 0x30#8) <<< (7 - i % 8))) = Pure.pure (v.set (i / 8) y) := by
      unfold xArrSet; rw [if_pos hlt]
    obtain ⟨v', e3, h3, h4⟩ := bitsLoop_run m l (i + 1) (v.set (i / 8) y) (by omega) (by simp; omega)
    refine ⟨v', ?_, by rw [h3]; simp, fun j => ?_⟩
    · show bitsLoop m ((if x then 0x31#8 else 0x30#8) :: bitText l) i v = _
      unfold bitsLoop
      rw [if_pos (by omega), e1, pure_bind, e2, pure_bind, e3]
    · rw [h4]
      have e5 : bitAt (v.set (i / 8) y) j = (bitAt v j || (x && decide (j = i))) := by
        unfold bitAt
        by_cases hj : j / 8 = i / 8
        · rw [hj, List.getD_eq_getElem?_getD, List.getElem?_set_self hlt, List.getD_eq_getElem?_getD, hb]
          simp only [Option.getD_some, y, BitVec.getMsbD_or]
          have := bitChar_msb x ⟨i % 8, by omega⟩ ⟨j % 8, by omega⟩
          simp only at this
          rw [this]
          congr 2
          rw [decide_eq_decide, Fin.mk.injEq]
          omega
        · rw [List.getD_eq_getElem?_getD, List.getElem?_set_ne (by omega), List.getD_eq_getElem?_getD]
          have : ¬ j = i := fun e => hj (by rw [e])
          simp [this]
      rw [e5]
      by_cases hij : j = i
      · subst hij
        have : ¬ j + 1 ≤ j := by omega
        simp [this]
      · by_cases hle : i + 1 ≤ j
        · have e6 : j - i = j - (i + 1) + 1 := by omega
          rw [e6, List.getD_cons_succ]
          simp [hij, hle, Nat.le_of_succ_le hle]
        · have : ¬ i ≤ j := by omega
          simp [hij, hle, this]

theorem eq_of_bitAt {a b : List Byte} (hl : a.length = b.length) (h : ∀ j, bitAt a j = bitAt b j) : a = b := by
  apply bytesBits_inj
  apply List.ext_getElem (by simp [hl])
  intro i h1 h2
  have e1 := bytesBits_getD a i
  have e2 := bytesBits_getD b i
  rw [List.getElem?_eq_getElem h1] at e1
  rw [List.getElem?_eq_getElem h2] at e2
  simp only [Option.getD_some] at e1 e2
  rw [e1, e2, h]

theorem bitAt_append_left {a b : List Byte} {j : Nat} (h : j < 8 * a.length) : bitAt (a ++ b) j = bitAt a j := by
  unfold bitAt
  rw [List.getD_eq_getElem?_getD, List.getElem?_append_left (by omega), List.getD_eq_getElem?_getD]

theorem bitAt_append_right {a b : List Byte} {j : Nat} (h : 8 * a.length ≤ j) : bitAt (a ++ b) j = bitAt b (j - 8 * a.length) := by
  unfold bitAt
  rw [List.getD_eq_getElem?_getD, List.getElem?_append_right (by omega), List.getD_eq_getElem?_getD]
  have e1 : j / 8 - a.length = (j - 8 * a.length) / 8 := by omega
  have e2 : (j - 8 * a.length) % 8 = j % 8 := by omega
  rw [e1, e2]

theorem bitAt_zeros (k j : Nat) : bitAt (List.replicate k 0#8) j = false := by
  unfold bitAt
  rw [List.getD_eq_getElem?_getD, List.getElem?_replicate]
  split <;> simp

theorem xerDecodeBitString_reads {tag value p : List Byte} {c : List Bool} {m : Nat} (ht : GoodTag tag) (hp : Packed c p)
    (hc : p.length ≤ m) (hm : p.length ≤ value.length) (h2047 : c.length ≤ 2047) :
    XReads (xerDecodeBitString tag value m) (p ++ value.drop p.length, c.length) (wrapped tag (bitText c)) := by
  unfold xerDecodeBitString wrapped
  rw [if_neg ht.1]
  obtain ⟨hpl, hpb⟩ := hp
  refine (primitiveText_reads' ht (bitText_plain c) (by rw [bitText_length]; omega)).map ?_
  dsimp only
  rw [bitText_strip, bitText_length, ← hpl, if_neg (by omega)]
  obtain ⟨v', e, hl, hb⟩ := bitsLoop_run m c 0 (List.replicate p.length 0#8 ++ value.drop p.length) (by omega) (by simp; omega)
  rw [e, pure_bind]
  have : v' = p ++ value.drop p.length := by
    refine eq_of_bitAt (by rw [hl]; simp) fun j => ?_
    rw [hb]
    by_cases hj : j < 8 * p.length
    · rw [bitAt_append_left (by simpa using hj), bitAt_append_left hj, bitAt_zeros, ← bytesBits_getD p, hpb]
      simp only [Bool.false_or, Nat.zero_le, decide_true, Bool.true_and, Nat.sub_zero]
      rw [List.getD_eq_getElem?_getD, List.getElem?_append]
      split
      · rfl
      · rename_i h
        rw [List.getElem?_eq_none (by omega), List.getElem?_replicate]
        split <;> rfl
    · rw [bitAt_append_right (by simp; omega), bitAt_append_right (by omega)]
      simp only [List.length_replicate, Nat.zero_le, decide_true, Bool.true_and, Nat.sub_zero]
      rw [List.getD_eq_getElem?_getD, List.getElem?_eq_none (by omega)]
      simp
  rw [this]

/-! ## Contents that are too long -/

theorem contentLoop_long {maxLen : Nat} : ∀ (c r : List Byte) (n k : Nat) (arr : List Byte) (s : XerStream), XInput s →
    (∀ b ∈ c, b ≠ 0x3C#8) → s.unread = c ++ r → maxLen ≤ k + c.length → k < maxLen → maxLen ≤ arr.length →
    ∃ s', contentLoop maxLen n k arr s = .ok (none, s') := by
  intro c
  induction c with
  | nil => intro r n k arr s _ _ _ h1 h2; simp only [List.length_nil] at h1; omega
  | cons b c ih =>
    intro r n k arr s hs hc hu hk hk2 ha
    cases n with
    | zero => exact ⟨s, rfl⟩
    | succ n =>
      unfold contentLoop getNextChar
      have h0 := hs.get0 (b := b) (by rw [hu]; rfl)
      simp only [List.length_cons] at hk
      simp only [bind_assoc]
      rw [xGet_bind, if_neg (by omega)]
      simp only [bind_assoc]
      rw [xAt_bind h0.2, xSetPos_bind, pure_bind, if_neg (by simpa using hc b (by simp))]
      by_cases h : k ≥ maxLen - 1
      · rw [if_pos h]; exact ⟨_, rfl⟩
      · rw [if_neg h]
        unfold xArrSet
        rw [if_pos (by omega), pure_bind]
        exact ih r n (k + 1) (arr.set k b) (s.adv 1) (hs.adv (by rw [hu]; simp)) (fun x hx => hc x (by simp [hx]))
          (by rw [XerStream.adv_unread, hu]; simp) (by omega) (by omega) (by simpa using ha)

theorem decodePrimitiveElement_long {w tag c r arr : List Byte} {maxLen : Nat} {s : XerStream} (hs : XInput s) (hw : IsSpaces w)
    (ht : GoodTag tag) (hc : ∀ b ∈ c, b ≠ 0x3C#8) (h0 : 0 < maxLen) (hl : maxLen ≤ c.length) (ha : maxLen ≤ arr.length)
    (hu : s.unread = w ++ (startTag tag ++ c) ++ r) : ∃ s', decodePrimitiveElement tag arr maxLen s = .ok (none, s') := by
  unfold decodePrimitiveElement
  have e0 : xArrSet arr 0 0#8 = Pure.pure (arr.set 0 0#8) := by unfold xArrSet; rw [if_pos (by omega)]
  rw [e0, pure_bind]
  obtain ⟨e, hu2, hs2⟩ := open_run (r := 0x3E#8 :: (c ++ r)) hs hw ht noNameFirst_gt
    (by rw [hu, startTag_eq]; simp) (fun _ => do
    let t ← nt
    if t.id = 0x2F then do
      expect 0x3E#8
      Pure.pure (arr.set 0 0#8)
    else if t.id ≠ 0x3E then xFail
    else do
      let s ← xGet
      let arr ← contentLoop maxLen (s.count - s.currentByte + 1) 0 (arr.set 0 0#8)
      pushBackChar
      expect 0x3C#8
      expect 0x2F#8
      expectTag tag
      expect 0x3E#8
      Pure.pure arr)
  suffices h : ∃ s', _ = Res.ok (none, s') from h.imp fun s' h => e.trans h
  rw [xm_bind_ok (nt_special (w := []) hs2 isSpaces_nil (by decide) (noMarkup_of_ne (by decide)) hu2), if_neg (by decide),
    if_neg (by decide), XerStream.adv_adv, List.length_nil, Nat.zero_add, xGet_bind]
  have hu3 : (s.adv (w.length + 1 + tag.length + 1)).unread = c ++ r := by
    rw [← XerStream.adv_adv, XerStream.adv_unread, hu2]; simp
  have hs3 : XInput (s.adv (w.length + 1 + tag.length + 1)) := by
    rw [← XerStream.adv_adv]; exact hs2.adv (by rw [hu2]; simp)
  obtain ⟨s', e3⟩ := contentLoop_long (maxLen := maxLen) c r ((s.adv (w.length + 1 + tag.length + 1)).count -
    (s.adv (w.length + 1 + tag.length + 1)).currentByte + 1) 0 (arr.set 0 0#8) _ hs3 hc hu3 (by omega) h0 (by simpa using ha)
  exact ⟨s', xm_bind_none e3⟩

theorem xerDecodeOctetString_long {tag c value r : List Byte} {m : Nat} {s : XerStream} (hs : XInput s) (ht : GoodTag tag) (hc : 512 ≤ c.length)
    (hu : s.unread = wrapped tag (hexText c) ++ r) : ∃ s', xerDecodeOctetString tag value m s = .ok (none, s') := by
  unfold xerDecodeOctetString primitiveText
  rw [bind_assoc]
  unfold wrapped at hu
  rw [if_neg ht.1] at hu
  obtain ⟨s', e⟩ := decodePrimitiveElement_long (w := []) (r := endTag tag ++ r) (arr := List.replicate 1024 0#8) (maxLen := 1024) hs isSpaces_nil ht
    (fun b hb => (hexText_plain c b hb).1) (by decide) (by rw [hexText_length]; omega) (by rw [List.length_replicate]; exact Nat.le_refl _)
    (by rw [hu]; simp)
  exact ⟨s', xm_bind_none e⟩

end Asn1
