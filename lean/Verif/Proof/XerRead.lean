import Verif.Proof.Xer
/-!
# Lemmas about XER: reading
-/
namespace Asn1

/-- The stream `n` octets further. -/
def XerStream.adv (s : XerStream) (n : Nat) : XerStream := { s with currentByte := s.currentByte + n }

@[simp] theorem XerStream.adv_adv (s : XerStream) (m n : Nat) : (s.adv m).adv n = s.adv (m + n) := by
  unfold XerStream.adv; simp [Nat.add_assoc]

theorem XerStream.adv_zero (s : XerStream) : s.adv 0 = s := rfl

@[simp] theorem XerStream.adv_unread (s : XerStream) (n : Nat) : (s.adv n).unread = s.unread.drop n := by
  unfold XerStream.adv XerStream.unread; simp

@[simp] theorem XerStream.adv_count (s : XerStream) (n : Nat) : (s.adv n).count = s.count := rfl
@[simp] theorem XerStream.adv_buf (s : XerStream) (n : Nat) : (s.adv n).buf = s.buf := rfl
@[simp] theorem XerStream.adv_white (s : XerStream) (n : Nat) : (s.adv n).white = s.white := rfl
@[simp] theorem XerStream.adv_pos (s : XerStream) (n : Nat) : (s.adv n).currentByte = s.currentByte + n := rfl

theorem XInput.len {s : XerStream} (h : XInput s) : s.unread.length = s.count - s.currentByte := by
  have := h.fits
  unfold XerStream.unread; simp; omega

theorem XInput.adv {s : XerStream} (h : XInput s) {n : Nat} (hn : n ≤ s.unread.length) : XInput (s.adv n) := by
  have := h.len
  have := h.pos
  exact ⟨h.fits, by show s.currentByte + n ≤ s.count; omega⟩

theorem XInput.get {s : XerStream} (_h : XInput s) {i : Nat} {b : Byte} (hb : s.unread[i]? = some b) :
    s.currentByte + i < s.count ∧ s.buf[s.currentByte + i]? = some b := by
  unfold XerStream.unread at hb
  rw [List.getElem?_drop, List.getElem?_take] at hb
  split at hb
  · exact ⟨by assumption, hb⟩
  · cases hb

theorem XInput.get0 {s : XerStream} (h : XInput s) {b : Byte} (hb : s.unread[0]? = some b) :
    s.currentByte < s.count ∧ s.buf[s.currentByte]? = some b := h.get (i := 0) hb

theorem XInput.none {s : XerStream} (h : XInput s) {i : Nat} (hb : s.unread[i]? = none) : s.count ≤ s.currentByte + i := by
  have := h.len
  rw [List.getElem?_eq_none_iff] at hb
  omega

theorem isSpaceC_iff {b : Byte} : isSpaceC b = true ↔ b = 0x20#8 ∨ 9 ≤ b.toNat ∧ b.toNat ≤ 13 := by
  unfold isSpaceC; simp

/-- The first character of a text, if any, is not white space. -/
def NoSpaceFirst (l : List Byte) : Prop := ∀ b, l.head? = some b → isSpaceC b = false

theorem skipSpaceLoop_run : ∀ (w r : List Byte) (s : XerStream) (n : Nat), XInput s → IsSpaces w → NoSpaceFirst r →
    s.unread = w ++ r → w.length ≤ n → skipSpaceLoop n s = .ok (some (), s.adv w.length) := by
  intro w
  induction w with
  | nil =>
    intro r s n hs _ hr hu _
    cases n with
    | zero => rfl
    | succ n =>
      unfold skipSpaceLoop
      rw [xGet_bind]
      cases r with
      | nil =>
        have := hs.none (i := 0) (by rw [hu]; rfl)
        rw [if_neg (by omega)]; rfl
      | cons c r =>
        have hc := hs.get0 (b := c) (by rw [hu]; rfl)
        rw [if_pos (by omega), xAt_bind hc.2, hr c rfl]
        rfl
  | cons c w ih =>
    intro r s n hs hw hr hu hn
    cases n with
    | zero => simp at hn
    | succ n =>
      unfold skipSpaceLoop
      rw [xGet_bind]
      have hc := hs.get0 (b := c) (by rw [hu]; rfl)
      rw [if_pos (by omega), xAt_bind hc.2, if_pos (isSpaceC_iff.mpr (hw c (by simp))), xSetPos_bind]
      have := ih r (s.adv 1) n (hs.adv (by rw [hu]; simp)) (fun b hb => hw b (by simp [hb])) hr (by rw [XerStream.adv_unread, hu]; rfl)
        (by simpa using hn)
      rw [XerStream.adv_adv] at this
      show skipSpaceLoop n (s.adv 1) = _
      rw [this, List.length_cons, Nat.add_comm]

theorem skipSpace_run {w r : List Byte} {s : XerStream} (hs : XInput s) (hw : IsSpaces w) (hr : NoSpaceFirst r)
    (hu : s.unread = w ++ r) : skipSpace s = .ok (some (), s.adv w.length) := by
  unfold skipSpace
  rw [xGet_bind]
  refine skipSpaceLoop_run w r s _ hs hw hr hu ?_
  have := hs.len
  rw [hu, List.length_append] at this
  omega

/-- The text does not begin with `<?` or `<!`. -/
def NoMarkup (l : List Byte) : Prop := l.head? = some 0x3C#8 → ∀ d, l[1]? = some d → d ≠ 0x3F#8 ∧ d ≠ 0x21#8

theorem ntHeader_run {s : XerStream} (hs : XInput s) (h : NoMarkup s.unread) : ntHeader s = .ok (some (), s) := by
  unfold ntHeader
  rw [xGet_bind]
  by_cases hc : s.currentByte + 1 < s.count
  · rw [if_pos hc]
    have hl := hs.len
    obtain ⟨a, ha⟩ : ∃ a, s.unread[0]? = some a := ⟨_, List.getElem?_eq_getElem (by omega)⟩
    obtain ⟨b, hb⟩ : ∃ a, s.unread[1]? = some a := ⟨_, List.getElem?_eq_getElem (by omega)⟩
    rw [xAt_bind (hs.get0 ha).2, xAt_bind (hs.get hb).2, if_neg ?_]
    · rfl
    · simp only [Bool.and_eq_true, beq_iff_eq, not_and]
      intro e
      rw [e, ← List.head?_eq_getElem?] at ha
      exact (h ha b hb).1
  · rw [if_neg hc]; rfl

theorem ntComment_run {s : XerStream} (hs : XInput s) (h : NoMarkup s.unread) : ntComment s = .ok (some (), s) := by
  unfold ntComment
  rw [xGet_bind]
  by_cases hc : s.currentByte + 3 < s.count
  · rw [if_pos hc]
    have hl := hs.len
    obtain ⟨a, ha⟩ : ∃ a, s.unread[0]? = some a := ⟨_, List.getElem?_eq_getElem (by omega)⟩
    obtain ⟨b, hb⟩ : ∃ a, s.unread[1]? = some a := ⟨_, List.getElem?_eq_getElem (by omega)⟩
    obtain ⟨c, hc⟩ : ∃ a, s.unread[2]? = some a := ⟨_, List.getElem?_eq_getElem (by omega)⟩
    obtain ⟨d, hd⟩ : ∃ a, s.unread[3]? = some a := ⟨_, List.getElem?_eq_getElem (by omega)⟩
    rw [xAt_bind (hs.get0 ha).2, xAt_bind (hs.get hb).2, xAt_bind (hs.get hc).2, xAt_bind (hs.get hd).2, if_neg ?_]
    · rfl
    · simp only [Bool.and_eq_true, beq_iff_eq, not_and, and_imp]
      intro e e2
      rw [e, ← List.head?_eq_getElem?] at ha
      exact absurd e2 (h ha b hb).2
  · rw [if_neg hc]; rfl

theorem nt_run {w r : List Byte} {s : XerStream} (hs : XInput s) (hw : IsSpaces w) (hr : NoSpaceFirst r) (hm : NoMarkup r)
    (hu : s.unread = w ++ r) (hne : r ≠ []) : nt s = ntToken (s.adv w.length) := by
  have hs' : XInput (s.adv w.length) := hs.adv (by rw [hu]; simp)
  have hu' : (s.adv w.length).unread = r := by rw [XerStream.adv_unread, hu]; simp
  have hl := hs'.len
  have h0 : 0 < r.length := by cases r with
    | nil => exact absurd rfl hne
    | cons => simp
  rw [hu'] at hl
  unfold nt
  rw [xm_bind_ok (skipSpace_run hs hw hr hu), xGet_bind, if_neg (by omega), xm_bind_ok (ntHeader_run hs' (by rw [hu']; exact hm)),
    xGet_bind, if_neg (by omega), xm_bind_ok (ntComment_run hs' (by rw [hu']; exact hm))]

theorem isSpecial_not_space {c : Byte} (h : isSpecial c = true) : isSpaceC c = false := by
  revert h; unfold isSpecial isSpaceC; revert c; decide

theorem isPartOfID_iff {b : Byte} : isPartOfID b = true ↔ IsNameChar b := by
  unfold isPartOfID IsNameChar isAlphaC isDigitC text
  simp
  grind

theorem isPartOfID_not_space {c : Byte} (h : isPartOfID c = true) : isSpaceC c = false := by
  revert h; unfold isPartOfID isAlphaC isDigitC isSpaceC; revert c; decide

theorem isPartOfID_not_special {c : Byte} (h : isPartOfID c = true) : isSpecial c = false := by
  revert h; unfold isPartOfID isAlphaC isDigitC isSpecial; revert c; decide

theorem ntToken_special {c : Byte} {r : List Byte} {s : XerStream} (hs : XInput s) (hc : isSpecial c = true) (hu : s.unread = c :: r) :
    ntToken s = .ok (some ⟨c.toNat, cstr [c]⟩, s.adv 1) := by
  have h0 := hs.get0 (b := c) (by rw [hu]; rfl)
  unfold ntToken
  rw [xGet_bind, if_neg (by omega), xAt_bind h0.2, if_pos hc]
  rfl

theorem nt_special {c : Byte} {w r : List Byte} {s : XerStream} (hs : XInput s) (hw : IsSpaces w) (hc : isSpecial c = true)
    (hm : NoMarkup (c :: r)) (hu : s.unread = w ++ c :: r) : nt s = .ok (some ⟨c.toNat, cstr [c]⟩, s.adv (w.length + 1)) := by
  have hs' : XInput (s.adv w.length) := hs.adv (by rw [hu]; simp)
  have hu' : (s.adv w.length).unread = c :: r := by rw [XerStream.adv_unread, hu]; simp
  rw [nt_run hs hw (r := c :: r) (by intro b hb; simp at hb; rw [← hb]; exact isSpecial_not_space hc) hm hu (by simp),
    ntToken_special hs' hc hu', XerStream.adv_adv]

/-- The first character of a text, if any, does not continue a name. -/
def NoNameFirst (l : List Byte) : Prop := ∀ b, l.head? = some b → isPartOfID b = false

theorem wordLoop_run : ∀ (t r v : List Byte) (s : XerStream) (n : Nat), XInput s → (∀ b ∈ t, isPartOfID b = true) → NoNameFirst r →
    s.unread = t ++ r → t.length ≤ n → (v ++ t).length ≤ 99 → v ++ t ≠ [] →
    wordLoop n v s = .ok (some ⟨wordId, v ++ t⟩, s.adv t.length) := by
  intro t
  induction t with
  | nil =>
    intro r v s n hs _ hr hu _ _ hne
    have hv : ¬ v.length = 0 := by simpa using hne
    cases n with
    | zero => unfold wordLoop; rw [if_neg hv]; simp; rfl
    | succ n =>
      unfold wordLoop
      rw [xGet_bind, if_neg hv, List.append_nil]
      cases r with
      | nil =>
        have := hs.none (i := 0) (by rw [hu]; rfl)
        rw [if_neg (by omega)]; rfl
      | cons c r =>
        have hc := hs.get0 (b := c) (by rw [hu]; rfl)
        rw [if_pos (by omega), xAt_bind hc.2, hr c rfl]
        rfl
  | cons c t ih =>
    intro r v s n hs ht hr hu hn hl hne
    cases n with
    | zero => simp at hn
    | succ n =>
      unfold wordLoop
      rw [xGet_bind]
      have hc := hs.get0 (b := c) (by rw [hu]; rfl)
      rw [if_pos (by omega), xAt_bind hc.2, if_pos (by rw [ht c (by simp)]; simp at hl ⊢; omega), xSetPos_bind]
      have := ih r (v ++ [c]) (s.adv 1) n (hs.adv (by rw [hu]; simp)) (fun b hb => ht b (by simp [hb])) hr (by rw [XerStream.adv_unread, hu]; rfl)
        (by simpa using hn) (by simpa using hl) (by simp)
      rw [XerStream.adv_adv] at this
      show wordLoop n (v ++ [c]) (s.adv 1) = _
      rw [this, List.length_cons, Nat.add_comm, List.append_assoc]; rfl

theorem nt_word {w t r : List Byte} {s : XerStream} (hs : XInput s) (hw : IsSpaces w) (ht : GoodTag t) (hr : NoNameFirst r)
    (hu : s.unread = w ++ (t ++ r)) : nt s = .ok (some ⟨wordId, t⟩, s.adv (w.length + t.length)) := by
  obtain ⟨h1, h2, h3⟩ := ht
  have h3 : ∀ b ∈ t, isPartOfID b = true := fun b hb => isPartOfID_iff.mpr (h3 b hb)
  have hs' : XInput (s.adv w.length) := hs.adv (by rw [hu]; simp)
  have hu' : (s.adv w.length).unread = t ++ r := by rw [XerStream.adv_unread, hu]; simp
  cases t with
  | nil => exact absurd rfl h1
  | cons c t =>
    have hc := h3 c (by simp)
    rw [nt_run hs hw (r := c :: t ++ r) (by intro b hb; simp at hb; rw [← hb]; exact isPartOfID_not_space hc)
      (by intro e; simp at e; subst e; exact absurd hc (by decide)) hu (by simp)]
    have h0 := hs'.get0 (b := c) (by rw [hu']; rfl)
    have hl := hs'.len
    rw [hu', List.length_append] at hl
    unfold ntToken
    rw [xGet_bind, if_neg (by omega), xAt_bind h0.2, if_neg (by rw [isPartOfID_not_special hc]; simp),
      wordLoop_run (c :: t) r [] _ _ hs' h3 hr hu' (by omega) h2 (by simp), XerStream.adv_adv]
    rfl

theorem expect_run {c : Byte} {w r : List Byte} {s : XerStream} (hs : XInput s) (hw : IsSpaces w) (hc : isSpecial c = true)
    (hm : NoMarkup (c :: r)) (hu : s.unread = w ++ c :: r) : expect c s = .ok (some (), s.adv (w.length + 1)) := by
  unfold expect
  rw [xm_bind_ok (nt_special hs hw hc hm hu), if_pos rfl]
  rfl

theorem isSpaces_nil : IsSpaces [] := fun b hb => by cases hb

theorem noMarkup_of_ne {c : Byte} {r : List Byte} (h : c ≠ 0x3C#8) : NoMarkup (c :: r) := by
  intro e; simp at e; exact absurd e h

theorem noMarkup_slash {r : List Byte} : NoMarkup (0x3C#8 :: 0x2F#8 :: r) := by
  intro _ d hd
  have : d = 0x2F#8 := by simpa using hd.symm
  subst this
  decide

theorem GoodTag.noMarkup {tag r : List Byte} (h : GoodTag tag) : NoMarkup (0x3C#8 :: (tag ++ r)) := by
  cases tag with
  | nil => exact absurd rfl h.1
  | cons c t =>
    intro _ d hd
    have : d = c := by simpa using hd.symm
    subst this
    have h2 := isPartOfID_iff.mpr (h.2.2 d (by simp))
    constructor <;> (rintro rfl; revert h2; decide)

theorem expectTag_run {w tag r : List Byte} {s : XerStream} (hs : XInput s) (hw : IsSpaces w) (ht : GoodTag tag) (hr : NoNameFirst r)
    (hu : s.unread = w ++ (tag ++ r)) : expectTag tag s = .ok (some (), s.adv (w.length + tag.length)) := by
  unfold expectTag
  rw [xm_bind_ok (nt_word hs hw ht hr hu), if_pos ⟨rfl, (cstr_eq_self ht.noNul).symm⟩]
  rfl

theorem noNameFirst_gt {r : List Byte} : NoNameFirst (0x3E#8 :: r) := by
  intro b hb; simp at hb; subst hb; decide

theorem noNameFirst_slash {r : List Byte} : NoNameFirst (0x2F#8 :: r) := by
  intro b hb; simp at hb; subst hb; decide

theorem startTag_eq (tag : List Byte) : startTag tag = 0x3C#8 :: (tag ++ [0x3E#8]) := rfl
theorem endTag_eq (tag : List Byte) : endTag tag = 0x3C#8 :: 0x2F#8 :: (tag ++ [0x3E#8]) := rfl
theorem emptyTag_eq (tag : List Byte) : emptyTag tag = 0x3C#8 :: (tag ++ [0x2F#8, 0x3E#8]) := rfl

/-- `<tag` and then a character that does not continue the name. -/
theorem open_run {β : Type} {w tag r : List Byte} {s : XerStream} (hs : XInput s) (hw : IsSpaces w) (ht : GoodTag tag) (hr : NoNameFirst r)
    (hu : s.unread = w ++ 0x3C#8 :: (tag ++ r)) (k : Unit → XM β) :
    (do expect 0x3C#8; let u ← expectTag tag; k u) s = k () (s.adv (w.length + 1 + tag.length)) ∧
      (s.adv (w.length + 1 + tag.length)).unread = r ∧ XInput (s.adv (w.length + 1 + tag.length)) := by
  have hu2 : (s.adv (w.length + 1)).unread = [] ++ (tag ++ r) := by
    rw [XerStream.adv_unread, hu, List.drop_append]; simp
  have hs2 : XInput (s.adv (w.length + 1)) := hs.adv (by rw [hu]; simp)
  refine ⟨?_, ?_, ?_⟩
  · rw [xm_bind_ok (expect_run hs hw (by decide) ht.noMarkup hu), xm_bind_ok (expectTag_run hs2 isSpaces_nil ht hr hu2)]
    simp
  · rw [← XerStream.adv_adv, XerStream.adv_unread, hu2]; simp
  · rw [← XerStream.adv_adv]; exact hs2.adv (by rw [hu2]; simp)

/-- `</tag` and then a character that does not continue the name. -/
theorem close_run {β : Type} {w tag r : List Byte} {s : XerStream} (hs : XInput s) (hw : IsSpaces w) (ht : GoodTag tag) (hr : NoNameFirst r)
    (hu : s.unread = w ++ 0x3C#8 :: 0x2F#8 :: (tag ++ r)) (k : Unit → XM β) :
    (do expect 0x3C#8; expect 0x2F#8; let u ← expectTag tag; k u) s = k () (s.adv (w.length + 2 + tag.length)) ∧
      (s.adv (w.length + 2 + tag.length)).unread = r ∧ XInput (s.adv (w.length + 2 + tag.length)) := by
  have hu1 : (s.adv (w.length + 1)).unread = [] ++ (0x2F#8 :: (tag ++ r)) := by
    rw [XerStream.adv_unread, hu, List.drop_append]; simp
  have hs1 : XInput (s.adv (w.length + 1)) := hs.adv (by rw [hu]; simp)
  have hu2 : (s.adv (w.length + 2)).unread = [] ++ (tag ++ r) := by
    rw [XerStream.adv_unread, hu, List.drop_append]; simp
  have hs2 : XInput (s.adv (w.length + 2)) := hs.adv (by rw [hu]; simp)
  refine ⟨?_, ?_, ?_⟩
  · rw [xm_bind_ok (expect_run hs hw (by decide) noMarkup_slash hu),
      xm_bind_ok (expect_run hs1 isSpaces_nil (by decide) (noMarkup_of_ne (by decide)) hu1)]
    simp only [XerStream.adv_adv, List.length_nil, Nat.zero_add]
    rw [xm_bind_ok (expectTag_run hs2 isSpaces_nil ht hr hu2)]
    simp
  · rw [← XerStream.adv_adv, XerStream.adv_unread, hu2]; simp
  · rw [← XerStream.adv_adv]; exact hs2.adv (by rw [hu2]; simp)

theorem la_gt {r : List Byte} {s : XerStream} (hs : XInput s) (hu : s.unread = 0x3E#8 :: r) :
    la s = .ok (some ⟨0x3E, [0x3E#8]⟩, s) := by
  unfold la
  rw [xGet_bind, xm_bind_ok (nt_special (w := []) hs isSpaces_nil (by decide) (noMarkup_of_ne (by decide)) hu)]
  rfl

theorem decodeElementStart_run {w tag r : List Byte} {s : XerStream} {attrs : Option XmlAttrs} (hs : XInput s) (hw : IsSpaces w) (ht : GoodTag tag)
    (hu : s.unread = w ++ startTag tag ++ r) :
    decodeElementStart tag attrs s = .ok (some attrs, s.adv (w.length + (startTag tag).length)) := by
  unfold decodeElementStart
  have h0 : 0 < tag.length := List.length_pos_iff.mpr ht.1
  rw [cstr_eq_self ht.noNul, if_neg (by omega)]
  obtain ⟨e, hu2, hs2⟩ := open_run (r := 0x3E#8 :: r) hs hw ht noNameFirst_gt (by rw [hu, startTag_eq]; simp) (fun _ => do
    let s ← xGet
    let attrs ← decodeAttributes (s.count - s.currentByte + 1) attrs
    let t ← nt
    if t.id = 0x2F then do
      expect 0x3E#8
      pure attrs
    else if t.id ≠ 0x3E then xFail
    else pure attrs)
  refine e.trans ?_
  rw [xGet_bind]
  have e3 : decodeAttributes ((s.adv (w.length + 1 + tag.length)).count - (s.adv (w.length + 1 + tag.length)).currentByte + 1) attrs
      (s.adv (w.length + 1 + tag.length)) = .ok (some attrs, s.adv (w.length + 1 + tag.length)) := by
    unfold decodeAttributes
    rw [xm_bind_ok (la_gt hs2 hu2), if_pos rfl]
    rfl
  rw [xm_bind_ok e3, xm_bind_ok (nt_special (w := []) hs2 isSpaces_nil (by decide) (noMarkup_of_ne (by decide)) hu2)]
  rw [if_neg (by decide), if_neg (by decide), XerStream.adv_adv]
  show Res.ok (some attrs, s.adv _) = _
  rw [startTag_eq]
  simp
  congr 1; omega

theorem decodeElementEnd_run {w tag r : List Byte} {s : XerStream} (hs : XInput s) (hw : IsSpaces w) (ht : GoodTag tag)
    (hu : s.unread = w ++ endTag tag ++ r) :
    decodeElementEnd tag s = .ok (some (), s.adv (w.length + (endTag tag).length)) := by
  unfold decodeElementEnd
  have h0 : 0 < tag.length := List.length_pos_iff.mpr ht.1
  rw [cstr_eq_self ht.noNul, if_neg (by omega)]
  obtain ⟨e, hu2, hs2⟩ := close_run (r := 0x3E#8 :: r) hs hw ht noNameFirst_gt (by rw [hu, endTag_eq]; simp) (fun _ => expect 0x3E#8)
  refine e.trans ?_
  rw [expect_run (w := []) hs2 isSpaces_nil (by decide) (noMarkup_of_ne (by decide)) hu2, XerStream.adv_adv, endTag_eq]
  simp
  congr 1; omega

theorem contentLoop_run {maxLen : Nat} : ∀ (c r : List Byte) (n k : Nat) (arr : List Byte) (s : XerStream), XInput s →
    (∀ b ∈ c, b ≠ 0x3C#8) → s.unread = c ++ 0x3C#8 :: r → k + c.length < maxLen → maxLen ≤ arr.length → c.length < n →
    contentLoop maxLen n k arr s = .ok (some (arr.take k ++ c ++ [0#8] ++ arr.drop (k + c.length + 1)), s.adv (c.length + 1)) := by
  intro c
  induction c with
  | nil =>
    intro r n k arr s hs _ hu hk ha hn
    cases n with
    | zero => simp at hn
    | succ n =>
      unfold contentLoop getNextChar
      have h0 := hs.get0 (b := 0x3C#8) (by rw [hu]; rfl)
      simp only [bind_assoc]
      rw [xGet_bind, if_neg (by omega)]
      simp only [bind_assoc]
      rw [xAt_bind h0.2, xSetPos_bind, pure_bind, if_pos (by decide)]
      unfold xArrSet
      simp only [List.length_nil, Nat.add_zero] at hk
      rw [if_pos (by omega), List.set_eq_take_append_cons_drop, if_pos (by omega)]
      show Res.ok _ = _
      simp [XerStream.adv]
  | cons b c ih =>
    intro r n k arr s hs hc hu hk ha hn
    cases n with
    | zero => simp at hn
    | succ n =>
      unfold contentLoop getNextChar
      have h0 := hs.get0 (b := b) (by rw [hu]; rfl)
      simp only [List.length_cons] at hk hn
      simp only [bind_assoc]
      rw [xGet_bind, if_neg (by omega)]
      simp only [bind_assoc]
      rw [xAt_bind h0.2, xSetPos_bind, pure_bind, if_neg (by simpa using hc b (by simp)), if_neg (by omega)]
      unfold xArrSet
      rw [if_pos (by omega), pure_bind]
      have := ih r n (k + 1) (arr.set k b) (s.adv 1) (hs.adv (by rw [hu]; simp)) (fun x hx => hc x (by simp [hx]))
        (by rw [XerStream.adv_unread, hu]; simp) (by omega) (by simpa using ha) (by omega)
      refine this.trans ?_
      rw [XerStream.adv_adv, List.length_cons, List.drop_set_of_lt (by omega)]
      have e : (arr.set k b).take (k + 1) = arr.take k ++ [b] := by
        rw [List.set_eq_take_append_cons_drop, if_pos (by omega)]
        have : (arr.take k).length = k := by simp; omega
        rw [List.take_append, List.take_of_length_le (by omega), this]
        simp
      rw [e]
      have e1 : k + 1 + c.length + 1 = k + (c.length + 1) + 1 := by omega
      have e2 : 1 + (c.length + 1) = c.length + 1 + 1 := by omega
      rw [e1, e2]
      simp

/-- The array after a string has been stored in it. -/
def stored (arr c : List Byte) : List Byte := c ++ [0#8] ++ arr.drop (c.length + 1)

theorem cstr_stored {arr c : List Byte} (h : NoNul c) : cstr (stored arr c) = c := by
  unfold stored cstr
  rw [List.append_assoc]
  have e : ∀ (c m : List Byte), NoNul c → (c ++ ([0#8] ++ m)).takeWhile (· != 0#8) = c := by
    intro c m hc
    induction c with
    | nil => rfl
    | cons a l ih =>
      rw [List.cons_append, List.takeWhile_cons_of_pos (by simpa using hc a (by simp)), ih fun b hb => hc b (by simp [hb])]
  exact e c _ h

/-- `<tag>contents</tag>`, with or without contents. -/
theorem decodePrimitiveElement_run {w tag c r arr : List Byte} {maxLen : Nat} {s : XerStream} (hs : XInput s) (hw : IsSpaces w)
    (ht : GoodTag tag) (hc : ∀ b ∈ c, b ≠ 0x3C#8) (hl : c.length < maxLen) (ha : maxLen ≤ arr.length)
    (hu : s.unread = w ++ (startTag tag ++ c ++ endTag tag) ++ r) :
    decodePrimitiveElement tag arr maxLen s =
      .ok (some (stored arr c), s.adv (w.length + (startTag tag ++ c ++ endTag tag).length)) := by
  unfold decodePrimitiveElement
  have e0 : xArrSet arr 0 0#8 = pure (arr.set 0 0#8) := by unfold xArrSet; rw [if_pos (by omega)]
  rw [e0, pure_bind]
  obtain ⟨e, hu2, hs2⟩ := open_run (r := 0x3E#8 :: (c ++ endTag tag ++ r)) hs hw ht noNameFirst_gt
    (by rw [hu, startTag_eq]; simp) (fun _ => do
    let t ← nt
    if t.id = 0x2F then do
      expect 0x3E#8
      pure (arr.set 0 0#8)
    else if t.id ≠ 0x3E then xFail
    else do
      let s ← xGet
      let arr ← contentLoop maxLen (s.count - s.currentByte + 1) 0 (arr.set 0 0#8)
      pushBackChar
      expect 0x3C#8
      expect 0x2F#8
      expectTag tag
      expect 0x3E#8
      pure arr)
  refine e.trans ?_
  rw [xm_bind_ok (nt_special (w := []) hs2 isSpaces_nil (by decide) (noMarkup_of_ne (by decide)) hu2), if_neg (by decide),
    if_neg (by decide), XerStream.adv_adv, List.length_nil, Nat.zero_add, xGet_bind]
  have hu3 : (s.adv (w.length + 1 + tag.length + 1)).unread = c ++ 0x3C#8 :: (0x2F#8 :: (tag ++ [0x3E#8]) ++ r) := by
    rw [← XerStream.adv_adv, XerStream.adv_unread, hu2, endTag_eq]; simp
  have hs3 : XInput (s.adv (w.length + 1 + tag.length + 1)) := by
    rw [← XerStream.adv_adv]; exact hs2.adv (by rw [hu2]; simp)
  have hl3 := hs3.len
  rw [hu3, List.length_append] at hl3
  have e3 := contentLoop_run (maxLen := maxLen) c _ ((s.adv (w.length + 1 + tag.length + 1)).count -
    (s.adv (w.length + 1 + tag.length + 1)).currentByte + 1) 0 (arr.set 0 0#8) _ hs3 hc hu3 (by omega) (by simpa using ha) (by omega)
  rw [xm_bind_ok e3]
  have e4 : ∀ (k : Unit → XM (List Byte)), (pushBackChar >>= k) ((s.adv (w.length + 1 + tag.length + 1)).adv (c.length + 1)) =
      k () (s.adv (w.length + 1 + tag.length + 1 + c.length)) := by
    intro k
    unfold pushBackChar
    rw [bind_assoc, xGet_bind, if_neg (by simp), xSetPos_bind]
    show k () _ = k () _
    congr 1
    unfold XerStream.adv
    simp only [XerStream.mk.injEq, true_and, and_true]
    omega
  rw [e4]
  obtain ⟨e5, hu5, hs5⟩ := close_run (w := []) (tag := tag) (r := 0x3E#8 :: r) (s := s.adv (w.length + 1 + tag.length + 1 + c.length)) 
    (hs.adv (by rw [hu, startTag_eq]; simp; omega)) isSpaces_nil ht noNameFirst_gt (by 
      rw [← XerStream.adv_adv, XerStream.adv_unread, hu3]; simp) (fun _ => do
      expect 0x3E#8
      pure ((arr.set 0 0#8).take 0 ++ c ++ [0#8] ++ (arr.set 0 0#8).drop (0 + c.length + 1)))
  refine e5.trans ?_
  rw [xm_bind_ok (expect_run (w := []) hs5 isSpaces_nil (by decide) (noMarkup_of_ne (by decide)) hu5), XerStream.adv_adv, XerStream.adv_adv]
  show Res.ok _ = _
  rw [List.drop_set_of_lt (by omega), startTag_eq, endTag_eq]
  unfold stored
  simp only [List.take_zero, List.nil_append, Nat.zero_add, List.length_append, List.length_cons, List.length_nil]
  have e9 : ∀ a b c' : Nat, a + 1 + b + 1 + c' + (2 + b + 1) = a + (b + (0 + 1) + 1 + c' + (b + (0 + 1) + 1 + 1)) := by omega
  rw [← e9]

/-- `<tag/>`. -/
theorem decodePrimitiveElement_empty {w tag r arr : List Byte} {maxLen : Nat} {s : XerStream} (hs : XInput s) (hw : IsSpaces w)
    (ht : GoodTag tag) (ha : 0 < arr.length) (hu : s.unread = w ++ emptyTag tag ++ r) :
    decodePrimitiveElement tag arr maxLen s = .ok (some (stored arr []), s.adv (w.length + (emptyTag tag).length)) := by
  unfold decodePrimitiveElement
  have e0 : xArrSet arr 0 0#8 = pure (arr.set 0 0#8) := by unfold xArrSet; rw [if_pos ha]
  rw [e0, pure_bind]
  obtain ⟨e, hu2, hs2⟩ := open_run (r := 0x2F#8 :: 0x3E#8 :: r) hs hw ht noNameFirst_slash
    (by rw [hu, emptyTag_eq]; simp) (fun _ => do
    let t ← nt
    if t.id = 0x2F then do
      expect 0x3E#8
      pure (arr.set 0 0#8)
    else if t.id ≠ 0x3E then xFail
    else do
      let s ← xGet
      let arr ← contentLoop maxLen (s.count - s.currentByte + 1) 0 (arr.set 0 0#8)
      pushBackChar
      expect 0x3C#8
      expect 0x2F#8
      expectTag tag
      expect 0x3E#8
      pure arr)
  refine e.trans ?_
  rw [xm_bind_ok (nt_special (w := []) hs2 isSpaces_nil (by decide) (noMarkup_of_ne (by decide)) hu2), if_pos (by decide)]
  have hs3 := hs2.adv (n := ([] : List Byte).length + 1) (by rw [hu2]; simp)
  rw [xm_bind_ok (expect_run (w := []) (r := r) hs3 isSpaces_nil (by decide) (noMarkup_of_ne (by decide)) (by rw [XerStream.adv_unread, hu2]; rfl)), XerStream.adv_adv, XerStream.adv_adv]
  show Res.ok _ = _
  have : arr.set 0 0#8 = stored arr [] := by
    cases arr with
    | nil => simp at ha
    | cons => rfl
  rw [this, emptyTag_eq]
  simp
  congr 1; omega

end Asn1
