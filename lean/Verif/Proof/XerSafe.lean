import Verif.Proof.XerRead2
/-!
# Lemmas about XER: no undefined behaviour on any input
-/
namespace Asn1

variable {Q : List Byte → Prop}

theorem XSame.refl (s : XerStream) : XSame s s := ⟨rfl, rfl, rfl⟩
theorem XSame.trans {s t u : XerStream} (h1 : XSame s t) (h2 : XSame t u) : XSame s u :=
  ⟨h2.buf.trans h1.buf, h2.count.trans h1.count, h2.white.trans h1.white⟩
theorem XSame.whole {s s' : XerStream} (h : XSame s s') : s'.whole = s.whole := by
  unfold XerStream.whole; rw [h.buf, h.count]

theorem XSafe.bind {α β : Type} {f : XM α} {g : α → XM β} {P : α → Prop} {R : β → Prop} (hf : XSafe Q f P) (hg : ∀ a, P a → XSafe Q (g a) R) :
    XSafe Q (f >>= g) R := by
  intro s hs hq
  obtain ⟨r, s1, e, h1, h2, h3⟩ := hf s hs hq
  cases r with
  | none => exact ⟨none, s1, xm_bind_none e, h1, h2, nofun⟩
  | some a =>
    obtain ⟨r2, s2, e2, k1, k2, k3⟩ := hg a (h3 a rfl) s1 h2 (by rw [h1.whole]; exact hq)
    exact ⟨r2, s2, (xm_bind_ok e).trans e2, h1.trans k1, k2, k3⟩

theorem XSafe.pure {α : Type} {a : α} {P : α → Prop} (h : P a) : XSafe Q (Pure.pure a : XM α) P := by
  intro s hs _
  exact ⟨some a, s, rfl, XSame.refl s, hs, fun b hb => by cases hb; exact h⟩

theorem XSafe.fail {α : Type} {P : α → Prop} : XSafe Q (xFail : XM α) P := by
  intro s hs _
  exact ⟨none, s, rfl, XSame.refl s, hs, nofun⟩

theorem XSafe.weaken {α : Type} {f : XM α} {P R : α → Prop} (h : XSafe Q f P) (hr : ∀ a, P a → R a) : XSafe Q f R := by
  intro s hs hq
  obtain ⟨r, s1, e, h1, h2, h3⟩ := h s hs hq
  exact ⟨r, s1, e, h1, h2, fun a ha => hr a (h3 a ha)⟩

/-- A step that looks at the stream. -/
theorem XSafe.get {β : Type} {g : XerStream → XM β} {R : β → Prop}
    (h : ∀ s, XIn s → Q s.whole → ∃ r s', g s s = .ok (r, s') ∧ XSame s s' ∧ XIn s' ∧ ∀ a, r = some a → R a) : XSafe Q (xGet >>= g) R := h

theorem buf_get {s : XerStream} (hs : XIn s) {i : Nat} (hi : i < s.count) : ∃ b, s.buf[i]? = some b ∧ b ∈ s.whole := by
  obtain ⟨h1, _⟩ := hs
  refine ⟨s.buf[i], List.getElem?_eq_getElem (by omega), ?_⟩
  unfold XerStream.whole
  rw [List.mem_take_iff_getElem]
  exact ⟨i, by omega, rfl⟩

theorem setPos_same (s : XerStream) (p : Nat) : XSame s { s with currentByte := p } := ⟨rfl, rfl, rfl⟩

theorem skipSpaceLoop_safe : ∀ n, XSafe Q (skipSpaceLoop n) (fun _ => True) := by
  intro n
  induction n with
  | zero => exact XSafe.pure trivial
  | succ n ih =>
    intro s hs hq
    unfold skipSpaceLoop
    rw [xGet_bind]
    by_cases h : s.currentByte < s.count
    · obtain ⟨b, hb, _⟩ := buf_get hs h
      rw [if_pos h, xAt_bind hb]
      by_cases hsp : isSpaceC b = true
      · rw [if_pos hsp, xSetPos_bind]
        obtain ⟨r, s', e, h1, h2, h3⟩ := ih { s with currentByte := s.currentByte + 1 } ⟨hs.1, by show s.currentByte + 1 ≤ s.count + 1; omega⟩ hq
        exact ⟨r, s', e, (setPos_same s _).trans h1, h2, h3⟩
      · rw [if_neg hsp]
        exact XSafe.pure (Q := Q) trivial s hs hq
    · rw [if_neg h]
      exact XSafe.pure (Q := Q) trivial s hs hq

theorem skipSpace_safe : XSafe Q skipSpace (fun _ => True) := by
  intro s hs hq
  unfold skipSpace
  rw [xGet_bind]
  exact skipSpaceLoop_safe _ s hs hq

theorem headerLoop_safe : ∀ n, XSafe Q (headerLoop n) (fun _ => True) ∧ ∀ s, XIn s → s.currentByte ≤ s.count → 
    ∃ s', headerLoop n s = .ok (some (), s') ∧ XSame s s' ∧ s'.currentByte ≤ s'.count := by
  suffices h : ∀ n s, XIn s → ∃ s', headerLoop n s = .ok (some (), s') ∧ XSame s s' ∧ XIn s' ∧ (s.currentByte ≤ s.count → s'.currentByte ≤ s'.count) by
    intro n
    refine ⟨fun s hs _ => ?_, fun s hs hc => ?_⟩
    · obtain ⟨s', e, h1, h2, _⟩ := h n s hs
      exact ⟨some (), s', e, h1, h2, fun _ _ => trivial⟩
    · obtain ⟨s', e, h1, h2, h3⟩ := h n s hs
      exact ⟨s', e, h1, h3 hc⟩
  intro n
  induction n with
  | zero => intro s hs; exact ⟨s, rfl, XSame.refl s, hs, id⟩
  | succ n ih =>
    intro s hs
    unfold headerLoop
    rw [xGet_bind]
    by_cases h : s.currentByte < s.count
    · obtain ⟨a, ha, _⟩ := buf_get hs (i := s.currentByte - 1) (by omega)
      obtain ⟨b, hb, _⟩ := buf_get hs h
      rw [if_pos h, xAt_bind ha, xAt_bind hb]
      split
      · exact ⟨s, rfl, XSame.refl s, hs, id⟩
      · rw [xSetPos_bind]
        obtain ⟨s', e, h1, h2, h3⟩ := ih { s with currentByte := s.currentByte + 1 } ⟨hs.1, by show s.currentByte + 1 ≤ s.count + 1; omega⟩
        exact ⟨s', e, (setPos_same s _).trans h1, h2, fun _ => h3 h⟩
    · rw [if_neg h]
      exact ⟨s, rfl, XSame.refl s, hs, id⟩

theorem commentLoop_safe : ∀ n s, XIn s → ∃ s', commentLoop n s = .ok (some (), s') ∧ XSame s s' ∧ XIn s' ∧ (s.currentByte ≤ s.count → s'.currentByte ≤ s'.count) := by
  intro n
  induction n with
  | zero => intro s hs; exact ⟨s, rfl, XSame.refl s, hs, id⟩
  | succ n ih =>
    intro s hs
    unfold commentLoop
    rw [xGet_bind]
    by_cases h : s.currentByte < s.count
    · obtain ⟨a, ha, _⟩ := buf_get hs (i := s.currentByte - 2) (by omega)
      obtain ⟨b, hb, _⟩ := buf_get hs (i := s.currentByte - 1) (by omega)
      obtain ⟨c, hc, _⟩ := buf_get hs h
      rw [if_pos h, xAt_bind ha, xAt_bind hb, xAt_bind hc]
      split
      · exact ⟨s, rfl, XSame.refl s, hs, id⟩
      · rw [xSetPos_bind]
        obtain ⟨s', e, h1, h2, h3⟩ := ih { s with currentByte := s.currentByte + 1 } ⟨hs.1, by show s.currentByte + 1 ≤ s.count + 1; omega⟩
        exact ⟨s', e, (setPos_same s _).trans h1, h2, fun _ => h3 h⟩
    · rw [if_neg h]
      exact ⟨s, rfl, XSame.refl s, hs, id⟩

theorem ntHeader_safe : XSafe Q ntHeader (fun _ => True) := by
  intro s hs hq
  unfold ntHeader
  rw [xGet_bind]
  by_cases h : s.currentByte + 1 < s.count
  · obtain ⟨a, ha, _⟩ := buf_get hs (i := s.currentByte) (by omega)
    obtain ⟨b, hb, _⟩ := buf_get hs h
    rw [if_pos h, xAt_bind ha, xAt_bind hb]
    split
    · rw [xSetPos_bind]
      obtain ⟨s1, e1, h1, h2⟩ := (headerLoop_safe (Q := Q) (s.count - s.currentByte)).2 { s with currentByte := s.currentByte + 1 }
        ⟨hs.1, by show s.currentByte + 1 ≤ s.count + 1; omega⟩ (by show s.currentByte + 1 ≤ s.count; omega)
      rw [xm_bind_ok e1, xGet_bind, xSetPos_bind]
      have h3 := (setPos_same s (s.currentByte + 1)).trans h1
      obtain ⟨r, s2, e2, k1, k2, k3⟩ := skipSpace_safe (Q := Q) { s1 with currentByte := s1.currentByte + 1 }
        ⟨by show s1.count ≤ s1.buf.length; rw [h3.count, h3.buf]; exact hs.1, by show s1.currentByte + 1 ≤ s1.count + 1; omega⟩
        (by show Q s1.whole; rw [h3.whole]; exact hq)
      exact ⟨r, s2, e2, (h3.trans (setPos_same s1 _)).trans k1, k2, k3⟩
    · exact XSafe.pure (Q := Q) trivial s hs hq
  · rw [if_neg h]
    exact XSafe.pure (Q := Q) trivial s hs hq

theorem ntComment_safe : XSafe Q ntComment (fun _ => True) := by
  intro s hs hq
  unfold ntComment
  rw [xGet_bind]
  by_cases h : s.currentByte + 3 < s.count
  · obtain ⟨a, ha, _⟩ := buf_get hs (i := s.currentByte) (by omega)
    obtain ⟨b, hb, _⟩ := buf_get hs (i := s.currentByte + 1) (by omega)
    obtain ⟨c, hc, _⟩ := buf_get hs (i := s.currentByte + 2) (by omega)
    obtain ⟨d, hd, _⟩ := buf_get hs h
    rw [if_pos h, xAt_bind ha, xAt_bind hb, xAt_bind hc, xAt_bind hd]
    split
    · rw [xSetPos_bind]
      obtain ⟨s1, e1, h1, _, h2⟩ := commentLoop_safe (s.count - s.currentByte) { s with currentByte := s.currentByte + 2 }
        ⟨hs.1, by show s.currentByte + 2 ≤ s.count + 1; omega⟩
      have h2 := h2 (by show s.currentByte + 2 ≤ s.count; omega)
      rw [xm_bind_ok e1, xGet_bind, xSetPos_bind]
      have h3 := (setPos_same s (s.currentByte + 2)).trans h1
      obtain ⟨r, s2, e2, k1, k2, k3⟩ := skipSpace_safe (Q := Q) { s1 with currentByte := s1.currentByte + 1 }
        ⟨by show s1.count ≤ s1.buf.length; rw [h3.count, h3.buf]; exact hs.1, by show s1.currentByte + 1 ≤ s1.count + 1; omega⟩
        (by show Q s1.whole; rw [h3.whole]; exact hq)
      exact ⟨r, s2, e2, (h3.trans (setPos_same s1 _)).trans k1, k2, k3⟩
    · exact XSafe.pure (Q := Q) trivial s hs hq
  · rw [if_neg h]
    exact XSafe.pure (Q := Q) trivial s hs hq

/-- What a token of a text `l` can be: nothing, a character of the text, or a word of at most 99 name characters. -/
def TokOf (l : List Byte) (t : Token) : Prop :=
  t.id = 0 ∨ (t.id ≠ 0 ∧ ∃ c ∈ l, isSpecial c = true ∧ t.id = c.toNat) ∨ (t.id = wordId ∧ GoodTag t.value)

theorem wordLoop_safe {l : List Byte} : ∀ n v, v.length ≤ 99 → (∀ b ∈ v, IsNameChar b) → XSafe Q (wordLoop n v) (TokOf l) := by
  have fin : ∀ v : List Byte, v.length ≤ 99 → (∀ b ∈ v, IsNameChar b) → TokOf l ⟨if v.length = 0 then 0 else wordId, v⟩ := by
    intro v h1 h2
    by_cases h : v.length = 0
    · left; show (if v.length = 0 then 0 else wordId) = 0; rw [if_pos h]
    · right; right
      refine ⟨by show (if v.length = 0 then 0 else wordId) = wordId; rw [if_neg h], ?_, h1, h2⟩
      intro e; exact h (by show v.length = 0; rw [show v = [] from e]; rfl)
  intro n
  induction n with
  | zero => intro v h1 h2; exact XSafe.pure (fin v h1 h2)
  | succ n ih =>
    intro v h1 h2 s hs hq
    unfold wordLoop
    rw [xGet_bind]
    by_cases h : s.currentByte < s.count
    · obtain ⟨b, hb, _⟩ := buf_get hs h
      rw [if_pos h, xAt_bind hb]
      by_cases hsp : (isPartOfID b && decide (v.length < 99)) = true
      · rw [if_pos hsp, xSetPos_bind]
        rw [Bool.and_eq_true, decide_eq_true_eq] at hsp
        obtain ⟨r, s', e, k1, k2, k3⟩ := ih (v ++ [b]) (by simp; omega) (by
          intro x hx
          rcases List.mem_append.mp hx with hx | hx
          · exact h2 x hx
          · rw [List.mem_singleton] at hx; subst hx; exact isPartOfID_iff.mp hsp.1)
          { s with currentByte := s.currentByte + 1 } ⟨hs.1, by show s.currentByte + 1 ≤ s.count + 1; omega⟩ hq
        exact ⟨r, s', e, (setPos_same s _).trans k1, k2, k3⟩
      · rw [if_neg hsp]
        exact XSafe.pure (Q := Q) (fin v h1 h2) s hs hq
    · rw [if_neg h]
      exact XSafe.pure (Q := Q) (fin v h1 h2) s hs hq

/-- Every text but with a property that tokens inherit. -/
theorem nt_safe {T : Token → Prop} (hT : ∀ l t, Q l → TokOf l t → T t) : XSafe Q nt T := by
  have t0 : ∀ s : XerStream, Q s.whole → T ⟨0, []⟩ := fun s hq => hT _ _ hq (.inl rfl)
  unfold nt
  refine skipSpace_safe.bind fun _ _ => XSafe.get fun s hs hq => ?_
  by_cases h : s.currentByte ≥ s.count
  · rw [if_pos h]; exact XSafe.pure (Q := Q) (t0 s hq) s hs hq
  · rw [if_neg h]
    revert s
    suffices h : XSafe Q (do
        ntHeader
        let s ← xGet
        if s.currentByte ≥ s.count then Pure.pure ⟨0, []⟩ else do
          ntComment
          ntToken) T from fun s hs hq _ => h s hs hq
    refine ntHeader_safe.bind fun _ _ => XSafe.get fun s hs hq => ?_
    by_cases h : s.currentByte ≥ s.count
    · rw [if_pos h]; exact XSafe.pure (Q := Q) (t0 s hq) s hs hq
    · rw [if_neg h]
      revert s
      suffices h : XSafe Q (do ntComment; ntToken) T from fun s hs hq _ => h s hs hq
      refine ntComment_safe.bind fun _ _ => ?_
      unfold ntToken
      refine XSafe.get fun s hs hq => ?_
      by_cases h : s.currentByte ≥ s.count
      · rw [if_pos h]; exact XSafe.pure (Q := Q) (t0 s hq) s hs hq
      · rw [if_neg h]
        obtain ⟨c, hc, hm⟩ := buf_get hs (i := s.currentByte) (by omega)
        rw [xAt_bind hc]
        by_cases hsp : isSpecial c = true
        · rw [if_pos hsp, xSetPos_bind]
          have ht : T ⟨c.toNat, cstr [c]⟩ := by
            refine hT _ _ hq ?_
            by_cases h0 : c.toNat = 0
            · exact .inl h0
            · exact .inr (.inl ⟨h0, c, hm, hsp, rfl⟩)
          obtain ⟨r, s', e, k1, k2, k3⟩ := XSafe.pure (Q := Q) ht { s with currentByte := s.currentByte + 1 } ⟨hs.1, by show s.currentByte + 1 ≤ s.count + 1; omega⟩ hq
          exact ⟨r, s', e, (setPos_same s _).trans k1, k2, k3⟩
        · rw [if_neg hsp]
          obtain ⟨r, s', e, k1, k2, k3⟩ := wordLoop_safe (Q := Q) (l := s.whole) (s.count - s.currentByte) [] (by simp) (by simp) s hs hq
          exact ⟨r, s', e, k1, k2, fun a ha => hT _ _ hq (k3 a ha)⟩


/-- Reading does not depend on what is asked of the text. -/
theorem XSafe.of_any {α : Type} {f : XM α} {P : α → Prop} (h : XSafe (fun _ => True) f P) : XSafe Q f P :=
  fun s hs _ => h s hs trivial

theorem nt_safe' : XSafe Q nt (fun _ => True) := nt_safe fun _ _ _ _ => trivial

theorem la_safe : XSafe Q la (fun _ => True) := by
  unfold la
  refine XSafe.get fun s hs hq => ?_
  obtain ⟨r, s1, e, h1, h2, _⟩ := nt_safe' (Q := Q) s hs hq
  cases r with
  | none => exact ⟨none, s1, xm_bind_none e, h1, h2, nofun⟩
  | some t =>
    refine ⟨some t, { s1 with currentByte := s.currentByte }, ?_, h1.trans (setPos_same s1 _), ⟨h2.1, ?_⟩, fun _ _ => trivial⟩
    · rw [xm_bind_ok e, xSetPos_bind]; rfl
    · show s.currentByte ≤ s1.count + 1
      rw [h1.count]; exact hs.2

theorem expect_safe (c : Byte) : XSafe Q (expect c) (fun _ => True) := by
  unfold expect
  refine nt_safe'.bind fun t _ => ?_
  split
  · exact XSafe.pure trivial
  · exact XSafe.fail

theorem expectTag_safe (tag : List Byte) : XSafe Q (expectTag tag) (fun _ => True) := by
  unfold expectTag
  refine nt_safe'.bind fun t _ => ?_
  split
  · exact XSafe.pure trivial
  · exact XSafe.fail

theorem xArrSet_safe {arr : List Byte} {i : Nat} {b : Byte} (h : i < arr.length) : XSafe Q (xArrSet arr i b) (fun a => a.length = arr.length) := by
  unfold xArrSet
  rw [if_pos h]
  exact XSafe.pure (by simp)

theorem xArrGet_safe {arr : List Byte} {i : Nat} (h : i < arr.length) : XSafe Q (xArrGet arr i) (fun _ => True) := by
  unfold xArrGet
  rw [List.getElem?_eq_getElem h]
  exact XSafe.pure trivial

/-- The loop over the contents leaves the position behind a character. -/
theorem contentLoop_safe (maxLen : Nat) : ∀ n w arr s, XIn s → w < arr.length → maxLen ≤ arr.length →
    ∃ r s', contentLoop maxLen n w arr s = .ok (r, s') ∧ XSame s s' ∧ XIn s' ∧ ∀ a, r = some a → a.length = arr.length ∧ 0 < s'.currentByte := by
  intro n
  induction n with
  | zero => intro w arr s hs _ _; exact ⟨none, s, rfl, XSame.refl s, hs, nofun⟩
  | succ n ih =>
    intro w arr s hs hw hm
    unfold contentLoop
    unfold getNextChar
    simp only [bind_assoc]
    rw [xGet_bind]
    by_cases h : s.currentByte ≥ s.count
    · rw [if_pos h]
      exact ⟨none, s, rfl, XSame.refl s, hs, nofun⟩
    · rw [if_neg h]
      obtain ⟨c, hc, _⟩ := buf_get hs (i := s.currentByte) (by omega)
      simp only [bind_assoc, pure_bind]
      rw [xAt_bind hc, xSetPos_bind]
      have hs1 : XIn { s with currentByte := s.currentByte + 1 } := ⟨hs.1, by show s.currentByte + 1 ≤ s.count + 1; omega⟩
      split
      · obtain ⟨r, s', e, h1, h2, h3⟩ := xArrSet_safe (Q := fun _ => True) (b := 0#8) hw _ hs1 trivial
        refine ⟨r, s', e, (setPos_same s _).trans h1, h2, fun a ha => ⟨h3 a ha, ?_⟩⟩
        have : s' = { s with currentByte := s.currentByte + 1 } := by
          unfold xArrSet at e; rw [if_pos hw] at e
          injection e with e; injection e with _ e; exact e.symm
        rw [this]; exact Nat.succ_pos _
      · split
        · exact ⟨none, _, rfl, setPos_same s _, hs1, nofun⟩
        · have e : xArrSet arr w c { s with currentByte := s.currentByte + 1 } = .ok (some (arr.set w c), { s with currentByte := s.currentByte + 1 }) := by
            unfold xArrSet; rw [if_pos hw]; rfl
          rw [xm_bind_ok e]
          obtain ⟨r, s', e', h1, h2, h3⟩ := ih (w + 1) (arr.set w c) _ hs1 (by rw [List.length_set]; omega) (by rw [List.length_set]; exact hm)
          exact ⟨r, s', e', (setPos_same s _).trans h1, h2, fun a ha => by have := h3 a ha; rw [List.length_set] at this; exact this⟩

theorem decodePrimitiveElement_safe (tag : List Byte) {arr : List Byte} {maxLen : Nat} (h0 : 0 < arr.length) (hm : maxLen ≤ arr.length) :
    XSafe Q (decodePrimitiveElement tag arr maxLen) (fun a => a.length = arr.length) := by
  unfold decodePrimitiveElement
  refine (xArrSet_safe h0).bind fun arr1 h1 => (expect_safe _).bind fun _ _ => (expectTag_safe _).bind fun _ _ => nt_safe'.bind fun t _ => ?_
  split
  · exact (expect_safe _).bind fun _ _ => XSafe.pure h1
  · split
    · exact XSafe.fail
    · refine XSafe.get fun s hs hq => ?_
      obtain ⟨r, s1, e, k1, k2, k3⟩ := contentLoop_safe maxLen (s.count - s.currentByte + 1) 0 arr1 s hs (by omega) (by omega)
      cases r with
      | none => exact ⟨none, s1, xm_bind_none e, k1, k2, nofun⟩
      | some a =>
        obtain ⟨ha, hp⟩ := k3 a rfl
        rw [xm_bind_ok e]
        have e2 : pushBackChar s1 = .ok (some (), { s1 with currentByte := s1.currentByte - 1 }) := by
          unfold pushBackChar
          rw [xGet_bind]
          rw [if_neg (by omega)]
          rfl
        rw [xm_bind_ok e2]
        have hs2 : XIn { s1 with currentByte := s1.currentByte - 1 } := ⟨k2.1, by have := k2.2; show s1.currentByte - 1 ≤ s1.count + 1; omega⟩
        have hq2 : Q ({ s1 with currentByte := s1.currentByte - 1 } : XerStream).whole := by
          show Q s1.whole
          rw [k1.whole]; exact hq
        obtain ⟨r3, s3, e3, m1, m2, m3⟩ := ((expect_safe (Q := Q) 0x3C#8).bind fun _ _ => (expect_safe 0x2F#8).bind fun _ _ =>
          (expectTag_safe tag).bind fun _ _ => (expect_safe 0x3E#8).bind fun _ _ => XSafe.pure (P := fun a : List Byte => a.length = arr.length) (ha.trans h1)) _ hs2 hq2
        exact ⟨r3, s3, e3, (k1.trans (setPos_same s1 _)).trans m1, m2, m3⟩

theorem cstr_length_lt {l : List Byte} (h : (0#8 : Byte) ∈ l) : (cstr l).length < l.length := by
  induction l with
  | nil => simp at h
  | cons a l ih =>
    unfold cstr
    rw [List.takeWhile_cons]
    split
    · next ha =>
      have : (0#8 : Byte) ∈ l := by
        rcases List.mem_cons.mp h with e | h
        · rw [← e] at ha; simp at ha
        · exact h
      have := ih this
      unfold cstr at this
      simp only [List.length_cons]
      omega
    · simp

theorem cstr_length_le (l : List Byte) : (cstr l).length ≤ l.length := by
  unfold cstr; exact (List.takeWhile_sublist _).length_le

theorem primitiveText_safe (tag : List Byte) {n : Nat} (h : 0 < n) : XSafe Q (primitiveText tag n) (fun t => t.length ≤ n) := by
  unfold primitiveText
  refine (decodePrimitiveElement_safe tag (by simpa using h) (by simp)).bind fun a ha => XSafe.pure ?_
  rw [List.length_replicate] at ha
  exact ha ▸ cstr_length_le a

theorem expect_quote {s : XerStream} (hs : XIn s) (hq : NoQuote s.whole) : ∃ s', expect 0x22#8 s = .ok (none, s') ∧ XSame s s' ∧ XIn s' := by
  have h : XSafe NoQuote nt (fun t => t.id ≠ 0x22) := nt_safe fun l t hq ht => by
    rcases ht with h | ⟨_, c, hc, _, h⟩ | ⟨h, _⟩
    · rw [h]; decide
    · rw [h]
      intro e
      have : c = 0x22#8 := BitVec.eq_of_toNat_eq e
      exact hq (this ▸ hc)
    · rw [h]; decide
  obtain ⟨r, s1, e, h1, h2, h3⟩ := h s hs hq
  unfold expect
  cases r with
  | none => exact ⟨s1, xm_bind_none e, h1, h2⟩
  | some t =>
    refine ⟨s1, ?_, h1, h2⟩
    rw [xm_bind_ok e]
    have h4 : ¬ t.id = (0x22#8 : Byte).toNat := h3 t rfl
    rw [if_neg h4]
    rfl

theorem decodeAttributes_safe (attrs : Option XmlAttrs) : ∀ n, XSafe NoQuote (decodeAttributes n attrs) (fun a => a = attrs) := by
  intro n
  cases n with
  | zero => exact XSafe.fail
  | succ n =>
    unfold decodeAttributes
    refine la_safe.bind fun t _ => ?_
    split
    · exact XSafe.pure rfl
    · refine nt_safe'.bind fun t1 _ => ?_
      split
      · exact XSafe.fail
      · refine (expect_safe _).bind fun _ _ => ?_
        intro s hs hq
        obtain ⟨s', e, h1, h2⟩ := expect_quote hs hq
        exact ⟨none, s', xm_bind_none e, h1, h2, nofun⟩

theorem decodeElementStart_safe (tag : List Byte) (attrs : Option XmlAttrs) : XSafe NoQuote (decodeElementStart tag attrs) (fun a => a = attrs) := by
  unfold decodeElementStart
  split
  · exact XSafe.pure rfl
  · refine (expect_safe _).bind fun _ _ => (expectTag_safe _).bind fun _ _ => XSafe.get ?_
    intro s hs hq
    refine (decodeAttributes_safe attrs _).bind (fun a ha => ?_) s hs hq
    refine nt_safe'.bind fun t _ => ?_
    split
    · exact (expect_safe _).bind fun _ _ => XSafe.pure ha
    · split
      · exact XSafe.fail
      · exact XSafe.pure ha

theorem decodeElementEnd_safe (tag : List Byte) : XSafe Q (decodeElementEnd tag) (fun _ => True) := by
  unfold decodeElementEnd
  split
  · exact XSafe.pure trivial
  · exact (expect_safe _).bind fun _ _ => (expect_safe _).bind fun _ _ => (expectTag_safe _).bind fun _ _ => expect_safe _

theorem peekFlag_safe {α : Type} {f : XM α} {P : α → Prop} (h : XSafe Q f P) : XSafe Q (peekFlag f) (fun r => ∀ a, r = some a → P a) := by
  intro s hs hq
  obtain ⟨r, s', e, h1, h2, h3⟩ := h s hs hq
  refine ⟨some r, { s' with currentByte := s.currentByte }, by unfold peekFlag; rw [e], h1.trans (setPos_same s' _), ⟨h2.1, ?_⟩, fun a ha => ?_⟩
  · show s.currentByte ≤ s'.count + 1
    rw [h1.count]; exact hs.2
  · cases ha; exact h3

theorem tagEnd_safe : XSafe Q tagEnd (fun _ => True) := by
  unfold tagEnd
  refine nt_safe'.bind fun t _ => ?_
  split
  · exact expect_safe _
  · split
    · exact XSafe.fail
    · exact XSafe.pure trivial

theorem nextEndElementIs_safe (tag : List Byte) : XSafe Q (nextEndElementIs tag) (fun _ => True) := by
  unfold nextEndElementIs
  exact (peekFlag_safe ((expect_safe _).bind fun _ _ => (expect_safe _).bind fun _ _ => (expectTag_safe _).bind fun _ _ => expect_safe _)).bind
    fun _ _ => XSafe.pure trivial

theorem nextStartElementIs_safe (tag : List Byte) : XSafe Q (nextStartElementIs tag) (fun _ => True) := by
  unfold nextStartElementIs
  exact (peekFlag_safe ((expect_safe _).bind fun _ _ => (expectTag_safe _).bind fun _ _ => tagEnd_safe)).bind fun _ _ => XSafe.pure trivial

/-- The tag found is a word of at most 99 name characters: it fits into the caller's array. -/
theorem laNextElementTag_safe : XSafe Q laNextElementTag GoodTag := by
  unfold laNextElementTag
  have h : XSafe Q (do
      expect 0x3C#8
      let t ← nt
      if t.id ≠ wordId then xFail else do
        tagEnd
        Pure.pure t.value) GoodTag := by
    refine (expect_safe _).bind fun _ _ => ?_
    have hn : XSafe Q nt (fun t => t.id = wordId → GoodTag t.value) := nt_safe fun l t _ ht e => by
      rcases ht with h | ⟨_, c, _, _, h⟩ | ⟨_, h⟩
      · rw [e] at h; exact absurd h (by decide)
      · rw [e] at h
        have := c.isLt
        rw [← h] at this
        exact absurd this (by decide)
      · exact h
    refine hn.bind fun t ht => ?_
    split
    · exact XSafe.fail
    · next h => exact tagEnd_safe.bind fun _ _ => XSafe.pure (ht (Decidable.not_not.mp h))
  refine (peekFlag_safe h).bind fun r hr => ?_
  cases r with
  | none => exact XSafe.fail
  | some v => exact XSafe.pure (hr v rfl)

theorem openTag_safe (tag : List Byte) : XSafe NoQuote (openTag tag) (fun _ => True) := by
  unfold openTag
  split
  · exact (decodeElementStart_safe tag none).bind fun _ _ => XSafe.pure trivial
  · exact XSafe.pure trivial

theorem closeTag_safe (tag : List Byte) : XSafe Q (closeTag tag) (fun _ => True) := by
  unfold closeTag
  split
  · exact decodeElementEnd_safe tag
  · exact XSafe.pure trivial

theorem xerDecodeNull_safe (tag : List Byte) : XSafe Q (xerDecodeNull tag) (fun _ => True) := by
  unfold xerDecodeNull
  exact (primitiveText_safe tag (by decide)).bind fun _ _ => XSafe.pure trivial

theorem xerDecodePosInteger_safe (tag : List Byte) : XSafe Q (xerDecodePosInteger tag) (fun _ => True) := by
  unfold xerDecodePosInteger
  exact (primitiveText_safe tag (by decide)).bind fun _ _ => XSafe.pure trivial

theorem xerDecodeBoolean_safe (tag : List Byte) : XSafe NoQuote (xerDecodeBoolean tag) (fun _ => True) := by
  unfold xerDecodeBoolean
  refine (openTag_safe tag).bind fun _ _ => laNextElementTag_safe.bind fun t _ => ?_
  split
  · exact (primitiveText_safe _ (by decide)).bind fun _ _ => (closeTag_safe _).bind fun _ _ => XSafe.pure trivial
  · exact (primitiveText_safe _ (by decide)).bind fun _ _ => (closeTag_safe _).bind fun _ _ => XSafe.pure trivial

theorem xerDecodeEnumerated_safe (tag : List Byte) : XSafe NoQuote (xerDecodeEnumerated tag) (fun v => GoodTag v) := by
  unfold xerDecodeEnumerated
  exact (openTag_safe tag).bind fun _ _ => laNextElementTag_safe.bind fun t ht =>
    (primitiveText_safe _ (by decide)).bind fun _ _ => (closeTag_safe _).bind fun _ _ => XSafe.pure ht

theorem xerDecodeString_safe (tag : List Byte) {arr : List Byte} {n : Nat} (h0 : 0 < arr.length) (hn : n ≤ arr.length) :
    XSafe Q (xerDecodeString tag arr n) (fun a => a.length = arr.length) := decodePrimitiveElement_safe tag h0 hn

theorem nibbleLoop_safe {m k : Nat} (hm : m ≤ k) : ∀ l i (value : List Byte), value.length = k → XSafe Q (nibbleLoop m l i value) (fun a => a.length = k) := by
  intro l
  induction l with
  | nil => intro i value hv; exact XSafe.pure hv
  | cons c l ih =>
    intro i value hv
    unfold nibbleLoop
    split
    · cases charToNibble c with
      | none => exact XSafe.fail
      | some nb =>
        refine XSafe.bind (P := fun a => a.length = k) ?_ fun v hv' => ih _ v hv'
        split
        · exact (xArrSet_safe (by omega)).weaken fun a ha => ha.trans hv
        · exact (xArrGet_safe (by omega)).bind fun b _ => (xArrSet_safe (by omega)).weaken fun a ha => ha.trans hv
    · exact XSafe.pure hv

theorem xerDecodeOctetString_safe (tag : List Byte) {value : List Byte} {m : Nat} (hm : m ≤ value.length) :
    XSafe Q (xerDecodeOctetString tag value m) (fun a => a.1.length = value.length) := by
  unfold xerDecodeOctetString
  exact (primitiveText_safe tag (by decide)).bind fun t _ => (nibbleLoop_safe hm _ 0 value rfl).bind fun v hv => XSafe.pure hv

theorem bitsLoop_safe {m k : Nat} : ∀ l i (value : List Byte), value.length = k → i + l.length ≤ 8 * k →
    XSafe Q (bitsLoop m l i value) (fun a => a.length = k) := by
  intro l
  induction l with
  | nil => intro i value hv _; exact XSafe.pure hv
  | cons c l ih =>
    intro i value hv hi
    rw [List.length_cons] at hi
    unfold bitsLoop
    split
    · exact (xArrGet_safe (by omega)).bind fun b _ => (xArrSet_safe (by omega)).bind fun v hv' => ih _ v (hv'.trans hv) (by omega)
    · exact XSafe.pure hv

theorem xerDecodeBitString_safe (tag : List Byte) {value : List Byte} {m : Nat} (hv : 256 ≤ value.length) :
    XSafe Q (xerDecodeBitString tag value m) (fun a => a.1.length = value.length) := by
  unfold xerDecodeBitString
  refine (primitiveText_safe tag (by decide)).bind fun t ht => ?_
  have h1 : (stripSpaces t).length ≤ t.length := by unfold stripSpaces; exact List.length_filter_le _ _
  rw [if_neg (by omega)]
  refine (bitsLoop_safe (k := value.length) _ 0 _ ?_ (by omega)).bind fun v hv => XSafe.pure hv
  rw [List.length_append, List.length_replicate, List.length_drop]
  omega

end Asn1
