import Verif.Proof.XerSafe
/-!
# Lemmas about XER: what has been accepted
-/
namespace Asn1

theorem unread_step {s : XerStream} (hs : XIn s) {b : Byte} (h : s.currentByte < s.count) (hb : s.buf[s.currentByte]? = some b) :
    s.unread = b :: ({ s with currentByte := s.currentByte + 1 } : XerStream).unread := by
  unfold XerStream.unread
  have hl : s.currentByte < (s.buf.take s.count).length := by have := hs.1; rw [List.length_take]; omega
  rw [List.drop_eq_getElem_cons hl]
  congr 1
  rw [List.getElem_take]
  rw [List.getElem?_eq_getElem (by have := hs.1; omega)] at hb
  exact Option.some.inj hb

theorem unread_nil {s : XerStream} (h : s.count ≤ s.currentByte) : s.unread = [] := by
  unfold XerStream.unread
  rw [List.drop_eq_nil_iff, List.length_take]
  omega

/-- One octet further, wherever that is. -/
theorem unread_next {s : XerStream} (hs : XIn s) (h : s.currentByte ≤ s.count) :
    s.unread = s.unread.take 1 ++ ({ s with currentByte := s.currentByte + 1 } : XerStream).unread := by
  by_cases hc : s.currentByte < s.count
  · obtain ⟨b, hb, _⟩ := buf_get hs hc
    rw [unread_step hs hc hb]
    rfl
  · rw [unread_nil (s := s) (by omega), unread_nil (s := { s with currentByte := s.currentByte + 1 }) (by show s.count ≤ s.currentByte + 1; omega)]
    rfl

/-- `f` returns `TRUE` and reads some text with the property `P`. -/
def Eats (f : XM Unit) (P : List Byte → Prop) : Prop :=
  ∀ s, XIn s → ∃ s' w, f s = .ok (some (), s') ∧ XSame s s' ∧ XIn s' ∧ P w ∧ s.unread = w ++ s'.unread

theorem skipSpaceLoop_eats : ∀ n, Eats (skipSpaceLoop n) IsSpaces := by
  intro n
  induction n with
  | zero => intro s hs; exact ⟨s, [], rfl, XSame.refl s, hs, isSpaces_nil, rfl⟩
  | succ n ih =>
    intro s hs
    unfold skipSpaceLoop
    rw [xGet_bind]
    by_cases h : s.currentByte < s.count
    · obtain ⟨b, hb, _⟩ := buf_get hs h
      rw [if_pos h, xAt_bind hb]
      by_cases hsp : isSpaceC b = true
      · rw [if_pos hsp, xSetPos_bind]
        obtain ⟨s', w, e, h1, h2, h3, h4⟩ := ih { s with currentByte := s.currentByte + 1 } ⟨hs.1, by show s.currentByte + 1 ≤ s.count + 1; omega⟩
        refine ⟨s', b :: w, e, (setPos_same s _).trans h1, h2, ?_, ?_⟩
        · intro x hx
          rcases List.mem_cons.mp hx with e | hx
          · subst e; exact isSpaceC_iff.mp hsp
          · exact h3 x hx
        · rw [unread_step hs h hb, h4]; rfl
      · rw [if_neg hsp]
        exact ⟨s, [], rfl, XSame.refl s, hs, isSpaces_nil, rfl⟩
    · rw [if_neg h]
      exact ⟨s, [], rfl, XSame.refl s, hs, isSpaces_nil, rfl⟩

theorem skipSpace_eats : Eats skipSpace IsSpaces := by
  intro s hs
  unfold skipSpace
  rw [xGet_bind]
  exact skipSpaceLoop_eats _ s hs

theorem headerLoop_eats : ∀ n s p, XIn s → s.currentByte ≤ s.count → s.count - s.currentByte ≤ n → 1 ≤ s.currentByte →
    s.buf[s.currentByte - 1]? = some p →
    ∃ s' w, headerLoop n s = .ok (some (), s') ∧ XSame s s' ∧ s'.currentByte ≤ s'.count ∧ s.unread = w ++ s'.unread ∧
      ¬ text ['?', '>'] <:+: p :: w ∧ (s'.currentByte = s'.count ∨ (text ['?'] <:+ p :: w ∧ s'.buf[s'.currentByte]? = some 0x3E#8 ∧ s'.currentByte < s'.count)) := by
  have short : ∀ p : Byte, ¬ text ['?', '>'] <:+: [p] := fun p h => absurd (show 2 ≤ 1 from h.length_le) (by decide)
  intro n
  induction n with
  | zero =>
    intro s p hs h hn _ _
    exact ⟨s, [], rfl, XSame.refl s, h, rfl, short p, .inl (by omega)⟩
  | succ n ih =>
    intro s p hs hc hn h1 hp
    unfold headerLoop
    rw [xGet_bind]
    by_cases h : s.currentByte < s.count
    · obtain ⟨b, hb, _⟩ := buf_get hs h
      rw [if_pos h, xAt_bind hp, xAt_bind hb]
      split
      · next hab =>
        simp only [Bool.and_eq_true, beq_iff_eq] at hab
        obtain ⟨rfl, rfl⟩ := hab
        exact ⟨s, [], rfl, XSame.refl s, hc, rfl, short _, .inr ⟨List.suffix_refl _, hb, h⟩⟩
      · next hab =>
        rw [xSetPos_bind]
        obtain ⟨s', w, e, h1, h3, h4, h5, h6⟩ := ih { s with currentByte := s.currentByte + 1 } b ⟨hs.1, by show s.currentByte + 1 ≤ s.count + 1; omega⟩ h
          (by show s.count - (s.currentByte + 1) ≤ n; omega) (by show 1 ≤ s.currentByte + 1; omega) hb
        refine ⟨s', b :: w, e, (setPos_same s _).trans h1, h3, by rw [unread_step hs h hb, h4]; rfl, ?_, ?_⟩
        · intro hi
          rcases List.infix_cons_iff.mp hi with hp | hi
          · obtain ⟨r, hr⟩ := hp
            simp only [text, List.map_cons, List.map_nil, List.cons_append, List.nil_append, List.cons.injEq] at hr
            apply hab
            rw [← hr.1, ← hr.2.1]
            decide
          · exact h5 hi
        · rcases h6 with h6 | ⟨h6, h7⟩
          · exact .inl h6
          · exact .inr ⟨h6.trans (List.suffix_cons _ _), h7⟩
    · rw [if_neg h]
      exact ⟨s, [], rfl, XSame.refl s, hc, rfl, short p, .inl (by omega)⟩

theorem commentLoop_eats : ∀ n s p q, XIn s → s.currentByte ≤ s.count → s.count - s.currentByte ≤ n → 2 ≤ s.currentByte →
    s.buf[s.currentByte - 2]? = some p → s.buf[s.currentByte - 1]? = some q →
    ∃ s' w, commentLoop n s = .ok (some (), s') ∧ XSame s s' ∧ s'.currentByte ≤ s'.count ∧ s.unread = w ++ s'.unread ∧
      ¬ text ['-', '-', '>'] <:+: p :: q :: w ∧
      (s'.currentByte = s'.count ∨ (text ['-', '-'] <:+ p :: q :: w ∧ s'.buf[s'.currentByte]? = some 0x3E#8 ∧ s'.currentByte < s'.count)) := by
  have short : ∀ p q : Byte, ¬ text ['-', '-', '>'] <:+: [p, q] := fun p q h => absurd (show 3 ≤ 2 from h.length_le) (by decide)
  intro n
  induction n with
  | zero =>
    intro s p q hs h hn _ _ _
    exact ⟨s, [], rfl, XSame.refl s, h, rfl, short p q, .inl (by omega)⟩
  | succ n ih =>
    intro s p q hs hc hn h2 hp hq
    unfold commentLoop
    rw [xGet_bind]
    by_cases h : s.currentByte < s.count
    · obtain ⟨b, hb, _⟩ := buf_get hs h
      rw [if_pos h, xAt_bind hp, xAt_bind hq, xAt_bind hb]
      split
      · next hab =>
        simp only [Bool.and_eq_true, beq_iff_eq] at hab
        obtain ⟨⟨rfl, rfl⟩, rfl⟩ := hab
        exact ⟨s, [], rfl, XSame.refl s, hc, rfl, short _ _, .inr ⟨List.suffix_refl _, hb, h⟩⟩
      · next hab =>
        rw [xSetPos_bind]
        obtain ⟨s', w, e, h1, h3, h4, h5, h6⟩ := ih { s with currentByte := s.currentByte + 1 } q b ⟨hs.1, by show s.currentByte + 1 ≤ s.count + 1; omega⟩ h
          (by show s.count - (s.currentByte + 1) ≤ n; omega) (by show 2 ≤ s.currentByte + 1; omega)
          (by show s.buf[s.currentByte + 1 - 2]? = _; rw [show s.currentByte + 1 - 2 = s.currentByte - 1 by omega]; exact hq) hb
        refine ⟨s', b :: w, e, (setPos_same s _).trans h1, h3, by rw [unread_step hs h hb, h4]; rfl, ?_, ?_⟩
        · intro hi
          rcases List.infix_cons_iff.mp hi with hp | hi
          · obtain ⟨r, hr⟩ := hp
            simp only [text, List.map_cons, List.map_nil, List.cons_append, List.nil_append, List.cons.injEq] at hr
            apply hab
            rw [← hr.1, ← hr.2.1, ← hr.2.2.1]
            decide
          · exact h5 hi
        · rcases h6 with h6 | ⟨h6, h7⟩
          · exact .inl h6
          · exact .inr ⟨h6.trans (List.suffix_cons _ _), h7⟩
    · rw [if_neg h]
      exact ⟨s, [], rfl, XSame.refl s, hc, rfl, short p q, .inl (by omega)⟩

/-- `f` returns `TRUE` and reads some text with the property `P`, or everything. -/
def EatsOrEnds (f : XM Unit) (P : List Byte → Prop) : Prop :=
  ∀ s, XIn s → ∃ s' w, f s = .ok (some (), s') ∧ XSame s s' ∧ XIn s' ∧ s.unread = w ++ s'.unread ∧ (P w ∨ s'.count ≤ s'.currentByte)

theorem ntHeader_eats : EatsOrEnds ntHeader (fun w => ∃ h w1, IsSpaces w1 ∧ (h = [] ∨ IsDeclaration h) ∧ w = h ++ w1) := by
  intro s hs
  have none : ∃ s' w, (Pure.pure () : XM Unit) s = .ok (some (), s') ∧ XSame s s' ∧ XIn s' ∧ s.unread = w ++ s'.unread ∧
      ((∃ h w1, IsSpaces w1 ∧ (h = [] ∨ IsDeclaration h) ∧ w = h ++ w1) ∨ s'.count ≤ s'.currentByte) :=
    ⟨s, [], rfl, XSame.refl s, hs, rfl, .inl ⟨[], [], isSpaces_nil, .inl rfl, rfl⟩⟩
  unfold ntHeader
  rw [xGet_bind]
  by_cases h : s.currentByte + 1 < s.count
  · obtain ⟨a, ha, _⟩ := buf_get hs (i := s.currentByte) (by omega)
    obtain ⟨b, hb, _⟩ := buf_get hs h
    rw [if_pos h, xAt_bind ha, xAt_bind hb]
    split
    · next hab =>
      rw [Bool.and_eq_true, beq_iff_eq, beq_iff_eq] at hab
      obtain ⟨rfl, rfl⟩ := hab
      rw [xSetPos_bind]
      have hs1 : XIn { s with currentByte := s.currentByte + 1 } := ⟨hs.1, by show s.currentByte + 1 ≤ s.count + 1; omega⟩
      have u1 := unread_step hs (by omega) ha
      have u2 := unread_step hs1 h hb
      obtain ⟨s1, w, e1, h1, h2, h3, h4, h5⟩ := headerLoop_eats (s.count - s.currentByte) { s with currentByte := s.currentByte + 1 } 0x3C#8 hs1
        (by show s.currentByte + 1 ≤ s.count; omega) (by show s.count - (s.currentByte + 1) ≤ _; omega) (by show 1 ≤ s.currentByte + 1; omega) ha
      rw [xm_bind_ok e1, xGet_bind, xSetPos_bind]
      have k := (setPos_same s (s.currentByte + 1)).trans h1
      have hs2 : XIn s1 := ⟨by rw [k.count, k.buf]; exact hs.1, by omega⟩
      obtain ⟨s2, w2, e2, m1, m2, m3, m4⟩ := skipSpace_eats { s1 with currentByte := s1.currentByte + 1 } ⟨hs2.1, by show s1.currentByte + 1 ≤ s1.count + 1; omega⟩
      rcases h5 with h5 | ⟨h5, h6, h7⟩
      · have hz : ({ s1 with currentByte := s1.currentByte + 1 } : XerStream).unread = [] := unread_nil (by show s1.count ≤ s1.currentByte + 1; omega)
        rw [hz] at m4
        have m5 := (List.append_eq_nil_iff.mp m4.symm).2
        have hz1 : s1.unread = [] := unread_nil (by omega)
        refine ⟨s2, 0x3C#8 :: w, e2, (k.trans (setPos_same s1 _)).trans m1, m2, by rw [u1, h3, hz1, m5]; rfl, .inr ?_⟩
        unfold XerStream.unread at m5
        rw [List.drop_eq_nil_iff, List.length_take] at m5
        have := m2.1
        omega
      · have u3 := unread_step hs2 h7 h6
        refine ⟨s2, 0x3C#8 :: w ++ [0x3E#8] ++ w2, e2, (k.trans (setPos_same s1 _)).trans m1, m2, ?_, .inl ⟨0x3C#8 :: w ++ [0x3E#8], w2, m3, .inr ⟨w, rfl, ?_, ?_, ?_⟩, rfl⟩⟩
        · rw [u1, h3, u3, m4]; simp
        · rw [u2] at h3
          cases w with
          | nil =>
            rw [List.nil_append, u3] at h3
            exact absurd (List.cons.inj h3).1 (by decide)
          | cons x w =>
            rw [List.cons_append] at h3
            rw [← (List.cons.inj h3).1]
            exact ⟨w, rfl⟩
        · rcases List.suffix_cons_iff.mp h5 with h5 | h5
          · exact absurd (List.cons.inj h5).1 (by decide)
          · exact h5
        · exact fun hi => h4 (hi.trans (List.suffix_cons _ _).isInfix)
    · exact none
  · rw [if_neg h]
    exact none

theorem ntComment_eats : EatsOrEnds ntComment (fun w => ∃ h w1, IsSpaces w1 ∧ (h = [] ∨ IsComment h) ∧ w = h ++ w1) := by
  intro s hs
  have none : ∃ s' w, (Pure.pure () : XM Unit) s = .ok (some (), s') ∧ XSame s s' ∧ XIn s' ∧ s.unread = w ++ s'.unread ∧
      ((∃ h w1, IsSpaces w1 ∧ (h = [] ∨ IsComment h) ∧ w = h ++ w1) ∨ s'.count ≤ s'.currentByte) :=
    ⟨s, [], rfl, XSame.refl s, hs, rfl, .inl ⟨[], [], isSpaces_nil, .inl rfl, rfl⟩⟩
  unfold ntComment
  rw [xGet_bind]
  by_cases h : s.currentByte + 3 < s.count
  · obtain ⟨a, ha, _⟩ := buf_get hs (i := s.currentByte) (by omega)
    obtain ⟨b, hb, _⟩ := buf_get hs (i := s.currentByte + 1) (by omega)
    obtain ⟨c, hc, _⟩ := buf_get hs (i := s.currentByte + 2) (by omega)
    obtain ⟨d, hd, _⟩ := buf_get hs h
    rw [if_pos h, xAt_bind ha, xAt_bind hb, xAt_bind hc, xAt_bind hd]
    split
    · next hab =>
      simp only [Bool.and_eq_true, beq_iff_eq] at hab
      obtain ⟨⟨⟨rfl, rfl⟩, rfl⟩, rfl⟩ := hab
      rw [xSetPos_bind]
      have hs1 : XIn { s with currentByte := s.currentByte + 1 } := ⟨hs.1, by show s.currentByte + 1 ≤ s.count + 1; omega⟩
      have hs2 : XIn { s with currentByte := s.currentByte + 2 } := ⟨hs.1, by show s.currentByte + 2 ≤ s.count + 1; omega⟩
      have hs3 : XIn { s with currentByte := s.currentByte + 3 } := ⟨hs.1, by show s.currentByte + 3 ≤ s.count + 1; omega⟩
      have u1 := unread_step hs (by omega) ha
      have u2 : ({ s with currentByte := s.currentByte + 1 } : XerStream).unread = 0x21#8 :: ({ s with currentByte := s.currentByte + 2 } : XerStream).unread :=
        unread_step hs1 (by show s.currentByte + 1 < s.count; omega) hb
      have u3 : ({ s with currentByte := s.currentByte + 2 } : XerStream).unread = 0x2D#8 :: ({ s with currentByte := s.currentByte + 3 } : XerStream).unread :=
        unread_step hs2 (by show s.currentByte + 2 < s.count; omega) hc
      have u4 := unread_step hs3 h hd
      obtain ⟨s1, w, e1, h1, h2, h3, h4, h5⟩ := commentLoop_eats (s.count - s.currentByte) { s with currentByte := s.currentByte + 2 } 0x3C#8 0x21#8 hs2
        (by show s.currentByte + 2 ≤ s.count; omega) (by show s.count - (s.currentByte + 2) ≤ _; omega) (by show 2 ≤ s.currentByte + 2; omega) ha hb
      rw [xm_bind_ok e1, xGet_bind, xSetPos_bind]
      have k := (setPos_same s (s.currentByte + 2)).trans h1
      have hs4 : XIn s1 := ⟨by rw [k.count, k.buf]; exact hs.1, by omega⟩
      obtain ⟨s2, w2, e2, m1, m2, m3, m4⟩ := skipSpace_eats { s1 with currentByte := s1.currentByte + 1 } ⟨hs4.1, by show s1.currentByte + 1 ≤ s1.count + 1; omega⟩
      rcases h5 with h5 | ⟨h5, h6, h7⟩
      · have hz : ({ s1 with currentByte := s1.currentByte + 1 } : XerStream).unread = [] := unread_nil (by show s1.count ≤ s1.currentByte + 1; omega)
        rw [hz] at m4
        have m5 := (List.append_eq_nil_iff.mp m4.symm).2
        have hz1 : s1.unread = [] := unread_nil (by omega)
        refine ⟨s2, 0x3C#8 :: 0x21#8 :: w, e2, (k.trans (setPos_same s1 _)).trans m1, m2, by rw [u1, u2, h3, hz1, m5]; rfl, .inr ?_⟩
        unfold XerStream.unread at m5
        rw [List.drop_eq_nil_iff, List.length_take] at m5
        have := m2.1
        omega
      · have u5 := unread_step hs4 h7 h6
        have hw : text ['-', '-'] <+: w := by
          rw [u3, u4, u5] at h3
          cases w with
          | nil => exact absurd (List.cons.inj h3).1 (by decide)
          | cons x w =>
            rw [List.cons_append] at h3
            obtain ⟨ex, h3⟩ := List.cons.inj h3
            cases w with
            | nil => exact absurd (List.cons.inj h3).1 (by decide)
            | cons y w =>
              rw [List.cons_append] at h3
              rw [← ex, ← (List.cons.inj h3).1]
              exact ⟨w, rfl⟩
        refine ⟨s2, 0x3C#8 :: 0x21#8 :: w ++ [0x3E#8] ++ w2, e2, (k.trans (setPos_same s1 _)).trans m1, m2, ?_,
          .inl ⟨0x3C#8 :: 0x21#8 :: w ++ [0x3E#8], w2, m3, .inr ⟨w, rfl, hw, ?_, ?_⟩, rfl⟩⟩
        · rw [u1, u2, h3, u5, m4]; simp
        · refine List.suffix_of_suffix_length_le h5 ?_ hw.length_le
          exact (List.suffix_cons _ _).trans (List.suffix_cons _ _)
        · exact fun hi => h4 (hi.trans ((List.suffix_cons _ _).trans (List.suffix_cons _ _)).isInfix)
    · exact none
  · rw [if_neg h]
    exact none

theorem wordLoop_eats : ∀ n v s, XIn s → ∃ t s' w, wordLoop n v s = .ok (some t, s') ∧ XSame s s' ∧ XIn s' ∧ (t.id = 0 ∨ t.id = wordId) ∧
    t.value = v ++ w ∧ s.unread = w ++ s'.unread := by
  have fin : ∀ (v : List Byte) (s : XerStream), XIn s → ∃ t s' w, (Pure.pure ⟨if v.length = 0 then 0 else wordId, v⟩ : XM Token) s = .ok (some t, s') ∧
      XSame s s' ∧ XIn s' ∧ (t.id = 0 ∨ t.id = wordId) ∧ t.value = v ++ w ∧ s.unread = w ++ s'.unread := by
    intro v s hs
    refine ⟨_, s, [], rfl, XSame.refl s, hs, ?_, by simp, rfl⟩
    show (if v.length = 0 then 0 else wordId) = 0 ∨ (if v.length = 0 then 0 else wordId) = wordId
    by_cases h : v.length = 0
    · left; rw [if_pos h]
    · right; rw [if_neg h]
  intro n
  induction n with
  | zero => intro v s hs; exact fin v s hs
  | succ n ih =>
    intro v s hs
    unfold wordLoop
    rw [xGet_bind]
    by_cases h : s.currentByte < s.count
    · obtain ⟨b, hb, _⟩ := buf_get hs h
      rw [if_pos h, xAt_bind hb]
      split
      · rw [xSetPos_bind]
        obtain ⟨t, s', w, e, k1, k2, k3, k4, k5⟩ := ih (v ++ [b]) { s with currentByte := s.currentByte + 1 } ⟨hs.1, by show s.currentByte + 1 ≤ s.count + 1; omega⟩
        exact ⟨t, s', b :: w, e, (setPos_same s _).trans k1, k2, k3, by rw [k4]; simp, by rw [unread_step hs h hb, k5]; rfl⟩
      · exact fin v s hs
    · rw [if_neg h]
      exact fin v s hs

/-- A token that is not "nothing" has been read from the text. -/
theorem nt_eats {s : XerStream} (hs : XIn s) : ∃ t s', nt s = .ok (some t, s') ∧ XSame s s' ∧ XIn s' ∧
    (t.id = 0 ∨ ∃ j l, Skipped j ∧ s.unread = j ++ l ++ s'.unread ∧ ((∃ c, l = [c] ∧ t.id = c.toNat) ∨ (t.id = wordId ∧ l = t.value))) := by
  have zero : ∀ {s0 : XerStream}, XSame s s0 → XIn s0 → ∃ t s', (Pure.pure ⟨0, []⟩ : XM Token) s0 = .ok (some t, s') ∧ XSame s s' ∧ XIn s' ∧
      (t.id = 0 ∨ ∃ j l, Skipped j ∧ s.unread = j ++ l ++ s'.unread ∧ ((∃ c, l = [c] ∧ t.id = c.toNat) ∨ (t.id = wordId ∧ l = t.value))) :=
    fun h1 h2 => ⟨_, _, rfl, h1, h2, .inl rfl⟩
  unfold nt
  obtain ⟨s1, w, e1, h1, i1, p1, u1⟩ := skipSpace_eats s hs
  rw [xm_bind_ok e1, xGet_bind]
  by_cases hc : s1.currentByte ≥ s1.count
  · rw [if_pos hc]; exact zero h1 i1
  rw [if_neg hc]
  obtain ⟨s2, h, e2, h2, i2, u2, p2⟩ := ntHeader_eats s1 i1
  rw [xm_bind_ok e2, xGet_bind]
  by_cases hc : s2.currentByte ≥ s2.count
  · rw [if_pos hc]; exact zero (h1.trans h2) i2
  rw [if_neg hc]
  replace p2 := p2.resolve_right hc
  obtain ⟨s3, c, e3, h3, i3, u3, p3⟩ := ntComment_eats s2 i2
  rw [xm_bind_ok e3]
  have hsame := (h1.trans h2).trans h3
  have hu : s.unread = (w ++ h ++ c) ++ s3.unread := by rw [u1, u2, u3]; simp
  unfold ntToken
  rw [xGet_bind]
  by_cases hc : s3.currentByte ≥ s3.count
  · rw [if_pos hc]; exact zero hsame i3
  rw [if_neg hc]
  replace p3 := p3.resolve_right hc
  have hsk : Skipped (w ++ h ++ c) := by
    obtain ⟨h', w1, q1, q2, rfl⟩ := p2
    obtain ⟨c', w2, q3, q4, rfl⟩ := p3
    exact ⟨w, h', w1, c', w2, p1, q1, q3, q2, q4, by simp⟩
  obtain ⟨b, hb, _⟩ := buf_get i3 (i := s3.currentByte) (by omega)
  rw [xAt_bind hb]
  split
  · rw [xSetPos_bind]
    refine ⟨_, _, rfl, hsame.trans (setPos_same s3 _), ⟨i3.1, by show s3.currentByte + 1 ≤ s3.count + 1; omega⟩, .inr ⟨w ++ h ++ c, [b], hsk, ?_, .inl ⟨b, rfl, rfl⟩⟩⟩
    rw [hu, unread_step i3 (by omega) hb]
    simp
  · obtain ⟨t, s4, v, e4, k1, k2, k3, k4, k5⟩ := wordLoop_eats (s3.count - s3.currentByte) [] s3 i3
    refine ⟨t, s4, e4, hsame.trans k1, k2, ?_⟩
    rcases k3 with k3 | k3
    · exact .inl k3
    · refine .inr ⟨w ++ h ++ c, v, hsk, ?_, .inr ⟨k3, ?_⟩⟩
      · rw [hu, k5]; simp
      · rw [k4]; rfl

theorem xm_bind_inv {α β : Type} {f : XM α} {g : α → XM β} {s s' : XerStream} {b : β} (h : (f >>= g) s = .ok (some b, s')) :
    ∃ a s1, f s = .ok (some a, s1) ∧ g a s1 = .ok (some b, s') := by
  cases hf : f s with
  | ub => rw [xm_bind_ub hf] at h; cases h
  | abort =>
    exfalso
    have : (f >>= g) s = .abort := by
      show (match f s with | .ok (some a, s') => g a s' | .ok (none, s') => .ok (none, s') | .ub => .ub | .abort => .abort) = _
      rw [hf]
    rw [this] at h; cases h
  | ok p =>
    obtain ⟨r, s1⟩ := p
    cases r with
    | none => rw [xm_bind_none hf] at h; cases h
    | some a => rw [xm_bind_ok hf] at h; exact ⟨a, s1, rfl, h⟩

theorem Accepts.bind {α β : Type} {f : XM α} {g : α → XM β} {P : α → List Byte → Prop} {R : α → β → List Byte → Prop} {S : β → List Byte → Prop}
    (hf : Accepts f P) (hg : ∀ a, Accepts (g a) (R a)) (h : ∀ a b l m, P a l → R a b m → S b (l ++ m)) : Accepts (f >>= g) S := by
  intro s hs b s' e
  obtain ⟨a, s1, e1, e2⟩ := xm_bind_inv e
  obtain ⟨h1, h2, l, h3, h4⟩ := hf s hs a s1 e1
  obtain ⟨k1, k2, m, k3, k4⟩ := hg a s1 h2 b s' e2
  exact ⟨h1.trans k1, k2, l ++ m, h a b l m h3 k3, by rw [h4, k4]; simp⟩

theorem Accepts.pure {α : Type} (a : α) : Accepts (Pure.pure a : XM α) (fun b l => b = a ∧ l = []) := by
  intro s hs b s' e
  injection e with e; injection e with e1 e2
  cases e1; subst e2
  exact ⟨XSame.refl s, hs, [], ⟨rfl, rfl⟩, rfl⟩

theorem Accepts.fail {α : Type} {P : α → List Byte → Prop} : Accepts (xFail : XM α) P := by
  intro s hs b s' e
  injection e with e; injection e with e1 e2
  cases e1

theorem Accepts.weaken {α : Type} {f : XM α} {P R : α → List Byte → Prop} (h : Accepts f P) (hr : ∀ a l, P a l → R a l) : Accepts f R := by
  intro s hs a s' e
  obtain ⟨h1, h2, l, h3, h4⟩ := h s hs a s' e
  exact ⟨h1, h2, l, hr a l h3, h4⟩

/-- What has been read for a token. -/
def TokText (t : Token) (l : List Byte) : Prop :=
  t.id = 0 ∨ ∃ j k, Skipped j ∧ l = j ++ k ∧ ((∃ c, k = [c] ∧ t.id = c.toNat) ∨ (t.id = wordId ∧ k = t.value))

/-- `nt` as a step whose failure token may have read anything. -/
theorem nt_accepts {s : XerStream} (hs : XIn s) {t : Token} {s' : XerStream} (e : nt s = .ok (some t, s')) (h0 : t.id ≠ 0) :
    XSame s s' ∧ XIn s' ∧ ∃ j k, Skipped j ∧ s.unread = j ++ k ++ s'.unread ∧ ((∃ c, k = [c] ∧ t.id = c.toNat) ∨ (t.id = wordId ∧ k = t.value)) := by
  obtain ⟨t', s'', e', h1, h2, h3⟩ := nt_eats hs
  rw [e] at e'
  injection e' with e'; injection e' with e1 e2
  cases e1; subst e2
  exact ⟨h1, h2, h3.resolve_left h0⟩

theorem expect_accepts {c : Byte} (hc : c ≠ 0#8) : Accepts (expect c) (fun _ l => Spread [[c]] l) := by
  intro s hs _ s' e
  obtain ⟨t, s1, e1, e2⟩ := xm_bind_inv e
  by_cases ht : t.id = c.toNat
  · rw [if_pos ht] at e2
    injection e2 with e2; injection e2 with _ e2; subst e2
    have h0 : t.id ≠ 0 := by rw [ht]; intro h; exact hc (BitVec.eq_of_toNat_eq h)
    obtain ⟨h1, h2, j, k, h3, h4, h5⟩ := nt_accepts hs e1 h0
    refine ⟨h1, h2, j ++ k, ⟨j, [], h3, rfl, ?_⟩, h4⟩
    rcases h5 with ⟨d, rfl, hd⟩ | ⟨hw, _⟩
    · have : d = c := BitVec.eq_of_toNat_eq (hd.symm.trans ht)
      rw [this]; simp
    · exfalso
      have := c.isLt
      rw [← ht, hw] at this
      exact absurd this (by decide)
  · rw [if_neg ht] at e2
    injection e2 with e2; injection e2 with e1 e2
    cases e1

theorem expectTag_accepts {tag : List Byte} (ht : NoNul tag) : Accepts (expectTag tag) (fun _ l => Spread [tag] l) := by
  intro s hs _ s' e
  obtain ⟨t, s1, e1, e2⟩ := xm_bind_inv e
  by_cases h : t.id = wordId ∧ t.value = cstr tag
  · rw [if_pos h] at e2
    injection e2 with e2; injection e2 with _ e2; subst e2
    obtain ⟨h1, h2, j, k, h3, h4, h5⟩ := nt_accepts hs e1 (by rw [h.1]; decide)
    refine ⟨h1, h2, j ++ k, ⟨j, [], h3, rfl, ?_⟩, h4⟩
    rcases h5 with ⟨d, rfl, hd⟩ | ⟨_, hv⟩
    · exfalso
      have := d.isLt
      rw [← hd, h.1] at this
      exact absurd this (by decide)
    · rw [hv, h.2, cstr_eq_self ht]; simp
  · rw [if_neg h] at e2
    injection e2 with e2; injection e2 with e1 e2
    cases e1

theorem spread_append : ∀ {a b : List (List Byte)} {l m : List Byte}, Spread a l → Spread b m → Spread (a ++ b) (l ++ m) := by
  intro a
  induction a with
  | nil => intro b l m h1 h2; rw [show l = [] from h1]; exact h2
  | cons t a ih =>
    intro b l m h1 h2
    obtain ⟨j, r, hj, hr, rfl⟩ := h1
    exact ⟨j, r ++ m, hj, ih hr h2, by simp⟩

/-- Two steps that read tokens. -/
theorem Accepts.seq {α : Type} {f : XM Unit} {g : XM α} {a : List (List Byte)} {S : α → List Byte → Prop} {R : α → List Byte → Prop}
    (hf : Accepts f (fun _ l => Spread a l)) (hg : Accepts g R) (h : ∀ v l m, Spread a l → R v m → S v (l ++ m)) : Accepts (f >>= fun _ => g) S :=
  hf.bind (R := fun _ => R) (fun _ => hg) fun _ b l m h1 h2 => h b l m h1 h2

/-- The loop over the contents: what has been read is the contents, which are now in the array, and a `<`. -/
theorem contentLoop_accepts {maxLen : Nat} : ∀ n w arr s, XIn s → w < arr.length → maxLen ≤ arr.length → ∀ a s', contentLoop maxLen n w arr s = .ok (some a, s') →
    XSame s s' ∧ ∃ c, (∀ b ∈ c, b ≠ 0x3C#8) ∧ s.unread = c ++ 0x3C#8 :: s'.unread ∧ (c = [] ∨ w + c.length < maxLen) ∧
      a.length = arr.length ∧ a.take (w + c.length + 1) = arr.take w ++ c ++ [0#8] ∧ s'.currentByte = s.currentByte + c.length + 1 ∧ s'.currentByte ≤ s'.count := by
  intro n
  induction n with
  | zero => intro w arr s hs _ _ a s' e; injection e with e; injection e with e1 _; cases e1
  | succ n ih =>
    intro w arr s hs hw hm a s' e
    unfold contentLoop at e
    unfold getNextChar at e
    simp only [bind_assoc] at e
    rw [xGet_bind] at e
    by_cases h : s.currentByte ≥ s.count
    · rw [if_pos h] at e
      injection e with e; injection e with e1 _; cases e1
    · rw [if_neg h] at e
      obtain ⟨c, hc, _⟩ := buf_get hs (i := s.currentByte) (by omega)
      simp only [bind_assoc, pure_bind] at e
      rw [xAt_bind hc, xSetPos_bind] at e
      have hs1 : XIn { s with currentByte := s.currentByte + 1 } := ⟨hs.1, by show s.currentByte + 1 ≤ s.count + 1; omega⟩
      have hu := unread_step hs (by omega) hc
      by_cases hlt : (c == 0x3C#8) = true
      · rw [if_pos hlt] at e
        rw [beq_iff_eq] at hlt
        unfold xArrSet at e
        rw [if_pos hw] at e
        injection e with e; injection e with e1 e2
        injection e1 with e1
        subst e1; subst e2
        refine ⟨setPos_same s _, [], by simp, by rw [hu, hlt]; rfl, .inl rfl, by simp, ?_, by simp, by show s.currentByte + 1 ≤ s.count; omega⟩
        simp only [List.length_nil, Nat.add_zero, List.append_nil]
        rw [List.take_set, List.take_succ_eq_append_getElem hw, List.set_append_right _ _ (by rw [List.length_take]; omega)]
        rw [List.length_take, Nat.min_eq_left (by omega), Nat.sub_self]
        rfl
      · rw [if_neg hlt] at e
        by_cases hw2 : w ≥ maxLen - 1
        · rw [if_pos hw2] at e
          injection e with e; injection e with e1 _; cases e1
        · rw [if_neg hw2] at e
          have es : xArrSet arr w c { s with currentByte := s.currentByte + 1 } = .ok (some (arr.set w c), { s with currentByte := s.currentByte + 1 }) := by
            unfold xArrSet; rw [if_pos hw]; rfl
          rw [xm_bind_ok es] at e
          obtain ⟨k1, d, k2, k3, k4, k5, k6, k7, k8⟩ := ih (w + 1) (arr.set w c) _ hs1 (by rw [List.length_set]; omega) (by rw [List.length_set]; exact hm) a s' e
          refine ⟨(setPos_same s _).trans k1, c :: d, ?_, by rw [hu, k3]; rfl, .inr ?_, by rw [k5, List.length_set], ?_, ?_, k8⟩
          · intro b hb
            rcases List.mem_cons.mp hb with e | hb
            · subst e; simpa using hlt
            · exact k2 b hb
          · rcases k4 with rfl | k4
            · show w + 1 < maxLen; omega
            · simp only [List.length_cons]; omega
          · have : w + (c :: d).length + 1 = w + 1 + d.length + 1 := by simp only [List.length_cons]; omega
            rw [this, k6, List.take_set, List.take_succ_eq_append_getElem hw, List.set_append_right _ _ (by rw [List.length_take]; omega)]
            rw [List.length_take, Nat.min_eq_left (by omega), Nat.sub_self]
            simp
          · rw [k7]; simp only [List.length_cons]; omega


theorem cstr_of_take {a c : List Byte} (h : a.take (c.length + 1) = c ++ [0#8]) : cstr a = cstr c := by
  rw [← List.take_append_drop (c.length + 1) a, h]
  unfold cstr
  rw [List.append_assoc]
  generalize a.drop (c.length + 1) = r
  clear h
  induction c with
  | nil => simp
  | cons x c ih =>
    rw [List.cons_append, List.takeWhile_cons, List.takeWhile_cons, ih]

theorem back_accepts {arr tag : List Byte} (ht : NoNul tag) {s1 : XerStream} (hs : XIn s1) {a : List Byte} {s' : XerStream}
    (e : (do expect 0x3C#8; expect 0x2F#8; expectTag tag; expect 0x3E#8; Pure.pure arr : XM (List Byte)) s1 = .ok (some a, s')) :
    a = arr ∧ XSame s1 s' ∧ XIn s' ∧ ∃ l, Spread [text ['<'], text ['/'], tag, text ['>']] l ∧ s1.unread = l ++ s'.unread := by
  have h : Accepts (do expect 0x3C#8; expect 0x2F#8; expectTag tag; expect 0x3E#8; Pure.pure arr : XM (List Byte))
      (fun b l => b = arr ∧ Spread [text ['<'], text ['/'], tag, text ['>']] l) := by
    refine (expect_accepts (by decide)).seq (R := fun b l => b = arr ∧ Spread [text ['/'], tag, text ['>']] l) ?_ fun v l m h1 h2 => ⟨h2.1, spread_append h1 h2.2⟩
    refine (expect_accepts (by decide)).seq (R := fun b l => b = arr ∧ Spread [tag, text ['>']] l) ?_ fun v l m h1 h2 => ⟨h2.1, spread_append h1 h2.2⟩
    refine (expectTag_accepts ht).seq (R := fun b l => b = arr ∧ Spread [text ['>']] l) ?_ fun v l m h1 h2 => ⟨h2.1, spread_append h1 h2.2⟩
    refine (expect_accepts (by decide)).seq (Accepts.pure arr) fun v l m h1 h2 => ⟨h2.1, ?_⟩
    rw [h2.2, List.append_nil]; exact h1
  obtain ⟨h1, h2, l, h3, h4⟩ := h s1 hs a s' e
  exact ⟨h3.1, h1, h2, l, h3.2, h4⟩

theorem decodePrimitiveElement_accepts {tag arr : List Byte} {maxLen : Nat} (ht : NoNul tag) (h0 : 0 < arr.length) (hm : maxLen ≤ arr.length) :
    Accepts (decodePrimitiveElement tag arr maxLen) (fun a l => a.length = arr.length ∧ ∃ c, ElementText tag c l ∧ (c = [] ∨ c.length < maxLen) ∧
      a.take (c.length + 1) = c ++ [0#8]) := by
  intro s hs a s' e
  unfold decodePrimitiveElement at e
  have es : xArrSet arr 0 0#8 s = .ok (some (arr.set 0 0#8), s) := by unfold xArrSet; rw [if_pos h0]; rfl
  rw [xm_bind_ok es] at e
  obtain ⟨_, s1, e1, e⟩ := xm_bind_inv e
  obtain ⟨p1, i1, l1, q1, u1⟩ := expect_accepts (by decide) s hs _ s1 e1
  obtain ⟨_, s2, e2, e⟩ := xm_bind_inv e
  obtain ⟨p2, i2, l2, q2, u2⟩ := expectTag_accepts ht s1 i1 _ s2 e2
  obtain ⟨t, s3, e3, e⟩ := xm_bind_inv e
  have hlen : (arr.set 0 0#8).length = arr.length := List.length_set
  have htake : (arr.set 0 0#8).take 1 = [0#8] := by
    cases arr with
    | nil => simp at h0
    | cons x arr => rfl
  by_cases hsl : t.id = 0x2F
  · rw [if_pos hsl] at e
    obtain ⟨p3, i3, j, k, hj, u3, hk⟩ := nt_accepts i2 e3 (by rw [hsl]; decide)
    have hk' : k = text ['/'] := by
      rcases hk with ⟨c, rfl, hc⟩ | ⟨hc, _⟩
      · rw [hsl] at hc
        have : c = 0x2F#8 := BitVec.eq_of_toNat_eq hc.symm
        rw [this]; rfl
      · rw [hsl] at hc; exact absurd hc (by decide)
    obtain ⟨_, s4, e4, e⟩ := xm_bind_inv e
    obtain ⟨p4, i4, l4, q4, u4⟩ := expect_accepts (by decide) s3 i3 _ s4 e4
    injection e with e; injection e with ea eb
    injection ea with ea
    subst ea; subst eb
    refine ⟨((p1.trans p2).trans p3).trans p4, i4, l1 ++ (l2 ++ ((j ++ k) ++ l4)), ⟨hlen, [], .inl ⟨rfl, ?_⟩, .inl rfl, htake⟩, ?_⟩
    · exact spread_append q1 (spread_append q2 (spread_append (a := [text ['/']]) ⟨j, [], hj, rfl, by rw [hk']; simp⟩ q4))
    · rw [u1, u2, u3, u4]; simp
  · rw [if_neg hsl] at e
    by_cases hgt : t.id ≠ 0x3E
    · rw [if_pos hgt] at e
      injection e with e; injection e with ea _
      cases ea
    · rw [if_neg hgt, xGet_bind] at e
      have hgt : t.id = 0x3E := Decidable.not_not.mp hgt
      obtain ⟨p3, i3, j, k, hj, u3, hk⟩ := nt_accepts i2 e3 (by rw [hgt]; decide)
      have hk' : k = text ['>'] := by
        rcases hk with ⟨c, rfl, hc⟩ | ⟨hc, _⟩
        · rw [hgt] at hc
          have : c = 0x3E#8 := BitVec.eq_of_toNat_eq hc.symm
          rw [this]; rfl
        · rw [hgt] at hc; exact absurd hc (by decide)
      obtain ⟨arr2, s4, e4, e⟩ := xm_bind_inv e
      obtain ⟨p4, c, hc, u4, hcl, hal, hat, hcb, hcc⟩ := contentLoop_accepts _ 0 _ s3 i3 (by rw [hlen]; exact h0) (by rw [hlen]; exact hm) arr2 s4 e4
      have e5 : pushBackChar s4 = .ok (some (), { s4 with currentByte := s4.currentByte - 1 }) := by
        unfold pushBackChar
        rw [xGet_bind, if_neg (by omega)]
        rfl
      rw [xm_bind_ok e5] at e
      have i4 : XIn s4 := ⟨by rw [p4.count, p4.buf]; exact i3.1, by omega⟩
      have i5 : XIn { s4 with currentByte := s4.currentByte - 1 } := ⟨i4.1, by show s4.currentByte - 1 ≤ s4.count + 1; omega⟩
      obtain ⟨b, hb, _⟩ := buf_get i5 (i := s4.currentByte - 1) (by show s4.currentByte - 1 < s4.count; omega)
      have u5 := unread_step i5 (b := b) (by show s4.currentByte - 1 < s4.count; omega) hb
      have e6 : ({ s4 with currentByte := s4.currentByte - 1 + 1 } : XerStream) = s4 := by rw [show s4.currentByte - 1 + 1 = s4.currentByte by omega]
      have u5 : ({ s4 with currentByte := s4.currentByte - 1 } : XerStream).unread = b :: s4.unread := by
        rw [u5]; show b :: ({ s4 with currentByte := s4.currentByte - 1 + 1 } : XerStream).unread = _; rw [e6]
      have hb : b = 0x3C#8 := by
        have h1 : s3.unread[c.length]? = some 0x3C#8 := by rw [u4]; simp
        have h2 : s3.unread[c.length]? = s3.buf[s3.currentByte + c.length]? := by
          unfold XerStream.unread
          rw [List.getElem?_drop, List.getElem?_take, if_pos (by have := p4.count; omega)]
        have h3 : s4.buf[s4.currentByte - 1]? = some b := hb
        rw [hcb, show s3.currentByte + c.length + 1 - 1 = s3.currentByte + c.length by omega, p4.buf] at h3
        rw [h2, h3] at h1
        exact Option.some.inj h1
      obtain ⟨rfl, p6, i6, l6, q6, u6⟩ := back_accepts ht i5 e
      refine ⟨(((p1.trans p2).trans p3).trans p4).trans ((setPos_same s4 _).trans p6), i6, (l1 ++ (l2 ++ (j ++ k))) ++ c ++ l6, ⟨hal.trans hlen, c, .inr ⟨hc, l1 ++ (l2 ++ (j ++ k)), l6, ?_, q6, rfl⟩, ?_, ?_⟩, ?_⟩
      · exact spread_append q1 (spread_append q2 (a := [tag]) (b := [text ['>']]) ⟨j, [], hj, rfl, by rw [hk']; simp⟩)
      · rw [Nat.zero_add] at hcl; exact hcl
      · rw [Nat.zero_add] at hat; rw [hat]; simp
      · rw [u1, u2, u3, u4, ← hb, ← u5, u6]; simp

theorem primitiveText_accepts {tag : List Byte} {n : Nat} (ht : NoNul tag) (hn : 0 < n) :
    Accepts (primitiveText tag n) (fun t l => ∃ c, ElementText tag c l ∧ c.length < n ∧ t = cstr c) := by
  unfold primitiveText
  refine (decodePrimitiveElement_accepts ht (by simpa using hn) (by simp)).bind (R := fun a b l => b = cstr a ∧ l = []) (fun a => Accepts.pure _) ?_
  rintro a b l m ⟨_, c, h1, h2, h3⟩ ⟨rfl, rfl⟩
  refine ⟨c, by rwa [List.append_nil], ?_, cstr_of_take h3⟩
  rcases h2 with rfl | h2
  · exact hn
  · exact h2

/-! ## Numbers -/

theorem whole_of_unread (s : XerStream) : s.unread <:+ s.whole := List.drop_suffix _ _

theorem ElementText.infix {tag c l : List Byte} (h : ElementText tag c l) : c <:+: l := by
  rcases h with ⟨rfl, _⟩ | ⟨_, l1, l2, _, _, rfl⟩
  · exact List.nil_infix
  · exact ⟨l1, l2, rfl⟩

theorem cstr_infix (l : List Byte) : cstr l <:+: l := (List.takeWhile_prefix _).isInfix

theorem readDigits_lt : ∀ (l : List Byte) (acc k : Nat), acc < 10 ^ k → readDigits l acc < 10 ^ (k + (l.takeWhile isDigitC).length) := by
  intro l
  induction l with
  | nil => intro acc k h; simpa [readDigits] using h
  | cons b l ih =>
    intro acc k h
    unfold readDigits
    rw [List.takeWhile_cons]
    by_cases hb : isDigitC b = true
    · rw [if_pos hb, if_pos hb]
      have hd := isDigitC_iff.mp hb
      have := ih (10 * acc + (b.toNat - 0x30)) (k + 1) (by rw [Nat.pow_succ]; omega)
      rw [List.length_cons, show k + ((List.takeWhile isDigitC l).length + 1) = k + 1 + (List.takeWhile isDigitC l).length by omega]
      exact this
    · rw [if_neg hb, if_neg hb]
      simpa using h

theorem readNumber_lt {l w : List Byte} (hi : l <:+: w) (hw : ShortNumbers w) : (readNumber l).2 < 10 ^ 18 := by
  have key : ∀ d : List Byte, d <:+: l → readDigits d 0 < 10 ^ 18 := by
    intro d hd
    have h1 := readDigits_lt d 0 0 (by decide)
    have h2 : (d.takeWhile isDigitC).length ≤ 18 := by
      refine hw _ (((List.takeWhile_prefix _).isInfix.trans hd).trans hi) fun b hb => ?_
      exact isDigitC_iff.mp (List.all_eq_true.mp List.all_takeWhile b hb)
    have h3 : 10 ^ (0 + (d.takeWhile isDigitC).length) ≤ 10 ^ 18 := Nat.pow_le_pow_right (by decide) (by omega)
    exact Nat.lt_of_lt_of_le h1 h3
  unfold readNumber
  have hs : l.dropWhile isSpaceC <:+: l := (List.dropWhile_suffix _).isInfix
  split
  · exact Nat.pow_pos (by decide)
  · next c r e =>
    rw [e] at hs
    have hr : r <:+: l := (List.infix_cons (List.infix_refl r)).trans hs
    split
    · exact key r hr
    · split
      · exact key r hr
      · exact key _ hs

theorem xerDecodeInteger_safe {tag : List Byte} (ht : NoNul tag) : XSafe ShortNumbers (xerDecodeInteger tag) (fun v => -(2 ^ 63) ≤ v ∧ v < 2 ^ 63) := by
  intro s hs hq
  unfold xerDecodeInteger
  obtain ⟨r, s1, e, h1, h2, _⟩ := primitiveText_safe (Q := ShortNumbers) tag (n := 256) (by decide) s hs hq
  cases r with
  | none => exact ⟨none, s1, xm_bind_none e, h1, h2, nofun⟩
  | some t =>
    rw [xm_bind_ok e]
    obtain ⟨_, _, l, ⟨c, hc, _, rfl⟩, hu⟩ := primitiveText_accepts ht (by decide) s hs t s1 e
    have hi : cstr c <:+: s.whole := by
      refine ((cstr_infix c).trans hc.infix).trans (List.IsInfix.trans ?_ (whole_of_unread s).isInfix)
      rw [hu]; exact (List.prefix_append l _).isInfix
    have hn := readNumber_lt hi hq
    unfold atollC
    dsimp only
    have hr : -(2 ^ 63) ≤ (if (readNumber (cstr c)).1 = true then -((readNumber (cstr c)).2 : Int) else (readNumber (cstr c)).2) ∧
        (if (readNumber (cstr c)).1 = true then -((readNumber (cstr c)).2 : Int) else (readNumber (cstr c)).2) < 2 ^ 63 := by
      generalize (readNumber (cstr c)).2 = k at hn; generalize (readNumber (cstr c)).1 = b; cases b <;> simp <;> omega
    rw [if_pos hr]
    exact ⟨_, s1, rfl, h1, h2, fun a ha => by cases ha; exact hr⟩

end Asn1
