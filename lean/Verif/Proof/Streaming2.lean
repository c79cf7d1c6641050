import Verif.Proof.Streaming
/-! Octet strings in the streaming build. -/
namespace Asn1

theorem push_skip {left : List Byte → List Byte → List Byte} {u : M Unit} {s : SStream} {β : Type} {g : SM β}
    (hu : ∀ t, u s.st = .ok ((), t) → t.currentByte ≠ t.count) :
    (liftS u >>= fun _ => pushIfRequired left >>= fun _ => g) s = (liftS u >>= fun _ => g) s := by
  rw [sbind_def, sbind_def]
  cases e : u s.st with
  | ok p =>
    obtain ⟨⟨⟩, t⟩ := p
    rw [liftS_ok e]
    simp only []
    have : pushIfRequired left { s with st := t } = .ok ((), { s with st := t }) := by
      rw [pushIfRequired, if_neg (hu t e)]
    rw [sbind_ok this]
  | ub => rw [liftS, e]
  | abort => rw [liftS, e]

/-- Running two pieces of code without hooks one after the other. -/
theorem liftS_seq {α β : Type} {f : M α} {g : α → M β} {h : α → SM β} {s : SStream}
    (hh : ∀ a t, f s.st = .ok (a, t) → h a { s with st := t } = liftS (g a) { s with st := t }) :
    (liftS f >>= h) s = liftS (f >>= g) s := by
  rw [sbind_def]
  cases e : f s.st with
  | ok p =>
    obtain ⟨a, t⟩ := p
    rw [liftS_ok e]
    simp only []
    rw [hh a t e]
    simp only [liftS]
    rw [bind_ok e]
  | ub => simp only [liftS, bind_def, e]
  | abort => simp only [liftS, bind_def, e]

theorem bufAnd_moves {k : Nat} {m : Byte} {s t : BitStream} (h : bufAnd k m s = .ok ((), t)) :
    t.currentByte = s.currentByte ∧ t.count = s.count ∧ t.currentBit = s.currentBit ∧ t.buf.length = s.buf.length := by
  by_cases hk : k < s.buf.length
  · rw [bufAnd_run hk] at h
    have := (Prod.mk.inj (Res.ok.inj h)).2
    rw [← this]; simp
  · exfalso
    simp only [bufAnd, bind_def, bufGet, List.getElem?_eq_none (by omega : s.buf.length ≤ k)] at h
    cases h

theorem bufOr_moves {k : Nat} {m : Byte} {s t : BitStream} (h : bufOr k m s = .ok ((), t)) :
    t.currentByte = s.currentByte ∧ t.count = s.count ∧ t.currentBit = s.currentBit ∧ t.buf.length = s.buf.length := by
  by_cases hk : k < s.buf.length
  · rw [bufOr_run hk] at h
    have := (Prod.mk.inj (Res.ok.inj h)).2
    rw [← this]; simp
  · exfalso
    simp only [bufOr, bind_def, bufGet, List.getElem?_eq_none (by omega : s.buf.length ≤ k)] at h
    cases h

theorem bind_inv {α β : Type} {x : M α} {f : α → M β} {s : BitStream} {r : β × BitStream} (h : (x >>= f) s = .ok r) :
    ∃ a t, x s = .ok (a, t) ∧ f a t = .ok r := by
  rw [bind_def] at h
  cases e : x s with
  | ok p => obtain ⟨a, t⟩ := p; rw [e] at h; exact ⟨a, t, rfl, h⟩
  | ub => rw [e] at h; cases h
  | abort => rw [e] at h; cases h

theorem andOrInc_moves {k : Nat} {m x : Byte} {s t : BitStream}
    (h : (bufAnd k m >>= fun _ => bufOr k x >>= fun _ => incByte) s = .ok ((), t)) :
    t.currentByte = s.currentByte + 1 ∧ t.count = s.count ∧ t.currentBit = s.currentBit ∧ t.buf.length = s.buf.length := by
  obtain ⟨⟨⟩, t1, h1, h⟩ := bind_inv h
  obtain ⟨⟨⟩, t2, h2, h⟩ := bind_inv h
  have e1 := bufAnd_moves h1
  have e2 := bufOr_moves h2
  have := (Prod.mk.inj (Res.ok.inj h)).2
  rw [← this]
  simp only []
  exact ⟨by omega, by omega, by omega, by omega⟩

theorem orInc_moves {k : Nat} {x : Byte} {s t : BitStream}
    (h : (bufOr k x >>= fun _ => incByte) s = .ok ((), t)) :
    t.currentByte = s.currentByte + 1 ∧ t.count = s.count ∧ t.currentBit = s.currentBit ∧ t.buf.length = s.buf.length := by
  obtain ⟨⟨⟩, t2, h2, h⟩ := bind_inv h
  have e2 := bufOr_moves h2
  have := (Prod.mk.inj (Res.ok.inj h)).2
  rw [← this]
  simp only []
  exact ⟨by omega, by omega, by omega, by omega⟩

/-- The middle loop never sends the buffer if the array fits. -/
theorem sByteArrayLoop_eq (left : List Byte → List Byte → List Byte) (arr : List Byte) (cb ncb : Nat) :
    ∀ (n i : Nat) (s : SStream), s.st.currentByte + n < s.st.count →
      sByteArrayLoop left arr cb ncb n i s = liftS (appendByteArrayLoop arr cb ncb n i) s := by
  intro n
  induction n with
  | zero => intro i s _; rfl
  | succ n ih =>
    intro i s hs
    rw [sByteArrayLoop, appendByteArrayLoop]
    apply liftS_seq
    intro v t hv
    have ht : t = s.st := by
      simp only [tblGet] at hv
      split at hv
      · exact ((Prod.mk.inj (Res.ok.inj hv)).2).symm
      · cases hv
    subst ht
    rw [liftS_getS_bind]
    rw [push_skip (by
      intro t ht
      have := orInc_moves ht
      dsimp only at this
      omega)]
    rw [show (getS >>= fun s => bufOr s.currentByte (v >>> cb) >>= fun _ => incByte >>= fun _ =>
        bufOr (s.currentByte + 1) (v <<< ncb) >>= fun _ => appendByteArrayLoop arr cb ncb n (i + 1)) =
      (getS >>= fun s => (bufOr s.currentByte (v >>> cb) >>= fun _ => incByte) >>= fun _ =>
        bufOr (s.currentByte + 1) (v <<< ncb) >>= fun _ => appendByteArrayLoop arr cb ncb n (i + 1)) by
        simp only [bind_assoc]]
    show _ = liftS ((bufOr s.st.currentByte (v >>> cb) >>= fun _ => incByte) >>= fun _ =>
        bufOr (s.st.currentByte + 1) (v <<< ncb) >>= fun _ => appendByteArrayLoop arr cb ncb n (i + 1)) s
    apply liftS_seq
    intro _ t ht
    have hmv := orInc_moves ht
    rw [liftS_getS_bind]
    simp only [hmv.1]
    apply liftS_seq
    intro _ t2 ht2
    have hmv2 := bufOr_moves ht2
    dsimp only at hmv hmv2
    exact ih _ _ (by dsimp only; omega)

theorem appendByteArrayLoop_moves (arr : List Byte) (cb ncb : Nat) :
    ∀ (n i : Nat) (s t : BitStream), appendByteArrayLoop arr cb ncb n i s = .ok ((), t) →
      t.currentByte = s.currentByte + n ∧ t.count = s.count := by
  intro n
  induction n with
  | zero =>
    intro i s t h
    have := (Prod.mk.inj (Res.ok.inj h)).2
    subst this; simp
  | succ n ih =>
    intro i s t h
    rw [appendByteArrayLoop] at h
    obtain ⟨v, t1, h1, h⟩ := bind_inv h
    obtain ⟨_, t2, h2, h⟩ := bind_inv h
    obtain ⟨_, t3, h3, h⟩ := bind_inv h
    obtain ⟨_, t4, h4, h⟩ := bind_inv h
    obtain ⟨_, t5, h5, h⟩ := bind_inv h
    have e1 : t1 = s := by
      simp only [tblGet] at h1
      split at h1
      · exact ((Prod.mk.inj (Res.ok.inj h1)).2).symm
      · cases h1
    have e2 : t2 = t1 := ((Prod.mk.inj (Res.ok.inj h2)).2).symm
    have e3 := bufOr_moves h3
    have e4 : t4 = _ := ((Prod.mk.inj (Res.ok.inj h4)).2).symm
    have e5 := bufOr_moves h5
    have := ih _ _ _ h
    subst e1 e2 e4
    simp only [] at e5
    omega

theorem tblGet_same {α : Type} {l : List α} {i : Nat} {v : α} {s t : BitStream} (h : tblGet l i s = .ok (v, t)) : t = s := by
  simp only [tblGet] at h
  split at h
  · exact ((Prod.mk.inj (Res.ok.inj h)).2).symm
  · cases h

/-- `AppendByteArray` behaves as in the other build if the array fits and does not start at a byte boundary. -/
theorem sAppendByteArray_eq (left : List Byte → List Byte → List Byte) (arr : List Byte) (n : Nat) (s : SStream)
    (h0 : s.st.currentBit ≠ 0) (hfit : (s.st.currentByte + n) * 8 + s.st.currentBit ≤ s.st.count * 8) :
    sAppendByteArray left arr n s = liftS (appendByteArray arr n) s := by
  rw [sAppendByteArray, liftS_getS_bind]
  show _ = liftS (tblGet masksb (8 - s.st.currentBit) >>= fun mb => _) s
  apply liftS_seq
  intro mb t hmb
  have := tblGet_same hmb
  subst this
  have hng : ¬ ((s.st.currentByte + n) * 8 + s.st.currentBit > s.st.count * 8) := by omega
  rw [if_neg hng, if_neg hng]
  -- first byte
  have hseq : ∀ {α β : Type} {f' : SM α} {f : M α} {h : α → SM β} {g : α → M β},
      (f' s = liftS f s) → (∀ a t, f s.st = .ok (a, t) → h a { s with st := t } = liftS (g a) { s with st := t }) →
      (f' >>= h) s = liftS (f >>= g) s := by
    intro α β f' f h g e hh
    rw [sbind_def, e, ← sbind_def]
    exact liftS_seq hh
  by_cases hn0 : n > 0
  · simp only [hn0, if_true]
    refine hseq (f := do
      let v ← tblGet arr 0
      bufAnd s.st.currentByte (~~~mb)
      bufOr s.st.currentByte (v >>> s.st.currentBit)
      incByte
      bufAnd (s.st.currentByte + 1) (~~~(~~~mb))
      bufOr (s.st.currentByte + 1) (v <<< (8 - s.st.currentBit))) ?_ ?_
    · apply liftS_seq
      intro v t hv
      have := tblGet_same hv
      subst this
      rw [push_skip (by
        intro t ht
        have := andOrInc_moves ht
        dsimp only at this
        omega)]
      rw [show (bufAnd s.st.currentByte (~~~mb) >>= fun _ => bufOr s.st.currentByte (v >>> s.st.currentBit) >>= fun _ =>
          incByte >>= fun _ => bufAnd (s.st.currentByte + 1) (~~~(~~~mb)) >>= fun _ => bufOr (s.st.currentByte + 1) (v <<< (8 - s.st.currentBit))) =
        ((bufAnd s.st.currentByte (~~~mb) >>= fun _ => bufOr s.st.currentByte (v >>> s.st.currentBit) >>= fun _ =>
          incByte) >>= fun _ => bufAnd (s.st.currentByte + 1) (~~~(~~~mb)) >>= fun _ => bufOr (s.st.currentByte + 1) (v <<< (8 - s.st.currentBit))) by
          simp only [bind_assoc]]
      apply liftS_seq
      intro _ t ht
      have hmv := andOrInc_moves ht
      rw [liftS_getS_bind]
      simp only [hmv.1]
    · intro _ t ht
      have hmv : t.currentByte = s.st.currentByte + 1 ∧ t.count = s.st.count := by
        obtain ⟨v, t1, h1, ht⟩ := bind_inv ht
        have := tblGet_same h1
        subst this
        obtain ⟨_, t2, h2, ht⟩ := bind_inv ht
        obtain ⟨_, t3, h3, ht⟩ := bind_inv ht
        obtain ⟨_, t4, h4, ht⟩ := bind_inv ht
        obtain ⟨_, t5, h5, ht⟩ := bind_inv ht
        have e2 := bufAnd_moves h2
        have e3 := bufOr_moves h3
        have e4 : t4 = _ := ((Prod.mk.inj (Res.ok.inj h4)).2).symm
        have e5 := bufAnd_moves h5
        have e6 := bufOr_moves ht
        subst e4
        simp only [] at e5
        omega
      have hloop := sByteArrayLoop_eq left arr s.st.currentBit (8 - s.st.currentBit) (n - 1 - 1) 1 { s with st := t }
        (by simp only []; omega)
      rw [sbind_def, hloop, ← sbind_def]
      apply liftS_seq
      intro _ t2 ht2
      have hmv2 := appendByteArrayLoop_moves arr _ _ _ _ _ _ ht2
      simp only [] at hmv2
      by_cases hn1 : n - 1 > 0
      · simp only [hn1, if_true]
        have hseq2 : ∀ {α β : Type} {u : SStream} {f' : SM α} {f : M α} {h : α → SM β} {g : α → M β},
            (f' u = liftS f u) → (∀ a t, f u.st = .ok (a, t) → h a { u with st := t } = liftS (g a) { u with st := t }) →
            (f' >>= h) u = liftS (f >>= g) u := by
          intro α β u f' f h g e hh
          rw [sbind_def, e, ← sbind_def]
          exact liftS_seq hh
        refine hseq2 (u := { s with st := t2 }) ?_ (fun _ _ _ => rfl)
        apply liftS_seq
        intro v t3 ht3
        have := tblGet_same ht3
        subst this
        rw [liftS_getS_bind]
        simp only [ne_eq, h0, not_false_eq_true, if_true]
        rw [push_skip (by
          intro t ht
          have := andOrInc_moves ht
          simp only [] at this
          omega)]
        show _ = liftS (bufAnd t3.currentByte (~~~mb) >>= fun _ => bufOr t3.currentByte (v >>> s.st.currentBit) >>= fun _ =>
          incByte >>= fun _ => bufAnd (t3.currentByte + 1) (~~~(~~~mb)) >>= fun _ => bufOr (t3.currentByte + 1) (v <<< (8 - s.st.currentBit))) { s with st := t3 }
        rw [show (bufAnd t3.currentByte (~~~mb) >>= fun _ => bufOr t3.currentByte (v >>> s.st.currentBit) >>= fun _ =>
          incByte >>= fun _ => bufAnd (t3.currentByte + 1) (~~~(~~~mb)) >>= fun _ => bufOr (t3.currentByte + 1) (v <<< (8 - s.st.currentBit))) =
          ((bufAnd t3.currentByte (~~~mb) >>= fun _ => bufOr t3.currentByte (v >>> s.st.currentBit) >>= fun _ =>
          incByte) >>= fun _ => bufAnd (t3.currentByte + 1) (~~~(~~~mb)) >>= fun _ => bufOr (t3.currentByte + 1) (v <<< (8 - s.st.currentBit))) by
            simp only [bind_assoc]]
        apply liftS_seq
        intro _ t4 ht4
        have hmv4 := andOrInc_moves ht4
        rw [liftS_getS_bind]
        simp only [hmv4.1]
      · simp only [hn1, if_false]
        rfl
  · have : n = 0 := by omega
    subst this
    rfl

/-- The octet string function if the octets fit into the current buffer. -/
theorem sOctets_appends {z : Bool} {n : Nat} {left : List Byte → List Byte → List Byte} (hleft : Leaves z left) {arr : List Byte}
    {k : Nat} (hk : k ≤ arr.length) (pos : Nat) (hfit : pos % (8 * n) + 8 * k ≤ 8 * n) (hz : z = true ∨ pos % 8 = 0) :
    SAppendsAt z n pos (sEncodeOctetStringNoLength left arr k) true (bytesBits (arr.take k)) := by
  intro s bs hs hbl
  have hb := hs.bit
  have hby := hs.byte
  have hc := hs.count
  have hmod := hs.pos_mod
  have hmod8 := hs.pos_mod8
  rw [hbl] at hmod hmod8
  rw [hmod] at hfit
  obtain ⟨tail, hbs, hh, hl⟩ := hs.held
  have hcap := hh.cap
  rw [sEncodeOctetStringNoLength, liftS_getS_bind]
  by_cases h0 : s.st.currentBit = 0
  · rw [if_pos h0]
    have hp : s.st.pos = 8 * s.st.currentByte := by simp only [BitStream.pos]; omega
    rw [hp] at hfit
    cases k with
    | zero => exact ⟨s, rfl, by simpa using hs⟩
    | succ k =>
      rw [sOctetsLoop, if_pos (by omega)]
      have hcp : memcpyIn s.st.currentByte arr (k + 1) s.st = .ok ((), { s.st with
          buf := s.st.buf.take s.st.currentByte ++ arr.take (k + 1) ++ s.st.buf.drop (s.st.currentByte + (k + 1)) }) := by
        simp only [memcpyIn]; rw [if_pos ⟨hk, by omega⟩]
      have hlen : (bytesBits (arr.take (k + 1))).length = 8 * (k + 1) := by
        rw [bytesBits_length, List.length_take]; omega
      obtain ⟨s1, hr1, hm1, hlt1, hb1⟩ := push_run (z := z) (n := n) hleft (by omega)
        (s := { s with st := { s.st with
          buf := s.st.buf.take s.st.currentByte ++ arr.take (k + 1) ++ s.st.buf.drop (s.st.currentByte + (k + 1)),
          currentByte := s.st.currentByte + (k + 1) } })
        (bs := bs ++ bytesBits (arr.take (k + 1)))
        ⟨hc, by simp only []; omega, hs.whole, tail ++ bytesBits (arr.take (k + 1)), by rw [← List.append_assoc, hbs], by
          refine ⟨by simp; omega, by rw [List.length_append, hlen, hl]; omega, ?_, ?_⟩
          · intro i hi
            rw [List.length_append, hlen] at hi
            simp only []
            rw [bitAt_memcpy hk (by omega), List.getElem?_append]
            by_cases h1 : i < tail.length
            · rw [if_pos h1, if_neg (by omega), hh.bits i h1]
            · rw [if_neg h1, if_pos (by omega), hl, hp, bytesBits_getD, bitAt_take (by omega)]
          · intro hz i h1 h2
            rw [List.length_append, hlen] at h1
            simp only []
            rw [bitAt_memcpy hk (by omega), if_neg (by omega)]
            exact hh.rest hz i (by omega) h2, by
          rw [List.length_append, hlen, hl, hp]; simp only []; omega⟩
      refine ⟨s1, ?_, hm1.done hlt1 (by rw [hb1]; exact h0)⟩
      have hloop : (liftS getS >>= fun s' => (liftS (do
            memcpyIn s'.currentByte arr (if s'.currentByte + (k + 1) ≤ s'.count then (k + 1) else s'.count - s'.currentByte)
            modS fun t => { t with currentByte := t.currentByte + (if s'.currentByte + (k + 1) ≤ s'.count then (k + 1) else s'.count - s'.currentByte) })
          >>= fun _ => pushIfRequired left >>= fun _ => sOctetsLoop left arr k (k + 1 - (if s'.currentByte + (k + 1) ≤ s'.count then (k + 1) else s'.count - s'.currentByte)))) s = .ok ((), s1) := by
        rw [liftS_getS_bind, if_pos (show s.st.currentByte + (k + 1) ≤ s.st.count by omega)]
        rw [liftS_bind_ok (a := ()) (t := { s.st with
          buf := s.st.buf.take s.st.currentByte ++ arr.take (k + 1) ++ s.st.buf.drop (s.st.currentByte + (k + 1)),
          currentByte := s.st.currentByte + (k + 1) }) (by rw [bind_ok hcp]; rfl), sbind_ok hr1, Nat.sub_self]
        cases k with
        | zero => rfl
        | succ k => rw [sOctetsLoop, if_neg (by omega)]; rfl
      rw [sbind_ok hloop]; rfl
  · rw [if_neg h0]
    have hzt : z = true := by rcases hz with h | h; · exact h
                              · omega
    subst hzt
    have hp : s.st.pos = 8 * s.st.currentByte + s.st.currentBit := rfl
    rw [hp] at hfit
    rw [sAppendByteArray_eq left arr k s h0 (by omega)]
    have henc : EncSt s.st tail := by
      refine ⟨⟨hb, by omega⟩, hl.symm, by rw [hc]; exact hh.room, ?_⟩
      intro i hi
      by_cases h1 : i < tail.length
      · exact hh.bits i h1
      · rw [hh.rest rfl i (by omega) (by omega), List.getElem?_eq_none (by omega)]; rfl
    have hlen : (bytesBits (arr.take k)).length = 8 * k := by
      rw [bytesBits_length, List.length_take]; omega
    have happ := encodeOctetStringNoLength_appends (n := k) hk s.st tail henc (by rw [hlen, hl, hc, hp]; omega)
    obtain ⟨t, hr, he, hf⟩ := happ
    rw [encodeOctetStringNoLength, getS_bind, if_neg h0] at hr
    refine ⟨_, liftS_ok hr, ?_⟩
    have hpos' := he.pos
    rw [List.length_append, hlen, hl, hp] at hpos'
    have hbit' := he.wf.bit
    refine ⟨hf.count.trans hc, hbit', ?_, hs.whole, tail ++ bytesBits (arr.take k), by rw [← List.append_assoc, hbs], ⟨?_, ?_, ?_, ?_⟩, he.pos.symm⟩
    · simp only [BitStream.pos] at hpos' ⊢; omega
    · have := he.wf.cap; rw [hf.count, hc] at this; exact this
    · have := he.room; rw [hf.count, hc] at this; exact this
    · intro i hi
      have := he.room
      exact he.bits i (by omega)
    · intro _ i h1 h2
      rw [he.bits i (by rw [hf.count, hc]; exact h2), List.getElem?_eq_none h1]; rfl

end Asn1
