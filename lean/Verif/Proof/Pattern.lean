import Verif.Model.Pattern
import Verif.Proof.BitStrings
import Verif.Proof.Oid
/-! Bit patterns. -/
namespace Asn1

theorem DecSt.ofEq {s s' : BitStream} {rest : List Bool} (h : DecSt s rest) (hb : s'.buf = s.buf) (hc : s'.count = s.count)
    (hp : s'.pos = s.pos) (hbit : s'.currentBit < 8) : DecSt s' rest := by
  have := decSt_advance (w := []) (rest := rest) (s' := s') h hb hc hbit (by simpa using hp)
  exact this

/-- The next byte of a reader with at least eight unread bits. -/
theorem nextByte {rest : List Bool} (h : 8 ≤ rest.length) :
    ∃ b : Byte, rest = byteBits b ++ rest.drop 8 := by
  obtain ⟨b, hb⟩ := exists_byte (fun i => rest[i]?.getD false)
  refine ⟨b, ?_⟩
  conv => lhs; rw [← List.take_append_drop 8 rest]
  congr 1
  apply List.ext_getElem?
  intro i
  by_cases hi : i < 8
  · rw [List.getElem?_take, if_pos hi, byteBits_getElem? _ _ hi, hb i hi, List.getElem?_eq_getElem (by omega)]; rfl
  · rw [List.getElem?_eq_none (by simp; omega), List.getElem?_eq_none (by simp; omega)]

theorem restoreCursor_run {s s0 : BitStream} (hb : s.buf = s0.buf) (hc : s.count = s0.count) :
    restoreCursor s0.currentByte s0.currentBit s = .ok ((), s0) := by
  obtain ⟨b, c, x, y⟩ := s
  obtain ⟨b0, c0, x0, y0⟩ := s0
  simp only at hb hc
  subst hb; subst hc
  rfl

theorem prefix_append_iff {a b w : List Bool} : a ++ b <+: w ↔ a <+: w ∧ b <+: w.drop a.length := by
  constructor
  · rintro ⟨t, rfl⟩
    exact ⟨⟨b ++ t, by simp⟩, ⟨t, by simp⟩⟩
  · rintro ⟨⟨t, rfl⟩, ⟨u, hu⟩⟩
    refine ⟨u, ?_⟩
    rw [List.append_assoc, hu]; simp

theorem prefix_take_iff {a w : List Bool} {n : Nat} (h : a.length = n) : a <+: w ↔ a = w.take n := by
  subst h; exact List.prefix_iff_eq_take

theorem checkPatternBytes_run (pat : List Byte) (s0 : BitStream) (n : Nat) : ∀ (i : Nat) (s : BitStream) (rest : List Bool),
    i + n ≤ pat.length → DecSt s rest → 8 * n ≤ rest.length → s.buf = s0.buf → s.count = s0.count →
    (bytesBits ((pat.drop i).take n) <+: rest ∧ ∃ s', checkPatternBytes pat s0.currentByte s0.currentBit n i s = .ok (none, s') ∧
        DecSt s' (rest.drop (8 * n)) ∧ s'.buf = s0.buf ∧ s'.count = s0.count) ∨
    (¬ bytesBits ((pat.drop i).take n) <+: rest ∧ checkPatternBytes pat s0.currentByte s0.currentBit n i s = .ok (some 1, s0)) := by
  induction n with
  | zero =>
    intro i s rest _ hs _ hb hc
    exact Or.inl ⟨by simp [bytesBits], s, rfl, by simpa using hs, hb, hc⟩
  | succ n ih =>
    intro i s rest hi hs hlen hb hc
    have hlt : i < pat.length := by omega
    obtain ⟨b, hr⟩ := nextByte (rest := rest) (by omega)
    have hs' := hs
    rw [hr] at hs'
    obtain ⟨s1, h1, h2, h3, h4⟩ := readByte_reads b s _ hs'
    rw [List.drop_eq_getElem_cons hlt, List.take_succ_cons, bytesBits_cons]
    simp only [checkPatternBytes]
    rw [bind_ok h1]
    simp only [if_true]
    rw [tblGet_pure hlt, pure_bind]
    by_cases e : pat[i] = b
    · have hne : ¬ pat[i] ≠ b := fun h => h e
      rw [if_neg hne]
      rcases ih (i + 1) s1 (rest.drop 8) (by omega) h2 (by simp; omega) (h3.trans hb) (h4.trans hc) with ⟨p, s', q1, q2, q3, q4⟩ | ⟨p, q⟩
      · refine Or.inl ⟨?_, s', q1, ?_, q3, q4⟩
        · rw [prefix_append_iff]
          exact ⟨⟨rest.drop 8, by rw [e]; exact hr.symm⟩, by simpa using p⟩
        · rw [List.drop_drop] at q2
          rw [show 8 * (n + 1) = 8 + 8 * n by omega]; exact q2
      · refine Or.inr ⟨?_, q⟩
        rw [prefix_append_iff]
        intro h
        exact p (by simpa using h.2)
    · have hne : pat[i] ≠ b := e
      rw [if_pos hne]
      refine Or.inr ⟨?_, ?_⟩
      · rw [prefix_append_iff]
        intro h
        have := (prefix_take_iff (n := 8) (by simp)).1 h.1
        rw [hr, List.take_left' (by simp)] at this
        exact e (byteBits_inj this)
      · rw [bind_ok (restoreCursor_run (h3.trans hb) (h4.trans hc))]; rfl

/-- `nbits` bits as a number. -/
theorem bits_number {l : List Bool} {n : Nat} (h : l.length = n) (h8 : n ≤ 8) :
    ∃ v : Byte, v.toNat < 2 ^ n ∧ l = bitsMsb n v.toNat := by
  have hlt := natOfBits_lt l
  rw [h] at hlt
  have h2 : 2 ^ n ≤ 2 ^ 8 := Nat.pow_le_pow_right (by omega) h8
  have e : natOfBits l % 2 ^ 8 = natOfBits l := Nat.mod_eq_of_lt (by omega)
  refine ⟨BitVec.ofNat 8 (natOfBits l), by rw [BitVec.toNat_ofNat, e]; exact hlt, ?_⟩
  rw [BitVec.toNat_ofNat, e, ← h, bitsMsb_natOfBits]

theorem shiftLeft_bits {v : Byte} {n : Nat} (h8 : n ≤ 8) : byteBits (v <<< (8 - n)) = bitsMsb n v.toNat ++ List.replicate (8 - n) false := by
  have e : byteBits (v <<< (8 - n)) = bitsMsb (n + (8 - n)) (v <<< (8 - n)).toNat := by
    rw [byteBits]; congr 1; omega
  rw [e, BitVec.toNat_shiftLeft]
  apply List.ext_getElem?
  intro i
  rw [bitsMsb_getElem?, List.getElem?_append, bitsMsb_length, bitsMsb_getElem?, List.getElem?_replicate]
  by_cases h1 : i < n
  · rw [if_pos (by omega), if_pos h1, if_pos h1, Nat.testBit_mod_two_pow, Nat.testBit_shiftLeft]
    congr 1
    simp only [show n + (8 - n) - 1 - i < 8 by omega, decide_true, Bool.true_and, show n + (8 - n) - 1 - i ≥ 8 - n by omega]
    congr 1; omega
  · rw [if_neg h1]
    by_cases h2 : i < 8
    · rw [if_pos (by omega), if_pos (by omega), Nat.testBit_mod_two_pow, Nat.testBit_shiftLeft]
      congr 1
      simp only [show ¬ (n + (8 - n) - 1 - i ≥ 8 - n) by omega, decide_false, Bool.false_and, Bool.and_false]
    · rw [if_neg (by omega), if_neg (by omega)]

theorem checkBitPatternPresent_run {p : List Bool} {pat : List Byte} (hp : Packed p pat) {s : BitStream} {rest : List Bool}
    (hs : DecSt s rest) :
    (p <+: rest → ∃ s', checkBitPatternPresent pat p.length s = .ok (2, s') ∧ DecSt s' (rest.drop p.length) ∧ s'.buf = s.buf ∧ s'.count = s.count) ∧
    (p.length ≤ rest.length → ¬ p <+: rest → checkBitPatternPresent pat p.length s = .ok (1, s)) ∧
    (rest.length < p.length → checkBitPatternPresent pat p.length s = .ok (0, s)) := by
  have hpos := hs.pos
  simp only [BitStream.pos] at hpos
  obtain ⟨hl, hbits⟩ := hp
  have hshort : rest.length < p.length → checkBitPatternPresent pat p.length s = .ok (0, s) := by
    intro h
    simp only [checkBitPatternPresent, getS_bind]
    rw [if_pos (by omega)]; rfl
  -- the pattern split into whole bytes and the rest
  have hsplit : p = bytesBits (pat.take (p.length / 8)) ++ p.drop (8 * (p.length / 8)) := by
    conv => lhs; rw [← List.take_append_drop (8 * (p.length / 8)) p]
    congr 1
    have : p.take (8 * (p.length / 8)) = (bytesBits pat).take (8 * (p.length / 8)) := by
      rw [hbits, List.take_append_of_le_length (by omega)]
    rw [this]
    conv => lhs; rw [← List.take_append_drop (p.length / 8) pat, bytesBits_append]
    rw [List.take_left' (by simp; omega)]
  have hbl : (bytesBits (pat.take (p.length / 8))).length = 8 * (p.length / 8) := by simp; omega
  have main : p.length ≤ rest.length →
      (p <+: rest ∧ ∃ s', checkBitPatternPresent pat p.length s = .ok (2, s') ∧ DecSt s' (rest.drop p.length) ∧ s'.buf = s.buf ∧ s'.count = s.count) ∨
      (¬ p <+: rest ∧ checkBitPatternPresent pat p.length s = .ok (1, s)) := by
    intro hle
    simp only [checkBitPatternPresent, getS_bind]
    rw [if_neg (by omega)]
    have hpre : p <+: rest ↔ bytesBits (pat.take (p.length / 8)) <+: rest ∧ p.drop (8 * (p.length / 8)) <+: rest.drop (8 * (p.length / 8)) := by
      conv => lhs; rw [hsplit]
      rw [prefix_append_iff, hbl]
    have := checkPatternBytes_run pat s (p.length / 8) 0 s rest (by omega) hs (by omega) rfl rfl
    rw [List.drop_zero] at this
    rcases this with ⟨q, s1, q1, q2, q3, q4⟩ | ⟨q, q1⟩
    · rw [bind_ok q1]
      simp only
      by_cases hr : p.length % 8 > 0
      · rw [if_pos hr]
        have hdl : (p.drop (8 * (p.length / 8))).length = p.length % 8 := by simp; omega
        have htl : ((rest.drop (8 * (p.length / 8))).take (p.length % 8)).length = p.length % 8 := by simp; omega
        obtain ⟨v, hv, hvb⟩ := bits_number htl (by omega)
        have hs1 := q2
        rw [← List.take_append_drop (p.length % 8) (rest.drop _), hvb] at hs1
        obtain ⟨s2, r1, r2, r3, r4⟩ := readPartialByte_reads hr (by omega) hv s1 _ hs1
        rw [bind_ok r1]
        simp only [if_true]
        have hidx : p.length / 8 < pat.length := by omega
        rw [tblGet_pure hidx, pure_bind]
        -- the last pattern byte
        have hlast : byteBits pat[p.length / 8] = p.drop (8 * (p.length / 8)) ++ List.replicate (8 - p.length % 8) false := by
          have e1 : pat = pat.take (p.length / 8) ++ [pat[p.length / 8]] := by
            conv => lhs; rw [← List.take_append_drop (p.length / 8) pat, List.drop_eq_getElem_cons hidx]
            rw [List.drop_of_length_le (by omega)]
          have e2 := hbits
          conv at e2 => lhs; rw [e1, bytesBits_append]
          conv at e2 => rhs; lhs; rw [hsplit]
          rw [List.append_assoc] at e2
          have := List.append_cancel_left e2
          rw [bytesBits_cons, bytesBits_nil, List.append_nil] at this
          rw [this]
          congr 2; omega
        have heq : pat[p.length / 8] = v <<< (8 - p.length % 8) ↔ p.drop (8 * (p.length / 8)) <+: rest.drop (8 * (p.length / 8)) := by
          rw [prefix_take_iff hdl, hvb]
          constructor
          · intro e
            rw [e, shiftLeft_bits (by omega)] at hlast
            exact (List.append_inj hlast (by simp; omega)).1.symm
          · intro e
            apply byteBits_inj
            rw [hlast, shiftLeft_bits (by omega), e]
        by_cases hc : pat[p.length / 8] = v <<< (8 - p.length % 8)
        · refine Or.inl ⟨hpre.2 ⟨q, heq.1 hc⟩, s2, ?_, ?_, r3.trans q3, r4.trans q4⟩
          · rw [if_neg (fun h => h hc)]; rfl
          · rw [List.drop_drop] at r2
            rw [show p.length = 8 * (p.length / 8) + p.length % 8 by omega]
            simpa using r2
        · refine Or.inr ⟨fun h => hc (heq.2 (hpre.1 h).2), ?_⟩
          rw [if_pos hc, bind_ok (restoreCursor_run (r3.trans q3) (r4.trans q4))]; rfl
      · rw [if_neg hr]
        refine Or.inl ⟨hpre.2 ⟨q, ?_⟩, s1, rfl, ?_, q3, q4⟩
        · rw [List.drop_of_length_le (by omega)]; simp
        · rw [show p.length = 8 * (p.length / 8) by omega]; simpa using q2
    · rw [bind_ok q1]
      exact Or.inr ⟨fun h => q (hpre.1 h).1, rfl⟩
  refine ⟨fun h => ?_, fun hle h => ?_, hshort⟩
  · rcases main h.length_le with h' | h'
    · exact h'.2
    · exact absurd h h'.1
  · rcases main hle with h' | h'
    · exact absurd h'.1 h
    · exact h'.2

theorem onStream_ok {α : Type} {f : M α} {t t' : BitStream} {a : α} (h : f t = .ok (a, t')) (s : BitStream) :
    onStream f t s = .ok ((a, t'), s) := by
  simp only [onStream, h]

theorem readBitsNTLoop_run {p : List Bool} {pat : List Byte} (hp : Packed p pat) (rest : List Bool) (t0 : BitStream) (left : Nat) :
    ∀ (chk j : Nat) (tmp s : BitStream), DecSt s (rest.drop j) → EncSt tmp (rest.take j) → j ≤ rest.length →
      j + left ≤ 8 * tmp.count → Frame t0 tmp →
    ∃ c i tmp' s', readBitsNTLoop pat p.length left chk j tmp s = .ok ((true, (c, i, tmp')), s') ∧
      EncSt tmp' (rest.take i) ∧ Frame t0 tmp' ∧ j ≤ i ∧ i ≤ j + left ∧ i ≤ rest.length ∧ s'.buf = s.buf ∧ s'.count = s.count ∧
      (∀ k, j ≤ k → k < i → ¬ p <+: rest.drop k) ∧
      (c = 2 ∧ i < j + left ∧ p <+: rest.drop i ∧ DecSt s' (rest.drop (i + p.length)) ∨
       c = 0 ∧ i < j + left ∧ rest.length - i < p.length ∨
       i = j + left ∧ DecSt s' (rest.drop i) ∧ c = (if left = 0 then chk else 1)) := by
  induction left with
  | zero =>
    intro chk j tmp s hs ht hj hroom hf
    exact ⟨chk, j, tmp, s, rfl, ht, hf, Nat.le_refl _, Nat.le_refl _, hj, rfl, rfl, fun k h1 h2 => absurd h1 (by omega),
      Or.inr (Or.inr ⟨rfl, hs, rfl⟩)⟩
  | succ left ih =>
    intro chk j tmp s hs ht hj hroom hf
    obtain ⟨hfound, hdiff, hshort⟩ := checkBitPatternPresent_run hp hs
    simp only [readBitsNTLoop]
    by_cases h1 : p <+: rest.drop j
    · obtain ⟨s', r1, r2, r3, r4⟩ := hfound h1
      refine ⟨2, j, tmp, s', ?_, ht, hf, Nat.le_refl _, by omega, hj, r3, r4, fun k a b => absurd a (by omega),
        Or.inl ⟨rfl, by omega, h1, by rw [List.drop_drop] at r2; exact r2⟩⟩
      rw [bind_ok r1, if_neg (by omega)]; rfl
    · by_cases h2 : p.length ≤ (rest.drop j).length
      · have r1 := hdiff h2 h1
        have hp0 : 0 < p.length := by
          rcases Nat.eq_zero_or_pos p.length with h | h
          · rw [List.eq_nil_of_length_eq_zero h] at h1
            exact absurd (List.nil_prefix) h1
          · exact h
        rw [List.length_drop] at h2
        have hlt : j < rest.length := by omega
        have hs' := hs
        rw [List.drop_eq_getElem_cons hlt] at hs'
        obtain ⟨s1, q1, q2, q3, q4⟩ := readBit_reads rest[j] s (rest.drop (j + 1)) hs'
        obtain ⟨tmp1, w1, w2, w3⟩ := (appendBit_writes rest[j]).appends tmp _ ht (by simp; omega)
        rw [bind_ok r1, if_pos rfl, bind_ok q1]
        simp only [if_true]
        rw [bind_ok (onStream_ok w1 s1)]
        have ht1 : EncSt tmp1 (rest.take (j + 1)) := by
          rw [List.take_succ_eq_append_getElem hlt]; exact w2
        obtain ⟨c, i, tmp', s', e1, e2, e3, e4, e5, e6, e7, e8, e9, e10⟩ :=
          ih 1 (j + 1) tmp1 s1 q2 ht1 (by omega) (by rw [w3.count]; omega) (hf.trans w3)
        refine ⟨c, i, tmp', s', e1, e2, e3, by omega, by omega, e6, e7.trans q3, e8.trans q4, ?_, ?_⟩
        · intro k hk1 hk2
          rcases Nat.lt_or_ge j k with h | h
          · exact e9 k h hk2
          · rw [show k = j by omega]; exact h1
        · rcases e10 with h | h | h
          · exact Or.inl ⟨h.1, by omega, h.2.2⟩
          · exact Or.inr (Or.inl ⟨h.1, by omega, h.2.2⟩)
          · refine Or.inr (Or.inr ⟨by omega, h.2.1, ?_⟩)
            rw [h.2.2]; split <;> simp
      · have r1 := hshort (by omega)
        rw [List.length_drop] at h2
        refine ⟨0, j, tmp, s, ?_, ht, hf, Nat.le_refl _, by omega, hj, rfl, rfl, fun k a b => absurd a (by omega),
          Or.inr (Or.inl ⟨rfl, by omega, by omega⟩)⟩
        rw [bind_ok r1, if_neg (by omega)]; rfl

end Asn1
