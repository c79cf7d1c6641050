import Verif.Proof.Pattern
/-!
# C39: bit patterns

`Packed p pat`: the array `pat` holds the pattern `p`, left-justified, padded with zero bits to whole bytes, as the
compiler generates it. `DecSt s rest`: the unread bits of the stream are `rest`.
-/
namespace Asn1

/-- C39: `BitStream_checkBitPatternPresent` returns 2 and moves behind the pattern if it comes next; returns 1 and
leaves the stream alone if there are enough bits and they differ; returns 0 and leaves the stream alone if there are
too few. -/
theorem C39_checkBitPatternPresent (p : List Bool) (pat : List Byte) (hp : Packed p pat) (s : BitStream) (rest : List Bool)
    (hs : DecSt s rest) :
    (p <+: rest → ∃ s', checkBitPatternPresent pat p.length s = .ok (2, s') ∧ DecSt s' (rest.drop p.length) ∧
      s'.buf = s.buf ∧ s'.count = s.count) ∧
    (p.length ≤ rest.length → ¬ p <+: rest → checkBitPatternPresent pat p.length s = .ok (1, s)) ∧
    (rest.length < p.length → checkBitPatternPresent pat p.length s = .ok (0, s)) :=
  checkBitPatternPresent_run hp hs

/-- A pattern of eleven bits, read at bit 3 of a buffer. -/
example : ∃ (p : List Bool) (pat : List Byte) (s : BitStream) (rest : List Bool), Packed p pat ∧ DecSt s rest ∧ p <+: rest ∧ p.length = 11 := by
  refine ⟨(bytesBits [0xAB#8, 0xC0#8]).take 11, [0xAB#8, 0xC0#8], ⟨[0x15#8, 0x78#8], 2, 0, 3⟩, (bytesBits [0x15#8, 0x78#8]).drop 3,
    ⟨by decide, by decide⟩, ⟨⟨by decide, by decide⟩, by decide, ?_⟩, by decide, by decide⟩
  have : ∀ i : Fin 13, bitAt [0x15#8, 0x78#8] (3 + i.val) = ((bytesBits [0x15#8, 0x78#8]).drop 3)[i.val]?.getD false := by decide
  intro i hi
  exact this ⟨i, by simpa using hi⟩

/-- C39: `BitStream_ReadBits_nullterminated` finds the first occurrence of the terminator among the first `max + 1`
positions: it returns TRUE, the number of bits before it, these bits packed into the destination (the rest of the
`max` bits zero, bytes behind them untouched), and leaves the stream behind the terminator.
Missing: `max = 0`, see `C39_violation_max_zero`. -/
theorem C39_readBits_found_partial (p : List Bool) (pat : List Byte) (hp : Packed p pat) (max : Nat) (dst : List Byte)
    (hmax : 0 < max) (hdst : (max + 7) / 8 ≤ dst.length) (s : BitStream) (rest : List Bool) (hs : DecSt s rest) (k : Nat) (hk : k ≤ max)
    (hat : p <+: rest.drop k) (hkl : k ≤ rest.length) (hfirst : ∀ j, j < k → ¬ p <+: rest.drop j) :
    ∃ dst' s', readBitsNullTerminated pat p.length dst max s = .ok ((true, (k, dst')), s') ∧
      dst'.length = dst.length ∧ dst'.drop ((max + 7) / 8) = dst.drop ((max + 7) / 8) ∧
      bytesBits (dst'.take ((max + 7) / 8)) = rest.take k ++ List.replicate (8 * ((max + 7) / 8) - k) false ∧
      DecSt s' (rest.drop (k + p.length)) ∧ s'.buf = s.buf ∧ s'.count = s.count := by
  have hn : (if max % 8 = 0 then max / 8 else max / 8 + 1) = (max + 7) / 8 := by split <;> omega
  obtain ⟨t0, h1, h2, h3, h4, h5⟩ := init_encSt hdst
  obtain ⟨c, i, tmp', s', e1, e2, e3, e4, e5, e6, e7, e8, e9, e10⟩ :=
    readBitsNTLoop_run hp rest t0 max 0 0 t0 s (by simpa using hs) (by simpa using h2) (by omega) (by rw [h3]; omega) (Frame.refl _)
  have hbuf : tmp'.buf.drop ((max + 7) / 8) = dst.drop ((max + 7) / 8) := by
    rw [← h5]
    apply bytesBits_inj
    rw [bytesBits_drop, bytesBits_drop]
    apply List.ext_getElem?
    intro m
    rw [List.getElem?_drop, List.getElem?_drop]
    have hl := e3.len
    have ht := e3.tail (8 * ((max + 7) / 8) + m) (by rw [h3]; omega)
    rw [← bytesBits_getD, ← bytesBits_getD] at ht
    by_cases hm : 8 * ((max + 7) / 8) + m < 8 * t0.buf.length
    · rw [List.getElem?_eq_getElem (by simp; omega), List.getElem?_eq_getElem (by simp; omega)] at ht ⊢
      simpa using ht
    · rw [List.getElem?_eq_none (by simp; omega), List.getElem?_eq_none (by simp; omega)]
  have hbits : bytesBits (tmp'.buf.take ((max + 7) / 8)) = rest.take i ++ List.replicate (8 * ((max + 7) / 8) - i) false := by
    apply List.ext_getElem?
    intro m
    have hl := e3.len
    by_cases hm : m < 8 * ((max + 7) / 8)
    · have hb := e2.bits m (by rw [e3.count, h3]; exact hm)
      rw [← bytesBits_getD] at hb
      have l1 : m < (bytesBits tmp'.buf).length := by simp; omega
      have e0 : bytesBits (tmp'.buf.take ((max + 7) / 8)) = (bytesBits tmp'.buf).take (8 * ((max + 7) / 8)) := by
        conv => rhs; rw [← List.take_append_drop ((max + 7) / 8) tmp'.buf, bytesBits_append]
        rw [List.take_left' (by simp; omega)]
      rw [e0, List.getElem?_take, if_pos hm, List.getElem?_eq_getElem l1, List.getElem?_append]
      rw [List.getElem?_eq_getElem l1] at hb
      split
      · rename_i h; rw [List.getElem?_eq_getElem h] at hb ⊢; simpa using hb
      · rename_i h
        rw [List.getElem?_eq_none (by omega)] at hb
        simp at h
        rw [List.getElem?_replicate, if_pos (by simp; omega)]; simpa using hb
    · rw [List.getElem?_eq_none (by simp; omega), List.getElem?_eq_none (by simp; omega)]
  have hik : i = k ∧ ∃ s'', (do
      let c ← (if true = true ∧ i = max ∧ c = 1 then checkBitPatternPresent pat p.length else pure c)
      pure (true && decide (c = 2), (i, tmp'.buf)) : M (Bool × (Nat × List Byte))) s' = .ok ((true, (i, tmp'.buf)), s'') ∧
      DecSt s'' (rest.drop (i + p.length)) ∧ s''.buf = s.buf ∧ s''.count = s.count := by
    rcases e10 with ⟨hc, hi, hpi, hd⟩ | ⟨hc, hi, hlen⟩ | ⟨hi, hd, hc⟩
    · refine ⟨?_, s', ?_, hd, e7, e8⟩
      · rcases Nat.lt_trichotomy i k with h | h | h
        · exact absurd hpi (hfirst i h)
        · exact h
        · exact absurd hat (e9 k (by omega) h)
      · rw [if_neg (by omega), pure_bind, hc]; rfl
    · exfalso
      have := hat.length_le
      rw [List.length_drop] at this
      rcases Nat.lt_or_ge k i with h | h
      · exact e9 k (by omega) h hat
      · omega
    · have hki : k = i := by
        rcases Nat.lt_or_ge k i with h | h
        · exact absurd hat (e9 k (by omega) h)
        · omega
      refine ⟨hki.symm, ?_⟩
      subst hki
      obtain ⟨s'', r1, r2, r3, r4⟩ := (checkBitPatternPresent_run hp hd).1 hat
      refine ⟨s'', ?_, by rw [List.drop_drop] at r2; exact r2, r3.trans e7, r4.trans e8⟩
      rw [if_pos ⟨rfl, by omega, by rw [hc, if_neg (by omega)]⟩, bind_ok r1]; rfl
  obtain ⟨rfl, s'', r1, r2, r3, r4⟩ := hik
  refine ⟨tmp'.buf, s'', ?_, by rw [e3.len, h4], hbuf, hbits, r2, r3, r4⟩
  simp only [readBitsNullTerminated, hn, h1]
  rw [bind_ok e1]
  exact r1

/-- C39: if the terminator occurs at none of the first `max + 1` positions the call returns FALSE, without undefined
behaviour and without changing the buffer. -/
theorem C39_readBits_absent (p : List Bool) (pat : List Byte) (hp : Packed p pat) (max : Nat) (dst : List Byte)
    (hdst : (max + 7) / 8 ≤ dst.length) (s : BitStream) (rest : List Bool) (hs : DecSt s rest)
    (hno : ∀ j, j ≤ max → ¬ p <+: rest.drop j) :
    ∃ r s', readBitsNullTerminated pat p.length dst max s = .ok ((false, r), s') ∧ s'.buf = s.buf ∧ s'.count = s.count := by
  have hn : (if max % 8 = 0 then max / 8 else max / 8 + 1) = (max + 7) / 8 := by split <;> omega
  obtain ⟨t0, h1, h2, h3, h4, h5⟩ := init_encSt hdst
  obtain ⟨c, i, tmp', s', e1, e2, e3, e4, e5, e6, e7, e8, e9, e10⟩ :=
    readBitsNTLoop_run hp rest t0 max 0 0 t0 s (by simpa using hs) (by simpa using h2) (by omega) (by rw [h3]; omega) (Frame.refl _)
  simp only [readBitsNullTerminated, hn, h1]
  rw [bind_ok e1]
  simp only []
  rcases e10 with ⟨hc, hi, hpi, hd⟩ | ⟨hc, hi, hlen⟩ | ⟨hi, hd, hc⟩
  · exact absurd hpi (hno i (by omega))
  · refine ⟨(i, tmp'.buf), s', ?_, e7, e8⟩
    rw [if_neg (by omega), pure_bind, hc]; rfl
  · obtain ⟨_, r2, r3⟩ := checkBitPatternPresent_run hp hd
    by_cases hm : c = 1
    · rw [if_pos ⟨trivial, by omega, hm⟩]
      by_cases hle : p.length ≤ (rest.drop i).length
      · rw [bind_ok (r2 hle (hno i (by omega)))]
        exact ⟨(i, tmp'.buf), s', rfl, e7, e8⟩
      · rw [bind_ok (r3 (by omega))]
        exact ⟨(i, tmp'.buf), s', rfl, e7, e8⟩
    · have : c = 0 := by
        rw [hc] at hm ⊢
        split
        · rfl
        · rename_i h; rw [if_neg h] at hm; exact absurd rfl hm
      subst this
      rw [if_neg (by omega), pure_bind]
      exact ⟨(i, tmp'.buf), s', rfl, e7, e8⟩

/-- The hypotheses of both: terminator `0000 0000`, message `FF 00`: found behind 8 bits with `max = 16`, not found
with `max = 7`. -/
example : ∃ (p : List Bool) (pat : List Byte) (rest : List Bool), Packed p pat ∧ p <+: rest.drop 8 ∧ 8 ≤ rest.length ∧
    (∀ j, j < 8 → ¬ p <+: rest.drop j) ∧ DecSt ⟨[0xFF#8, 0#8], 2, 0, 0⟩ rest := by
  refine ⟨List.replicate 8 false, [0#8], bytesBits [0xFF#8, 0#8], ⟨by decide, by decide⟩, by decide, by decide, ?_, ⟨⟨by decide, by decide⟩, by decide, ?_⟩⟩
  · decide
  · have : ∀ i : Fin 16, bitAt [0xFF#8, 0#8] i.val = (bytesBits [0xFF#8, 0#8])[i.val]?.getD false := by decide
    intro i hi
    have := this ⟨i, by simpa using hi⟩
    simpa [BitStream.pos] using this

/-- The code violates C39 for `max = 0`: the terminator comes next, so the string is empty and within its bound, but the
call returns FALSE (the terminator is never looked for). -/
theorem C39_violation_max_zero : ∃ s', readBitsNullTerminated [0#8] 8 [] 0 ⟨[0#8], 1, 0, 0⟩ = .ok ((false, (0, [])), s') :=
  ⟨⟨[0#8], 1, 0, 0⟩, rfl⟩

end Asn1
