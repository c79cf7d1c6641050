import Verif.Proof.Read
/-! Rules for decoders: sequencing with early failure, safety on arbitrary input, truncated input. -/
namespace Asn1

/-- `if (!f(...)) return FALSE; g` -/
theorem Reads.ifOk {α β : Type} {f : M (Bool × α)} {g : α → M β} {e : Bool × α → M β} {a : α} {b : β} {w1 w2 : List Bool}
    (hf : Reads f (true, a) w1) (hg : Reads (g a) b w2) :
    Reads (f >>= fun p => if p.1 = true then g p.2 else e p) b (w1 ++ w2) := by
  apply hf.bind
  simpa using hg

theorem Safe.pure {α : Type} (b : Bool) (a : α) : Safe (pure (b, a) : M (Bool × α)) := by
  intro s hwf hp _
  exact ⟨(b, a), s, rfl, rfl, rfl, fun _ => ⟨hwf.bit, hp, Nat.le_refl _⟩⟩

theorem Safe.ifOk {α β : Type} {f : M (Bool × α)} {g : α → M (Bool × β)} {e : Bool × α → β}
    (hf : Safe f) (hg : ∀ a, Safe (g a)) :
    Safe (f >>= fun p => if p.1 = true then g p.2 else Pure.pure (false, e p)) := by
  intro s hwf hp hsl
  obtain ⟨r, s1, hr, hb, hc, hk⟩ := hf s hwf hp hsl
  by_cases h : r.1 = true
  · obtain ⟨k1, k2, k3⟩ := hk h
    obtain ⟨r2, s2, hr2, hb2, hc2, hk2⟩ := hg r.2 s1 ⟨k1, by rw [hc, hb]; exact hwf.cap⟩ (by rw [hc]; exact k2)
      (by simp only [Slack, hc, hb]; exact hsl)
    refine ⟨r2, s2, ?_, hb2.trans hb, hc2.trans hc, ?_⟩
    · rw [bind_ok hr, if_pos h, hr2]
    · intro h2
      obtain ⟨m1, m2, m3⟩ := hk2 h2
      exact ⟨m1, by rw [hc] at m2; exact m2, by omega⟩
  · refine ⟨(false, e r), s1, ?_, hb, hc, by simp⟩
    rw [bind_ok hr, if_neg h]; rfl

theorem Safe.ite {α : Type} {c : Prop} [Decidable c] {f g : M (Bool × α)} (hf : c → Safe f) (hg : ¬ c → Safe g) :
    Safe (if c then f else g) := by
  split
  · exact hf ‹_›
  · exact hg ‹_›

/-- A pure transformation of the result that does not turn failure into success. -/
theorem Safe.map {α β : Type} {f : M (Bool × α)} {h : Bool × α → Bool × β} (hf : Safe f)
    (hh : ∀ p, (h p).1 = true → p.1 = true) : Safe (f >>= fun p => Pure.pure (h p)) := by
  intro s hwf hp hsl
  obtain ⟨r, s1, hr, hb, hc, hk⟩ := hf s hwf hp hsl
  exact ⟨h r, s1, by rw [bind_ok hr]; rfl, hb, hc, fun e => hk (hh r e)⟩

theorem Short.map {α β : Type} {f : M (Bool × α)} {h : Bool × α → Bool × β} {w : List Bool} (hf : Short f w)
    (hh : ∀ p, p.1 = false → (h p).1 = false) : Short (f >>= fun p => Pure.pure (h p)) w := by
  intro s rest hs hsl hpre hne
  obtain ⟨a, s1, hr, hb, hc⟩ := hf s rest hs hsl hpre hne
  refine ⟨(h (false, a)).2, s1, ?_, hb, hc⟩
  rw [bind_ok hr]
  have := hh (false, a) rfl
  simp only [pure_run]
  generalize h (false, a) = q at this ⊢
  obtain ⟨q1, q2⟩ := q
  simp only at this
  rw [this]

theorem Short.nil {α : Type} (f : M (Bool × α)) : Short f [] := by
  intro s rest _ _ hpre hne
  exact absurd (List.prefix_nil.1 hpre) hne

theorem Short.ifOk {α β : Type} {f : M (Bool × α)} {g : α → M (Bool × β)} {e : Bool × α → β} {a : α} {w1 w2 : List Bool}
    (hf : Short f w1) (hr : Reads f (true, a) w1) (hg : Short (g a) w2) :
    Short (f >>= fun p => if p.1 = true then g p.2 else Pure.pure (false, e p)) (w1 ++ w2) := by
  intro s rest hs hsl hpre hne
  by_cases hlen : w1.length ≤ rest.length
  · have hw1 : w1 <+: rest := List.prefix_of_prefix_length_le (List.prefix_append w1 w2) hpre hlen
    obtain ⟨r2, rfl⟩ := hw1
    obtain ⟨s1, hr1, hd1, hb1, hc1⟩ := hr s r2 hs
    rw [List.prefix_append_right_inj] at hpre
    obtain ⟨b, s2, h2, hb2, hc2⟩ := hg s1 r2 hd1 (by simp only [Slack, hc1, hb1]; exact hsl) hpre
      (fun h => hne (by rw [h]))
    exact ⟨b, s2, by rw [bind_ok hr1]; simpa using h2, hb2.trans hb1, hc2.trans hc1⟩
  · have hp1 : rest <+: w1 := List.prefix_of_prefix_length_le hpre (List.prefix_append w1 w2) (by omega)
    obtain ⟨b, s1, h1, hb1, hc1⟩ := hf s rest hs hsl hp1 (fun h => by rw [h] at hlen; omega)
    exact ⟨e (false, b), s1, by rw [bind_ok h1]; simp, hb1, hc1⟩

theorem Short.congr {α : Type} {f : M (Bool × α)} {w w' : List Bool} (hf : Short f w) (h : w = w') : Short f w' := h ▸ hf

/-- A reader that fails whenever fewer than `n` bits are left. -/
def NeedsBits {α : Type} (f : M (Bool × α)) (n : Nat) : Prop :=
  ∀ s, Wf s → s.pos ≤ 8 * s.count → Slack s → 8 * s.count < s.pos + n →
    ∃ a s', f s = .ok ((false, a), s') ∧ s'.buf = s.buf ∧ s'.count = s.count

theorem NeedsBits.short {α : Type} {f : M (Bool × α)} {n : Nat} (h : NeedsBits f n) {w : List Bool} (hw : w.length = n) :
    Short f w := by
  intro s rest hs hsl hpre hne
  have hlt : rest.length < w.length := by
    rcases Nat.lt_or_ge rest.length w.length with h | h
    · exact h
    · exact absurd (List.IsPrefix.eq_of_length_le hpre h) hne
  have := hs.pos
  exact h s hs.wf (by omega) hsl (by omega)

theorem readBit_needs : NeedsBits readBit 1 := by
  intro s hwf hp hsl hlt
  have hcap := hwf.cap
  simp only [BitStream.pos] at hp hlt
  simp only [Slack] at hsl
  obtain ⟨s', hr, h1, h2, h3, h4⟩ := readBit_run hwf.bit (by omega)
  refine ⟨bitAt s.buf s.pos, s', ?_, h1, h2⟩
  rw [hr]
  have : ¬ (s.pos + 1 ≤ 8 * s.count) := by simp only [BitStream.pos]; omega
  simp [this]

theorem readBit_safe : Safe readBit := by
  intro s hwf hp hsl
  simp only [BitStream.pos] at hp
  simp only [Slack] at hsl
  obtain ⟨s', hr, h1, h2, h3, h4⟩ := readBit_run hwf.bit (by have := hwf.bit; omega)
  refine ⟨_, s', hr, h1, h2, ?_⟩
  intro h
  simp only [decide_eq_true_eq] at h
  exact ⟨h3, by omega, by omega⟩

theorem readByte_needs : NeedsBits readByte 8 := by
  intro s hwf hp hsl hlt
  exact ⟨_, s, readByte_short hwf.bit hlt, rfl, rfl⟩

/-- The byte made of eight bits. -/
theorem exists_byte (f : Nat → Bool) : ∃ b : Byte, ∀ j, j < 8 → b.getMsbD j = f j := by
  refine ⟨BitVec.ofNat 8 (natOfBits ((List.range 8).map f)), ?_⟩
  intro j hj
  have hlt := natOfBits_lt ((List.range 8).map f)
  have hl : ((List.range 8).map f).length = 8 := by simp
  have e := bitsMsb_natOfBits ((List.range 8).map f)
  rw [hl] at e hlt
  rw [← byteBits_getD, byteBits, BitVec.toNat_ofNat, Nat.mod_eq_of_lt hlt, e]
  simp [hj]

theorem readByte_safe : Safe readByte := by
  intro s hwf hp hsl
  by_cases h : 8 * s.count < s.pos + 8
  · exact ⟨_, s, readByte_short hwf.bit h, rfl, rfl, by simp⟩
  · obtain ⟨b, hb⟩ := exists_byte (fun j => bitAt s.buf (s.pos + j))
    refine ⟨_, _, readByte_run (b := b) hwf (by omega) (fun j hj => (hb j hj).symm), rfl, rfl, ?_⟩
    intro _
    refine ⟨hwf.bit, ?_, ?_⟩ <;> simp only [BitStream.pos] at h ⊢ <;> omega

theorem readPartialByte_safe {n : Nat} (hn : n < 8) : Safe (readPartialByte n) := by
  intro s hwf hp hsl
  have hb := hwf.bit
  simp only [BitStream.pos] at hp
  simp only [Slack] at hsl
  obtain ⟨v', s', hr, h1, h2, h3, h4, h5⟩ := readPartialByte_run hb hn (by omega) (by intro; omega)
  refine ⟨_, s', hr, h1, h2, ?_⟩
  intro h
  simp only [decide_eq_true_eq] at h
  exact ⟨h3, by omega, by omega⟩

theorem readPartialByte_needs {n : Nat} (hn : n < 8) : NeedsBits (readPartialByte n) n := by
  intro s hwf hp hsl hlt
  have hb := hwf.bit
  have hp' := hp
  simp only [BitStream.pos] at hp'
  simp only [Slack] at hsl
  obtain ⟨v', s', hr, h1, h2, h3, h4, h5⟩ := readPartialByte_run hb hn (by omega) (by intro; omega)
  refine ⟨v', s', ?_, h1, h2⟩
  rw [hr]
  have : ¬ (s.pos + n ≤ 8 * s.count) := by omega
  simp [this]

theorem decodeOctetStringNoLength_needs (n : Nat) : NeedsBits (decodeOctetStringNoLength n) (8 * n) := by
  intro s hwf hp hsl hlt
  exact ⟨_, s, decodeOctetStringNoLength_short hlt, rfl, rfl⟩

/-- `n` bytes whose bits are given. -/
theorem exists_bytes (n : Nat) (f : Nat → Bool) :
    ∃ l : List Byte, l.length = n ∧ ∀ i, i < 8 * n → (bytesBits l)[i]?.getD false = f i := by
  induction n generalizing f with
  | zero => exact ⟨[], rfl, by omega⟩
  | succ n ih =>
    obtain ⟨b, hb⟩ := exists_byte f
    obtain ⟨t, ht, hbt⟩ := ih (fun i => f (8 + i))
    refine ⟨b :: t, by simp [ht], ?_⟩
    intro i hi
    rw [bytesBits_cons, List.getElem?_append, byteBits_length]
    split
    · rename_i h; rw [byteBits_getD, hb i h]
    · rename_i h; rw [hbt (i - 8) (by omega)]; congr 1; omega

/-- The unread bits of a decoder state. -/
theorem decSt_exists {s : BitStream} (hwf : Wf s) (hp : s.pos ≤ 8 * s.count) : ∃ rest, DecSt s rest := by
  refine ⟨(List.range (8 * s.count - s.pos)).map fun i => bitAt s.buf (s.pos + i), hwf, by simp; omega, ?_⟩
  intro i hi
  simp at hi
  simp [hi]

theorem decodeOctetStringNoLength_safe (n : Nat) : Safe (decodeOctetStringNoLength n) := by
  intro s hwf hp hsl
  by_cases h : 8 * s.count < s.pos + 8 * n
  · exact ⟨_, s, decodeOctetStringNoLength_short h, rfl, rfl, by simp⟩
  · obtain ⟨rest, hr⟩ := decSt_exists hwf hp
    have hlen := hr.pos
    obtain ⟨l, hl, hbits⟩ := exists_bytes n (fun i => rest[i]?.getD false)
    have : rest = bytesBits l ++ rest.drop (8 * n) := by
      conv => lhs; rw [← List.take_append_drop (8 * n) rest]
      congr 1
      apply List.ext_getElem?
      intro i
      by_cases hi : i < 8 * n
      · have e := hbits i hi
        have l1 : i < (bytesBits l).length := by rw [bytesBits_length]; omega
        have l2 : i < rest.length := by omega
        rw [List.getElem?_take, if_pos hi]
        rw [List.getElem?_eq_getElem l1, List.getElem?_eq_getElem l2] at e ⊢
        simpa using e.symm
      · rw [List.getElem?_eq_none (by simp; omega), List.getElem?_eq_none (by simp; omega)]
    rw [this] at hr
    obtain ⟨s', h1, h2, h3, h4⟩ := decodeOctetStringNoLength_reads l s _ hr
    rw [hl] at h1
    refine ⟨_, s', h1, h3, h4, ?_⟩
    intro _
    have hp2 := h2.pos
    have hp1 := hr.pos
    simp at hp1 hp2
    rw [h4] at hp2
    exact ⟨h2.wf.bit, by omega, by omega⟩

/-! The same rules in a form that unifies with any continuation. -/

theorem Safe.bind {α β : Type} {f : M (Bool × α)} {k : Bool × α → M (Bool × β)}
    (hf : Safe f) (hg : ∀ a, Safe (k (true, a))) (he : ∀ a, ∃ b, k (false, a) = Pure.pure (false, b)) :
    Safe (f >>= k) := by
  intro s hwf hp hsl
  obtain ⟨⟨r1, ra⟩, s1, hr, hb, hc, hk⟩ := hf s hwf hp hsl
  cases r1 with
  | true =>
    obtain ⟨k1, k2, k3⟩ := hk rfl
    obtain ⟨r2, s2, hr2, hb2, hc2, hk2⟩ := hg ra s1 ⟨k1, by rw [hc, hb]; exact hwf.cap⟩ (by rw [hc]; exact k2)
      (by simp only [Slack, hc, hb]; exact hsl)
    refine ⟨r2, s2, ?_, hb2.trans hb, hc2.trans hc, ?_⟩
    · rw [bind_ok hr, hr2]
    · intro h2
      obtain ⟨m1, m2, m3⟩ := hk2 h2
      exact ⟨m1, by rw [hc] at m2; exact m2, by omega⟩
  | false =>
    obtain ⟨b, hb'⟩ := he ra
    refine ⟨(false, b), s1, ?_, hb, hc, by simp⟩
    rw [bind_ok hr, hb']; rfl

theorem Short.bind {α β : Type} {f : M (Bool × α)} {k : Bool × α → M (Bool × β)} {a : α} {w1 w2 : List Bool}
    (hf : Short f w1) (hr : Reads f (true, a) w1) (hg : Short (k (true, a)) w2)
    (he : ∀ a, ∃ b, k (false, a) = Pure.pure (false, b)) :
    Short (f >>= k) (w1 ++ w2) := by
  intro s rest hs hsl hpre hne
  by_cases hlen : w1.length ≤ rest.length
  · have hw1 : w1 <+: rest := List.prefix_of_prefix_length_le (List.prefix_append w1 w2) hpre hlen
    obtain ⟨r2, rfl⟩ := hw1
    obtain ⟨s1, hr1, hd1, hb1, hc1⟩ := hr s r2 hs
    rw [List.prefix_append_right_inj] at hpre
    obtain ⟨b, s2, h2, hb2, hc2⟩ := hg s1 r2 hd1 (by simp only [Slack, hc1, hb1]; exact hsl) hpre
      (fun h => hne (by rw [h]))
    exact ⟨b, s2, by rw [bind_ok hr1]; exact h2, hb2.trans hb1, hc2.trans hc1⟩
  · have hp1 : rest <+: w1 := List.prefix_of_prefix_length_le hpre (List.prefix_append w1 w2) (by omega)
    obtain ⟨b, s1, h1, hb1, hc1⟩ := hf s rest hs hsl hp1 (fun h => by rw [h] at hlen; omega)
    obtain ⟨c, hc⟩ := he b
    exact ⟨c, s1, by rw [bind_ok h1, hc]; rfl, hb1, hc1⟩

theorem Reads.map {α β : Type} {f : M α} {h : α → β} {a : α} {w : List Bool} (hf : Reads f a w) :
    Reads (f >>= fun p => Pure.pure (h p)) (h a) w := by
  intro s rest hs
  obtain ⟨s1, hr1, he1, hb1, hc1⟩ := hf s rest hs
  exact ⟨s1, by rw [bind_ok hr1]; rfl, he1, hb1, hc1⟩

/-- A reader that fails below `n` bits, followed by one that fails below `m` bits. -/
theorem NeedsBits.mono {α : Type} {f : M (Bool × α)} {n m : Nat} (h : NeedsBits f n) (hm : m ≤ n) : NeedsBits f m :=
  fun s a b c d => h s a b c (by omega)

end Asn1
