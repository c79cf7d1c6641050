import Verif.Proof.GenInt
import Verif.Proof.BitStrings
/-! Truncated input, second form: the decoder says FALSE or returns a value that the final check refuses. -/
namespace Asn1

/-- On a proper prefix of `w` the decoder completes inside the buffer; when it says TRUE the value is `bad`. -/
def WShort {α : Type} (f : M (Bool × α)) (bad : α → Prop) (w : List Bool) : Prop :=
  ∀ s rest, DecSt s rest → Slack s → rest <+: w → rest ≠ w →
    ∃ r s', f s = .ok (r, s') ∧ s'.buf = s.buf ∧ s'.count = s.count ∧
      (r.1 = true → bad r.2 ∧ s'.currentBit < 8 ∧ s'.pos ≤ 8 * s'.count ∧ s.pos ≤ s'.pos)

theorem Short.weak {α : Type} {f : M (Bool × α)} {w : List Bool} (h : Short f w) (bad : α → Prop) : WShort f bad w := by
  intro s rest hs hsl hp hne
  obtain ⟨a, s', h1, h2, h3⟩ := h s rest hs hsl hp hne
  exact ⟨(false, a), s', h1, h2, h3, by simp⟩

theorem WShort.nil {α : Type} (f : M (Bool × α)) (bad : α → Prop) : WShort f bad [] := (Short.nil f).weak bad

theorem WShort.strong {α : Type} {f : M (Bool × α)} {w : List Bool} {bad : α → Prop} (h : WShort f bad w) (hb : ∀ a, ¬ bad a) : Short f w := by
  intro s rest hs hsl hp hne
  obtain ⟨⟨r, a⟩, s', h1, h2, h3, h4⟩ := h s rest hs hsl hp hne
  cases r with
  | true => exact absurd (h4 rfl).1 (hb a)
  | false => exact ⟨a, s', h1, h2, h3⟩

theorem WShort.mono {α : Type} {f : M (Bool × α)} {w : List Bool} {bad bad' : α → Prop} (h : WShort f bad w) (hb : ∀ a, bad a → bad' a) :
    WShort f bad' w := by
  intro s rest hs hsl hp hne
  obtain ⟨r, s', h1, h2, h3, h4⟩ := h s rest hs hsl hp hne
  exact ⟨r, s', h1, h2, h3, fun e => ⟨hb _ (h4 e).1, (h4 e).2⟩⟩

theorem WShort.congr {α : Type} {f : M (Bool × α)} {bad : α → Prop} {w w' : List Bool} (hf : WShort f bad w) (h : w = w') :
    WShort f bad w' := h ▸ hf

/-- Behind a decoder that always completes: what follows a bad value stays bad. -/
theorem WShort.bind {α β : Type} {f : M (Bool × α)} {k : Bool × α → M (Bool × β)} {a : α} {w1 w2 : List Bool}
    {bad1 : α → Prop} {bad2 : β → Prop} (hf : WShort f bad1 w1) (hr : Reads f (true, a) w1) (hg : WShort (k (true, a)) bad2 w2)
    (hbad : ∀ a, bad1 a → Safe (k (true, a)) ∧ Post (k (true, a)) bad2)
    (he : ∀ a, ∃ b, k (false, a) = Pure.pure (false, b)) :
    WShort (f >>= k) bad2 (w1 ++ w2) := by
  intro s rest hs hsl hpre hne
  by_cases hlen : w1.length ≤ rest.length
  · have hw1 : w1 <+: rest := List.prefix_of_prefix_length_le (List.prefix_append w1 w2) hpre hlen
    obtain ⟨r2, rfl⟩ := hw1
    obtain ⟨s1, hr1, hd1, hb1, hc1⟩ := hr s r2 hs
    rw [List.prefix_append_right_inj] at hpre
    obtain ⟨b, s2, h2, hb2, hc2, hk⟩ := hg s1 r2 hd1 (by simp only [Slack, hc1, hb1]; exact hsl) hpre
      (fun h => hne (by rw [h]))
    refine ⟨b, s2, by rw [bind_ok hr1]; exact h2, hb2.trans hb1, hc2.trans hc1, fun e => ?_⟩
    obtain ⟨k1, k2, k3, k4⟩ := hk e
    refine ⟨k1, k2, k3, ?_⟩
    have p1 := hs.pos
    have p2 := hd1.pos
    rw [hc1] at p2
    simp only [List.length_append] at p1
    omega
  · have hp1 : rest <+: w1 := List.prefix_of_prefix_length_le hpre (List.prefix_append w1 w2) (by omega)
    obtain ⟨⟨r1, a1⟩, s1, h1, hb1, hc1, hk⟩ := hf s rest hs hsl hp1 (fun h => by rw [h] at hlen; omega)
    cases r1 with
    | false =>
      obtain ⟨c, hc⟩ := he a1
      exact ⟨(false, c), s1, by rw [bind_ok h1, hc]; rfl, hb1, hc1, by simp⟩
    | true =>
      obtain ⟨k1, k2, k3, k4⟩ := hk rfl
      obtain ⟨g1, g2⟩ := hbad a1 k1
      obtain ⟨⟨r2, a2⟩, s2, h2, hb2, hc2, hk2⟩ := g1 s1 ⟨k2, by rw [hc1, hb1]; exact hs.wf.cap⟩ k3
        (by simp only [Slack, hc1, hb1]; exact hsl)
      refine ⟨(r2, a2), s2, by rw [bind_ok h1]; exact h2, hb2.trans hb1, hc2.trans hc1, fun e => ?_⟩
      simp only at e
      subst e
      obtain ⟨m1, m2, m3⟩ := hk2 rfl
      exact ⟨g2 s1 a2 s2 h2, m1, by rw [hc2]; exact m2, by omega⟩

theorem WShort.map {α β : Type} {f : M (Bool × α)} {h : Bool × α → Bool × β} {w : List Bool} {bad : α → Prop} {bad' : β → Prop}
    (hf : WShort f bad w) (hh : ∀ p, (h p).1 = true → p.1 = true) (hb : ∀ a, bad a → bad' (h (true, a)).2) :
    WShort (f >>= fun p => Pure.pure (h p)) bad' w := by
  intro s rest hs hsl hpre hne
  obtain ⟨⟨r, a⟩, s1, hr, hbf, hc, hk⟩ := hf s rest hs hsl hpre hne
  refine ⟨h (r, a), s1, by rw [bind_ok hr]; rfl, hbf, hc, fun e => ?_⟩
  have := hh _ e
  simp only at this
  subst this
  obtain ⟨k1, k2, k3, k4⟩ := hk rfl
  exact ⟨hb _ k1, k2, k3, k4⟩

/-! ### the cursor -/

/-- Whatever happens, the cursor stays well formed and does not move back. -/
def Moves {α : Type} (f : M α) : Prop :=
  ∀ s a s', s.currentBit < 8 → f s = .ok (a, s') → s'.currentBit < 8 ∧ s.pos ≤ s'.pos ∧ s'.buf = s.buf ∧ s'.count = s.count

theorem Moves.pure {α : Type} (a : α) : Moves (Pure.pure a : M α) := by
  intro s b s' hb h
  cases h
  exact ⟨hb, Nat.le_refl _, rfl, rfl⟩

theorem Moves.bind {α β : Type} {f : M α} {k : α → M β} (hf : Moves f) (hk : ∀ a, Moves (k a)) : Moves (f >>= k) := by
  intro s b s' hb h
  rw [bind_def] at h
  cases hfs : f s with
  | ok p =>
    rw [hfs] at h
    obtain ⟨a, s1⟩ := p
    obtain ⟨m1, m2, m3, m4⟩ := hf s a s1 hb hfs
    obtain ⟨n1, n2, n3, n4⟩ := hk a s1 b s' m1 h
    exact ⟨n1, by omega, n3.trans m3, n4.trans m4⟩
  | ub => rw [hfs] at h; cases h
  | abort => rw [hfs] at h; cases h

theorem Moves.ite {α : Type} {c : Prop} [Decidable c] {f g : M α} (hf : Moves f) (hg : Moves g) : Moves (if c then f else g) := by
  split <;> assumption

theorem Moves.getS : Moves getS := by
  intro s b s' hb h
  cases h
  exact ⟨hb, Nat.le_refl _, rfl, rfl⟩

theorem Moves.bufGet (i : Nat) : Moves (bufGet i) := by
  intro s b s' hb h
  simp only [Asn1.bufGet] at h
  split at h
  · cases h; exact ⟨hb, Nat.le_refl _, rfl, rfl⟩
  · cases h

theorem Moves.tblGet {α : Type} (t : List α) (i : Nat) : Moves (tblGet t i) := by
  intro s b s' hb h
  simp only [Asn1.tblGet] at h
  split at h
  · cases h; exact ⟨hb, Nat.le_refl _, rfl, rfl⟩
  · cases h

theorem Moves.assertC (c : Bool) : Moves (assertC c) := by
  intro s b s' hb h
  simp only [Asn1.assertC] at h
  split at h
  · cases h; exact ⟨hb, Nat.le_refl _, rfl, rfl⟩
  · cases h

theorem Moves.mUb {α : Type} : Moves (mUb : M α) := by
  intro s b s' hb h
  cases h

theorem Moves.incByte : Moves incByte := by
  intro s b s' hb h
  cases h
  refine ⟨hb, ?_, rfl, rfl⟩
  simp only [BitStream.pos]; omega

theorem Moves.chk (x : Int) : Moves (chk x) := by
  unfold Asn1.chk
  exact Moves.ite (Moves.pure _) Moves.mUb

theorem readByte_moves : Moves readByte := by
  unfold readByte
  refine Moves.getS.bind (fun s => ?_)
  refine Moves.ite (Moves.pure _) ?_
  refine (Moves.bufGet _).bind (fun b => Moves.incByte.bind (fun _ => ?_))
  exact Moves.ite ((Moves.bufGet _).bind (fun _ => Moves.pure _)) (Moves.pure _)

theorem readPartialByte_moves {n : Nat} (hn : n < 8) : Moves (readPartialByte n) := by
  intro s a s' hb h
  have hk : s.currentByte < s.buf.length := by
    rcases Nat.lt_or_ge s.currentByte s.buf.length with h1 | h1
    · exact h1
    · exfalso
      have e : bufGet s.currentByte s = .ub := by
        simp only [bufGet, List.getElem?_eq_none h1]
      simp only [readPartialByte, getS_bind] at h
      split at h <;> rw [bind_def, e] at h <;> cases h
  have hk1 : 8 < s.currentBit + n → s.currentByte + 1 < s.buf.length := by
    intro h8
    rcases Nat.lt_or_ge (s.currentByte + 1) s.buf.length with h1 | h1
    · exact h1
    · exfalso
      simp only [readPartialByte, getS_bind] at h
      rw [if_neg (by omega), bufGet_bind hk] at h
      simp only [incByte, modS_bind] at h
      rw [bind_def] at h
      simp only [bufGet, List.getElem?_eq_none h1] at h
      cases h
  obtain ⟨v, s1, h1, h2, h3, h4, h5, _⟩ := readPartialByte_run hb hn hk hk1
  rw [h1] at h
  cases h
  exact ⟨h4, by omega, h2, h3⟩

theorem decodeNN32Bytes_moves (k : Nat) : ∀ v, Moves (decodeNN32Bytes k v) := by
  induction k with
  | zero => intro v; exact Moves.pure _
  | succ k ih =>
    intro v
    simp only [decodeNN32Bytes]
    exact readByte_moves.bind (fun r => Moves.ite (ih _) (Moves.pure _))

theorem decodeNonNegativeInteger32Neg_moves (n : Nat) : Moves (decodeNonNegativeInteger32Neg n) := by
  unfold decodeNonNegativeInteger32Neg
  refine (decodeNN32Bytes_moves _ _).bind (fun r => Moves.ite (Moves.ite ?_ (Moves.pure _)) (Moves.pure _))
  exact (readPartialByte_moves (by omega)).bind (fun p => Moves.ite (Moves.pure _) (Moves.pure _))

theorem decodeNonNegativeInteger_moves (n : Nat) : Moves (decodeNonNegativeInteger n) := by
  unfold decodeNonNegativeInteger
  refine Moves.ite ((decodeNonNegativeInteger32Neg_moves _).bind (fun _ => Moves.pure _)) ?_
  refine (decodeNonNegativeInteger32Neg_moves _).bind (fun r => Moves.ite ?_ (Moves.ite (Moves.pure _) Moves.mUb))
  exact (decodeNonNegativeInteger32Neg_moves _).bind (fun r => Moves.ite (Moves.pure _) Moves.mUb)

theorem decodeConstraintWholeNumber_moves (a b : Int) : Moves (decodeConstraintWholeNumber a b) := by
  unfold decodeConstraintWholeNumber
  refine (Moves.chk _).bind (fun d => (Moves.assertC _).bind (fun _ => Moves.ite (Moves.pure _) ?_))
  refine (decodeNonNegativeInteger_moves _).bind (fun r => Moves.ite (Moves.ite (Moves.pure _) ?_) (Moves.pure _))
  exact (Moves.chk _).bind (fun _ => Moves.pure _)

/-- The C code sets the result to zero before it says FALSE. -/
theorem decodeConstraintWholeNumber_fail {a b v : Int} {s s' : BitStream} (h : decodeConstraintWholeNumber a b s = .ok ((false, v), s')) :
    v = 0 := by
  unfold decodeConstraintWholeNumber at h
  rw [bind_def] at h
  split at h
  · rw [bind_def] at h
    split at h
    · split at h
      · simp only [pure_run, Res.ok.injEq, Prod.mk.injEq] at h; exact absurd h.1.1 (by simp)
      · rw [bind_def] at h
        split at h
        · split at h
          · split at h
            · simp only [pure_run, Res.ok.injEq, Prod.mk.injEq] at h; exact h.1.2.symm
            · rw [bind_def] at h
              split at h
              · simp only [pure_run, Res.ok.injEq, Prod.mk.injEq] at h; exact absurd h.1.1 (by simp)
              · cases h
              · cases h
          · simp only [pure_run, Res.ok.injEq, Prod.mk.injEq] at h; exact h.1.2.symm
        · cases h
        · cases h
    · cases h
    · cases h
  · cases h
  · cases h

/-! ### OCTET STRING of variable size below 64K: the result of the length is not looked at -/

/-- The decoder of StgC/uper_c.stg:517-522. -/
def octVar (lo hi : Nat) : M (Bool × List Byte) := do
  let q ← decodeConstraintWholeNumber lo hi
  decodeOctetStringNoLength q.2.toNat

/-- After a length that could not be read: nothing is read, the result is the empty string. -/
theorem octVar_fail {s s1 : BitStream} {v : Int} {lo hi : Nat} (h : decodeConstraintWholeNumber lo hi s = .ok ((false, v), s1))
    (hwf : Wf s) (hsl : Slack s) :
    ∃ r s', octVar lo hi s = .ok (r, s') ∧ s'.buf = s.buf ∧ s'.count = s.count ∧
      (r.1 = true → r.2 = [] ∧ s'.currentBit < 8 ∧ s'.pos ≤ 8 * s'.count ∧ s.pos ≤ s'.pos) := by
  obtain ⟨m1, m2, m3, m4⟩ := decodeConstraintWholeNumber_moves _ _ s _ s1 hwf.bit h
  have hv := decodeConstraintWholeNumber_fail h
  subst hv
  unfold octVar
  rw [bind_ok h]
  simp only [Int.toNat_zero]
  by_cases hlt : 8 * s1.count < s1.pos + 8 * 0
  · exact ⟨_, _, decodeOctetStringNoLength_short hlt, m3, m4, by simp⟩
  · obtain ⟨⟨r, l⟩, s2, h1, h2, h3, h4⟩ := decodeOctetStringNoLength_safe 0 s1 ⟨m1, by rw [m3, m4]; exact hwf.cap⟩ (by omega)
      (by simp only [Slack, m3, m4]; exact hsl)
    refine ⟨(r, l), s2, h1, h2.trans m3, h3.trans m4, fun e => ?_⟩
    simp only at e
    subst e
    obtain ⟨k1, k2, k3⟩ := h4 rfl
    have := decodeOctetStringNoLength_post 0 s1 l s2 h1
    exact ⟨List.length_eq_zero_iff.1 this, k1, by rw [h3]; exact k2, by omega⟩

theorem octVar_safe {lo hi : Nat} (h : lo ≤ hi) (h2 : hi < 65536) : Safe (octVar lo hi) := by
  intro s hwf hp hsl
  obtain ⟨⟨r, v⟩, s1, h1, hb, hc, hk⟩ := decodeConstraintWholeNumber_safe (lo := (lo : Int)) (hi := (hi : Int)) (by omega) (by omega) (by omega) (by omega) s hwf hp hsl
  cases r with
  | false =>
    obtain ⟨r2, s2, g1, g2, g3, g4⟩ := octVar_fail h1 hwf hsl
    exact ⟨r2, s2, g1, g2, g3, fun e => by
      obtain ⟨_, a1, a2, a3⟩ := g4 e
      exact ⟨a1, by rw [← g3]; exact a2, a3⟩⟩
  | true =>
    obtain ⟨k1, k2, k3⟩ := hk rfl
    obtain ⟨r2, s2, g1, g2, g3, g4⟩ := decodeOctetStringNoLength_safe v.toNat s1 ⟨k1, by rw [hb, hc]; exact hwf.cap⟩ (by rw [hc]; exact k2)
      (by simp only [Slack, hb, hc]; exact hsl)
    refine ⟨r2, s2, by unfold octVar; rw [bind_ok h1]; exact g1, g2.trans hb, g3.trans hc, fun e => ?_⟩
    obtain ⟨a1, a2, a3⟩ := g4 e
    exact ⟨a1, by rw [← hc]; exact a2, by omega⟩

theorem octVar_wshort {lo hi : Nat} {arr : List Byte} (h2 : hi < 65536) (h1 : lo ≤ arr.length) (h3 : arr.length ≤ hi) :
    WShort (octVar lo hi) (fun l => l = []) (constrainedCode lo hi arr.length ++ bytesBits arr) := by
  obtain ⟨rc, sc⟩ := decodeConstraintWholeNumber_reads (v := (arr.length : Int)) (lo := lo) (hi := hi) (by omega) (by omega) (by omega) (by omega) (by omega)
  intro s rest hs hsl hpre hne
  by_cases hlen : (constrainedCode lo hi arr.length).length ≤ rest.length
  · have hw1 : constrainedCode lo hi arr.length <+: rest := List.prefix_of_prefix_length_le (List.prefix_append _ _) hpre hlen
    obtain ⟨r2, rfl⟩ := hw1
    obtain ⟨s1, hr1, hd1, hb1, hc1⟩ := rc s r2 hs
    rw [List.prefix_append_right_inj] at hpre
    have hsh : Short (decodeOctetStringNoLength arr.length) (bytesBits arr) :=
      (decodeOctetStringNoLength_needs _).short (by rw [bytesBits_length])
    obtain ⟨b, s2, g2, hb2, hc2⟩ := hsh s1 r2 hd1 (by simp only [Slack, hc1, hb1]; exact hsl) hpre (fun h => hne (by rw [h]))
    exact ⟨(false, b), s2, by unfold octVar; rw [bind_ok hr1]; exact g2, hb2.trans hb1, hc2.trans hc1, by simp⟩
  · have hp1 : rest <+: constrainedCode lo hi arr.length := List.prefix_of_prefix_length_le hpre (List.prefix_append _ _) (by omega)
    obtain ⟨b, s1, g1, hb1, hc1⟩ := sc s rest hs hsl hp1 (fun h => by rw [h] at hlen; omega)
    exact octVar_fail g1 hs.wf hsl

/-! ### OCTET STRING of a fixed size of 64K and more: the loop does not look at the result of the byte -/

theorem readByteLoop_run (n : Nat) : ∀ (r : Bool) (acc : List Byte) (s : BitStream), Wf s → s.pos ≤ 8 * s.count → Slack s →
    ∃ p s', decLoopAll readByte r n acc s = .ok (p, s') ∧ s'.buf = s.buf ∧ s'.count = s.count ∧ s'.currentBit < 8 ∧
      s'.pos ≤ 8 * s.count ∧ s.pos ≤ s'.pos ∧ (0 < n → 8 * s.count < s.pos + 8 * n → p.1 = false) := by
  induction n with
  | zero =>
    intro r acc s hwf hp _
    exact ⟨(r, acc), s, rfl, rfl, rfl, hwf.bit, hp, Nat.le_refl _, by omega⟩
  | succ n ih =>
    intro r acc s hwf hp hsl
    simp only [decLoopAll]
    by_cases h : 8 * s.count < s.pos + 8
    · rw [bind_ok (readByte_short hwf.bit h)]
      obtain ⟨p, s', h1, h2, h3, h4, h5, h6, h7⟩ := ih false (acc ++ [0#8]) s hwf hp hsl
      refine ⟨p, s', h1, h2, h3, h4, h5, h6, fun _ _ => ?_⟩
      by_cases h0 : 0 < n
      · exact h7 h0 (by omega)
      · have : n = 0 := by omega
        subst this
        cases h1; rfl
    · obtain ⟨⟨b, a⟩, s1, h1, h2, h3, h4⟩ := readByte_safe s hwf hp hsl
      have hm := readByte_moves s _ s1 hwf.bit h1
      rw [bind_ok h1]
      obtain ⟨c, hc⟩ := exists_byte (fun j => bitAt s.buf (s.pos + j))
      have hrun := readByte_run (b := c) hwf (by omega) (fun j hj => (hc j hj).symm)
      rw [h1] at hrun
      simp only [Res.ok.injEq, Prod.mk.injEq] at hrun
      obtain ⟨⟨rfl, rfl⟩, rfl⟩ := hrun
      obtain ⟨k1, k2, k3⟩ := h4 rfl
      obtain ⟨p, s', g1, g2, g3, g4, g5, g6, g7⟩ := ih true (acc ++ [a]) _ ⟨k1, by exact hwf.cap⟩ k2 hsl
      refine ⟨p, s', g1, g2, g3, g4, g5, by omega, fun _ hlt => ?_⟩
      simp only [BitStream.pos] at g7 hlt h
      refine g7 ?_ (by omega)
      omega

theorem readByteLoop_safe (n : Nat) (acc : List Byte) : Safe (decLoopAll readByte true n acc) := by
  intro s hwf hp hsl
  obtain ⟨p, s', h1, h2, h3, h4, h5, h6, _⟩ := readByteLoop_run n true acc s hwf hp hsl
  exact ⟨p, s', h1, h2, h3, fun _ => ⟨h4, h5, h6⟩⟩

theorem readByteLoop_short {n : Nat} {acc : List Byte} {w : List Bool} (hw : w.length = 8 * n) : Short (decLoopAll readByte true n acc) w := by
  by_cases h0 : n = 0
  · have : w = [] := List.length_eq_zero_iff.1 (by omega)
    rw [this]
    exact Short.nil _
  · refine NeedsBits.short (n := 8 * n) ?_ hw
    intro s hwf hp hsl hlt
    obtain ⟨⟨b, l⟩, s', h1, h2, h3, h4, h5, h6, h7⟩ := readByteLoop_run n true acc s hwf hp hsl
    have := h7 (by omega) hlt
    simp only at this
    subst this
    exact ⟨l, s', h1, h2, h3⟩

end Asn1
