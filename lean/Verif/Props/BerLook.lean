import Verif.Proof.Ber4
/-!
# Looking ahead in a BER stream: C61
-/
namespace Asn1

/-- The `n` octets at the position of the stream. -/
def upcoming (s : ByteStream) (n : Nat) : List Byte := (s.buf.drop s.currentByte).take n

theorem orHead_of_ident {l : List Byte} {tag : Nat} (h : IdentOctets l tag) : orHead (natOctets tag) = orHead l := by
  obtain ⟨h1, h2, h3⟩ := h
  generalize natOctets tag = m at h1 h2 h3
  cases l <;> cases m <;> simp_all [orHead]

/-- C61 for `NextTagMatches`: it always answers, leaves the stream exactly as it was, says TRUE only when the upcoming octets
are the identifier octets of the tag (up to the primitive/constructed bit), and says TRUE whenever they are and lie in the
stream. Missing: tags of more than four octets (`C29_violation_tag`), objects that have no octet behind the stream
(`C61_violation`). -/
theorem C61_tag_partial (tag : U64) (ht : tag.toNat < 2 ^ 32) (s : ByteStream) (h0 : s.count < s.buf.length) :
    ∃ b, nextTagMatches tag s = .ok (.ok b, s) ∧
      (b = true → IdentOctets (upcoming s (natOctets tag.toNat).length) tag.toNat) ∧
      (s.currentByte + (natOctets tag.toNat).length ≤ s.count →
        IdentOctets (upcoming s (natOctets tag.toNat).length) tag.toNat → b = true) := by
  obtain ⟨r, p, e⟩ := berDecodeTag_safe ht s h0
  have hnext : nextTagMatches tag s = .ok (.ok r.toBool, s) := by
    unfold nextTagMatches
    rw [e]
    cases r <;> rfl
  refine ⟨_, hnext, ?_, ?_⟩
  · cases r with
    | error _ => intro h; cases h
    | ok u =>
      intro _
      obtain ⟨_, _, l, hl, h2, h3⟩ := berDecodeTag_inv ht s u _ e
      unfold upcoming
      rw [← h3.1, h2]
      exact h3
  · intro h1 h2
    have hl : (upcoming s (natOctets tag.toNat).length).length = octetsNat tag.toNat := by rw [h2.1, natOctets_length]
    have := (berDecodeTag_rd_of ht hl (orHead_of_ident h2)).1 s (by rw [h2.1]; omega) (by rw [h2.1]; omega)
      (by rw [h2.1]; rfl)
    rw [this] at e
    injection e with e
    injection e with e _
    rw [← e]; rfl

/-- Tag 1F 81 01, and the stream 3F 81 01: the constructed form of the tag. -/
example : (0x1F8101#64 : U64).toNat < 2 ^ 32 ∧
    IdentOctets (upcoming ⟨[7#8, 0x3F#8, 0x81#8, 1#8, 9#8], 4, 1⟩ (natOctets 0x1F8101).length) 0x1F8101 ∧
    nextTagMatches 0x1F8101#64 ⟨[7#8, 0x3F#8, 0x81#8, 1#8, 9#8], 4, 1⟩ =
      .ok (.ok true, ⟨[7#8, 0x3F#8, 0x81#8, 1#8, 9#8], 4, 1⟩) :=
  ⟨by decide, ⟨by decide, by decide, by decide⟩, by decide⟩

/-- C61 for `LA_Next_Two_Bytes_00`: it always answers, leaves the stream exactly as it was, says TRUE only when the upcoming
octets are two zeros, and says TRUE whenever they are and lie in the stream. Missing: as above. -/
theorem C61_zeros_partial (s : ByteStream) (h0 : s.count < s.buf.length) :
    ∃ b, laNextTwoBytes00 s = .ok (.ok b, s) ∧ (b = true → upcoming s 2 = [0#8, 0#8]) ∧
      (s.currentByte + 2 ≤ s.count → upcoming s 2 = [0#8, 0#8] → b = true) := by
  obtain ⟨r, p, e⟩ := berDecodeTwoZeroes_safe s h0
  have hnext : laNextTwoBytes00 s = .ok (.ok r.toBool, s) := by
    unfold laNextTwoBytes00
    rw [e]
    cases r <;> rfl
  refine ⟨_, hnext, ?_, ?_⟩
  · cases r with
    | error _ => intro h; cases h
    | ok u =>
      intro _
      have hinv : BInv berDecodeTwoZeroes (fun _ l => l = [0#8, 0#8]) := by
        unfold berDecodeTwoZeroes
        refine (BInv.getByte.bind (Q := fun a _ l => a = 0#8 ∧ l = [0#8]) fun a => ?_).mono ?_
        · refine BInv.ite (fun _ => BInv.fail _ _) fun ha => ?_
          refine (BInv.getByte.bind (Q := fun b _ l => b = 0#8 ∧ l = []) fun b => ?_).mono ?_
          · refine BInv.ite (fun _ => BInv.fail _ _) fun hb => (BInv.pure ()).mono ?_
            rintro _ l ⟨_, rfl⟩
            exact ⟨by simpa using hb, rfl⟩
          · rintro _ l ⟨b, l1, l2, rfl, rfl, rfl, rfl⟩
            exact ⟨by simpa using ha, rfl⟩
        · rintro _ l ⟨a, l1, l2, rfl, rfl, rfl, rfl⟩
          rfl
      obtain ⟨_, _, l, hl, h2, rfl⟩ := hinv s u _ e
      exact h2
  · intro h1 h2
    have hb : ∀ k, k < 2 → s.buf[s.currentByte + k]? = some 0#8 := by
      intro k hk
      have := congrArg (fun l => l[k]?) h2
      simp only [upcoming, List.getElem?_take, List.getElem?_drop] at this
      rw [if_pos hk] at this
      rw [this]
      match k, hk with
      | 0, _ => rfl
      | 1, _ => rfl
    have e1 := berGetByte_ok (s := s) (by omega) (hb 0 (by omega))
    have e2 := berGetByte_ok (s := { s with currentByte := s.currentByte + 1 }) (by dsimp only; omega) (hb 1 (by omega))
    have : berDecodeTwoZeroes s = .ok (.ok (), { s with currentByte := s.currentByte + 1 + 1 }) := by
      unfold berDecodeTwoZeroes
      rw [bm_bind_ok e1]
      simp only [bne_self_eq_false, Bool.false_eq_true, if_false]
      rw [bm_bind_ok e2]
      simp only [bne_self_eq_false, Bool.false_eq_true, if_false]
      rfl
    rw [this] at e
    injection e with e
    injection e with e _
    rw [← e]; rfl

example : upcoming ⟨[7#8, 0#8, 0#8, 9#8], 3, 1⟩ 2 = [0#8, 0#8] ∧
    laNextTwoBytes00 ⟨[7#8, 0#8, 0#8, 9#8], 3, 1⟩ = .ok (.ok true, ⟨[7#8, 0#8, 0#8, 9#8], 3, 1⟩) := ⟨rfl, by decide⟩

/-- The code violates C61: at the end of the stream both functions read behind it. -/
theorem C61_violation : laNextTwoBytes00 (byteStreamAttachBuffer [0#8] 1) = .ub ∧
    nextTagMatches 5#64 { byteStreamAttachBuffer [5#8] 1 with currentByte := 1 } = .ub := by decide

end Asn1
