import Verif.Model.BerReal
import Verif.Spec.BerReal
import Verif.Proof.Ber4
import Verif.Proof.Real3
import Verif.Proof.GenReal
import Verif.Props.Stream
import Verif.Proof.AcnAscii
/-! BER REAL. -/
namespace Asn1

theorem bytesBits_beOctets (k n : Nat) : bytesBits (beOctets k n) = bitsMsb (8 * k) n := by
  induction k with
  | zero => rfl
  | succ k ih =>
    rw [beOctets, bytesBits_cons, ih, show 8 * (k + 1) = 8 + 8 * k by omega, bitsMsb_append]
    congr 1
    unfold byteBits
    rw [BitVec.toNat_ofNat, bitsMsb_mod, pow256, Nat.shiftRight_eq_div_pow]

theorem bytesBits_berInt (v : Int) : bytesBits (berInt v) = twosCode (8 * octetsInt v) v := by
  unfold berInt twosCode
  rw [bytesBits_beOctets]

theorem berReal_length (d : Dbl) : (berReal d).length ≤ 12 := by
  unfold berReal
  dsimp only
  split
  · simp
  split
  · simp
  split
  · simp
  split
  · simp
  have hF := dblFrac_lt d
  obtain ⟨e1, e2, -⟩ := raw_fields d
  have hm : octetsNat (2 ^ 52 + dblFrac d) = 7 := octetsNat_mantissa (by omega) (by omega)
  rw [e2] at hm
  have he : d.toNat / 2 ^ 52 % 2 ^ 11 < 2 ^ 11 := Nat.mod_lt _ (by decide)
  obtain ⟨-, o2, -⟩ := octetsInt_real (e := (d.toNat / 2 ^ 52 % 2 ^ 11 : Nat) - 1075) (by omega) (by omega)
  rw [List.length_cons, List.length_append, natOctets_length, hm]
  unfold berInt
  rw [beOctets_length]
  omega

/-- The octets of the BER encoding behind the identifier are those that PER uses. -/
theorem berReal_bits {d : Dbl} (h : RealHeld d) : bytesBits (berLength (berReal d).length ++ berReal d) = realCode false d := by
  rcases h with rfl | rfl | rfl | rfl | ⟨h1, h2⟩
  · decide
  · decide
  · decide
  · decide
  · rw [realCode_binary h1 h2]
    have hl := berReal_length d
    rw [berLength_small (by omega)]
    have hz : ∀ c : Dbl, (c.toNat / 2 ^ 52 % 2 ^ 11 = 0 ∨ c.toNat / 2 ^ 52 % 2 ^ 11 = 2047) → d ≠ c := by
      intro c hc e
      subst e
      unfold IsFinite at h2
      omega
    have hr : berReal d = BitVec.ofNat 8 (128 + 64 * (d.toNat / 2 ^ 63) + (octetsInt ((d.toNat / 2 ^ 52 % 2 ^ 11 : Nat) - 1075) - 1)) ::
        (berInt ((d.toNat / 2 ^ 52 % 2 ^ 11 : Nat) - 1075) ++ natOctets (2 ^ 52 + d.toNat % 2 ^ 52)) := by
      unfold berReal
      dsimp only
      rw [if_neg (hz _ (by decide)), if_neg (hz _ (by decide)), if_neg (hz _ (by decide)), if_neg h2]
    have hF := dblFrac_lt d
    obtain ⟨e1, e2, e3⟩ := raw_fields d
    have hm : octetsNat (2 ^ 52 + dblFrac d) = 7 := octetsNat_mantissa (by omega) (by omega)
    have he : d.toNat / 2 ^ 52 % 2 ^ 11 < 2 ^ 11 := Nat.mod_lt _ (by decide)
    obtain ⟨o1, o2, -⟩ := octetsInt_real (e := (d.toNat / 2 ^ 52 % 2 ^ 11 : Nat) - 1075) (by omega) (by omega)
    have hlen : (berReal d).length = 1 + octetsInt ((d.toNat / 2 ^ 52 % 2 ^ 11 : Nat) - 1075) + 7 := by
      rw [hr, List.length_cons, List.length_append, natOctets_length, ← e2, hm]
      unfold berInt
      rw [beOctets_length]; omega
    have hs : d.toNat / 2 ^ 63 = 0 ∨ d.toNat / 2 ^ 63 = 1 := by
      have := d.isLt; omega
    rw [hlen]
    unfold chosenReal BinaryReal.code BinaryReal.contents
    dsimp only
    rw [List.singleton_append, bytesBits_cons, lenByte_bits (by omega), hr, bytesBits_cons, lenByte_bits (by omega), bytesBits_append,
      bytesBits_berInt, natOctets, bytesBits_beOctets, ← e2, hm, e1, e3]
    congr 1
    simp only [← List.append_assoc]
    congr 2
    generalize octetsInt ((d.toNat / 2 ^ 52 % 2 ^ 11 : Nat) - 1075) = k at o1 o2
    rcases hs with hs | hs <;> rw [hs] <;> (have : k = 1 ∨ k = 2 := by omega) <;> rcases this with rfl | rfl <;> rfl

theorem bytesBits_prefix {l m : List Byte} {w : List Bool} (h : bytesBits l = bytesBits m ++ w) : l.take m.length = m := by
  have hl : m.length ≤ l.length := by
    have := congrArg List.length h
    rw [List.length_append, bytesBits_length, bytesBits_length] at this
    omega
  apply bytesBits_inj
  have e : bytesBits l = bytesBits (l.take m.length) ++ bytesBits (l.drop m.length) := by
    rw [← bytesBits_append, List.take_append_drop]
  rw [e] at h
  exact (List.append_inj h (by rw [bytesBits_length, bytesBits_length, List.length_take]; omega)).1

theorem berRealOctets_run {d : Dbl} (h : RealHeld d) : ∃ buf,
    berRealOctets d = pure (buf, (berLength (berReal d).length ++ berReal d).length) ∧
      (berLength (berReal d).length ++ berReal d).length ≤ buf.length ∧
      buf.take (berLength (berReal d).length ++ berReal d).length = berLength (berReal d).length ++ berReal d := by
  obtain ⟨t0, i1, i2, i3, i4, -⟩ := init_encSt (buf := List.replicate 100 0#8) (count := 100) (by simp)
  have hb := realCode_bounds h
  obtain ⟨t, r1, r2, r3⟩ := encodeReal_held h t0 [] i2 (by rw [i3, List.length_nil]; omega)
  rw [List.nil_append] at r2
  have hlen := congrArg List.length (berReal_bits h)
  rw [bytesBits_length] at hlen
  have hg : bitStreamGetLength t = (berLength (berReal d).length ++ berReal d).length := by
    rw [r2.length]; omega
  have hbytes := r2.bytes
  rw [← berReal_bits h] at hbytes
  have htb : t.buf.length = 100 := by rw [r3.len, i4]; simp
  have hc : t.count = 100 := by rw [r3.count, i3]
  rw [hc, List.take_of_length_le (by omega)] at hbytes
  refine ⟨t.buf, ?_, by omega, bytesBits_prefix hbytes⟩
  funext s
  unfold berRealOctets
  rw [i1]
  dsimp only
  rw [r1]
  dsimp only
  rw [hg, Nat.mod_eq_of_lt (by omega)]
  rfl

theorem berEncodeReal_wr {tag : U64} {d : Dbl} (h : RealHeld d) : BWr (berEncodeReal tag d) (berTlv tag.toNat (berReal d)) := by
  obtain ⟨buf, e1, e2, e3⟩ := berRealOctets_run h
  unfold berEncodeReal berTlv
  rw [e1, pure_bind, List.append_assoc]
  refine (berEncodeUInt_wr tag).bind ?_
  have := berPutArray_wr buf (berLength (berReal d).length ++ berReal d).length 0 (by omega)
  rw [List.drop_zero, e3] at this
  exact this

theorem berRealContents_run {d : Dbl} (h : RealHeld d) {s : ByteStream} (hcap : s.count ≤ s.buf.length)
    (hin : s.currentByte + (berLength (berReal d).length ++ berReal d).length ≤ s.count)
    (hbytes : (s.buf.drop s.currentByte).take (berLength (berReal d).length ++ berReal d).length =
      berLength (berReal d).length ++ berReal d) :
    berRealContents s = .ok (.ok d, { s with currentByte := s.currentByte + (berLength (berReal d).length ++ berReal d).length }) := by
  have hb := berReal_bits h
  generalize berLength (berReal d).length ++ berReal d = l at *
  have hst := attach_decSt (buf := s.buf.drop s.currentByte) (count := s.count - s.currentByte) (by rw [List.length_drop]; omega)
  have hsplit : (s.buf.drop s.currentByte).take (s.count - s.currentByte) =
      l ++ ((s.buf.drop s.currentByte).take (s.count - s.currentByte)).drop l.length := by
    conv => lhs; rw [← List.take_append_drop l.length ((s.buf.drop s.currentByte).take (s.count - s.currentByte))]
    rw [List.take_take, Nat.min_eq_left (by omega), hbytes]
  rw [hsplit, bytesBits_append, hb] at hst
  obtain ⟨t, r1, r2, -, r4⟩ := (decodeReal_held h).1 _ _ hst
  have hp := r2.pos
  rw [bytesBits_length, List.length_drop, List.length_take, List.length_drop, r4] at hp
  have hbit := r2.wf.bit
  have hcnt : (bitStreamAttach (s.buf.drop s.currentByte) (s.count - s.currentByte)).count = s.count - s.currentByte := rfl
  rw [hcnt] at hp
  unfold BitStream.pos at hp
  have hg : bitStreamGetLength t = l.length := by
    unfold bitStreamGetLength
    split <;> omega
  unfold berRealContents
  rw [if_pos (by omega), r1]
  dsimp only
  rw [if_pos rfl, hg]

theorem berReal_roundTrip {tag : U64} {d : Dbl} (ht : tag.toNat < 2 ^ 32) (h : RealHeld d) :
    BerRoundTrip (berEncodeReal tag d) (berTlv tag.toNat (berReal d)) (berDecodeReal tag) d := by
  intro s h1 h2
  refine ⟨_, (berEncodeReal_wr h).1 s (by omega) (by omega), rfl, rfl, rfl, ?_⟩
  intro t ht2 hp hc hb
  dsimp only at hc hb ⊢
  have hl : (s.buf.take s.currentByte).length = s.currentByte := by rw [List.length_take]; omega
  have hall : (t.buf.drop t.currentByte).take (berTlv tag.toNat (berReal d)).length = berTlv tag.toNat (berReal d) := by
    apply List.ext_getElem?
    intro i
    rw [List.getElem?_take, List.getElem?_drop]
    by_cases hi : i < (berTlv tag.toNat (berReal d)).length
    · rw [if_pos hi, hp, hb _ (by omega) (by omega), List.append_assoc, List.getElem?_append_right (by omega), hl,
        Nat.add_sub_cancel_left, List.getElem?_append_left hi]
    · rw [if_neg hi, List.getElem?_eq_none (by omega)]
  have hlen : (berTlv tag.toNat (berReal d)).length = (natOctets tag.toNat).length + (berLength (berReal d).length ++ berReal d).length := by
    unfold berTlv; rw [List.append_assoc, List.length_append]
  have e0 : berTlv tag.toNat (berReal d) = natOctets tag.toNat ++ (berLength (berReal d).length ++ berReal d) := by
    unfold berTlv; rw [List.append_assoc]
  have a1 : (t.buf.drop t.currentByte).take (natOctets tag.toNat).length = natOctets tag.toNat := by
    have := congrArg (List.take (natOctets tag.toNat).length) hall
    rwa [List.take_take, Nat.min_eq_left (by omega), e0, List.take_left] at this
  have a2 : (t.buf.drop (t.currentByte + (natOctets tag.toNat).length)).take (berLength (berReal d).length ++ berReal d).length =
      berLength (berReal d).length ++ berReal d := by
    have := congrArg (List.drop (natOctets tag.toNat).length) hall
    rwa [List.drop_take, List.drop_drop, e0, List.drop_left, List.length_append, Nat.add_sub_cancel_left] at this
  unfold berDecodeReal
  rw [bm_bind_ok ((berDecodeTag_rd ht).1 t (by omega) (by omega) a1)]
  rw [berRealContents_run h (s := { t with currentByte := t.currentByte + (natOctets tag.toNat).length }) ht2 (by dsimp only; omega) a2]
  dsimp only
  rw [hlen, hp, Nat.add_assoc]

theorem berRealContents_safe {s : ByteStream} (h : s.count < s.buf.length) (hp : s.currentByte ≤ s.buf.length)
    (hlow : ∀ b, s.buf[s.currentByte + 1]? = some b → b &&& 3#8 ≠ 3#8) :
    ∃ r p, berRealContents s = .ok (r, { s with currentByte := p }) ∧ (∀ d, r = .ok d → p ≤ s.count) := by
  unfold berRealContents
  rw [if_pos hp]
  generalize ht : bitStreamAttach (s.buf.drop s.currentByte) (s.count - s.currentByte) = t
  have t1 : t.pos = 0 := by rw [← ht]; rfl
  have t2 : t.buf = s.buf.drop s.currentByte := by rw [← ht]; rfl
  have t3 : t.count = s.count - s.currentByte := by rw [← ht]; rfl
  have t4 : t.currentBit = 0 := by rw [← ht]; rfl
  by_cases hc : s.count ≤ s.currentByte
  · have e : decodeReal t = .ok ((false, 0#64), t) := by
      unfold decodeReal
      rw [bind_ok (readByte_short (by omega) (by omega))]
      rfl
    rw [e]
    exact ⟨.error .insufficient, s.currentByte, rfl, fun d hd => by cases hd⟩
  · have hwf : Wf t := ⟨by omega, by rw [t2, t3, List.length_drop]; omega⟩
    have hsl : Slack t := by unfold Slack; rw [t2, t3, List.length_drop]; omega
    have hb : bitAt t.buf (t.pos + 14) = false ∨ bitAt t.buf (t.pos + 15) = false := by
      rw [t1, t2]
      unfold bitAt
      simp only [Nat.zero_add, Nat.reduceDiv, Nat.reduceMod, List.getD_eq_getElem?_getD, List.getElem?_drop]
      cases hg : s.buf[s.currentByte + 1]? with
      | none => left; decide
      | some b =>
        have := hlow b hg
        rw [Option.getD_some]
        revert this
        generalize b = c
        revert c
        decide
    obtain ⟨r, t', e1, e2, e3, e4⟩ := decodeReal_safe hwf (by omega) hsl hb
    rw [e1]
    dsimp only
    by_cases hr : r.1 = true
    · obtain ⟨f1, f2, -⟩ := e4 hr
      rw [if_pos hr]
      refine ⟨_, _, rfl, fun d _ => ?_⟩
      unfold BitStream.pos at f2
      unfold bitStreamGetLength
      split <;> omega
    · rw [if_neg hr]
      exact ⟨.error .insufficient, s.currentByte, rfl, fun d hd => by cases hd⟩

theorem berDecodeReal_safe {tag : U64} (ht : tag.toNat < 2 ^ 32) {s : ByteStream} (h : s.count < s.buf.length)
    (hlow : ∀ b, s.buf[s.currentByte + octetsNat tag.toNat + 1]? = some b → b &&& 3#8 ≠ 3#8) :
    ∃ r p, berDecodeReal tag s = .ok (r, { s with currentByte := p }) ∧ (∀ d, r = .ok d → p ≤ s.count) := by
  unfold berDecodeReal
  obtain ⟨r, p, e⟩ := berDecodeTag_safe ht s h
  cases r with
  | error x => exact ⟨.error x, p, bm_bind_err e, fun d hd => by cases hd⟩
  | ok _ =>
    obtain ⟨-, -, l, h3, h4, h5, -, -⟩ := berDecodeTag_inv ht s _ _ e
    rw [natOctets_length] at h5
    have hpos := octetsNat_pos tag.toNat
    have hlen := congrArg List.length h4
    rw [List.length_take, List.length_drop] at hlen
    dsimp only at h3
    rw [bm_bind_ok e]
    obtain ⟨r, q, f1, f2⟩ := berRealContents_safe (s := { s with currentByte := p }) h (by dsimp only; omega)
      (by dsimp only; rw [h3, h5]; exact hlow)
    exact ⟨r, q, f1, f2⟩

end Asn1
