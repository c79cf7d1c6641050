import Verif.Proof.Ber2
/-!
# Lemmas about BER: the primitives, other tags, safety, inversion
-/
namespace Asn1

theorem bCall_pure {α : Type} (a : α) : bCall (pure a) = pure a := rfl

theorem berLength_small {n : Nat} (h : n < 128) : berLength n = [BitVec.ofNat 8 n] := by rw [berLength, if_pos h]

/-! ## The primitives -/

theorem berEncodeInteger_wr {tag : U64} {v : Int} (h1 : -(2 ^ 63) < v) (h2 : v < 2 ^ 63) :
    BWr (berEncodeInteger tag v) (berTlv tag.toNat (berInt v)) := by
  have h8 : octetsInt v ≤ 8 := (octetsInt_le_iff v 8 (by omega)).2 (by omega)
  have hl : (berInt v).length = octetsInt v := beOctets_length _ _
  unfold berEncodeInteger berTlv
  rw [getLengthInBytesOfSInt_eq h1 h2, bCall_pure, int2uint_run h1 h2, bCall_pure, hl, berLength_small (by omega), List.append_assoc]
  simp only [pure_bind]
  refine (berEncodeUInt_wr tag).bind ((BWr.putByte _).bind ?_)
  have hw := berEncodeUInt2_wr (BitVec.ofInt 64 v) (octetsInt v) h8
  have e : beOctets (octetsInt v) (BitVec.ofInt 64 v).toNat = berInt v := by
    apply octetsVal_inj
    · rw [beOctets_length, hl]
    · rw [octetsVal_beOctets, berInt, octetsVal_beOctets, pow256]
      have hpos : (0 : Int) < 2 ^ (8 * octetsInt v) := Int.pow_pos (by omega)
      have d : (2 : Int) ^ (8 * octetsInt v) ∣ 2 ^ 64 := by
        have : (64 : Nat) = 8 * octetsInt v + (64 - 8 * octetsInt v) := by omega
        rw [this, Int.pow_add]; exact Int.dvd_mul_right _ _
      apply Int.ofNat_inj.1
      push_cast
      rw [BitVec.toNat_ofInt, Int.toNat_of_nonneg (Int.emod_nonneg _ (by omega)),
        Int.toNat_of_nonneg (Int.emod_nonneg _ (by omega)), Int.emod_emod_of_dvd _ (by exact_mod_cast d)]
      rw [Int.emod_emod_of_dvd _ (Int.dvd_refl _)]
  rw [e] at hw
  exact hw

theorem berInt_val (v : Int) : octetsVal (berInt v) = (v % 2 ^ (8 * octetsInt v)).toNat := by
  rw [berInt, octetsVal_beOctets, pow256]
  apply Nat.mod_eq_of_lt
  have hpos : (0 : Int) < 2 ^ (8 * octetsInt v) := Int.pow_pos (by omega)
  have := Int.emod_lt_of_pos v hpos
  have h0 := Int.emod_nonneg v (b := 2 ^ (8 * octetsInt v)) (by omega)
  apply Int.ofNat_lt.1
  push_cast
  rw [Int.toNat_of_nonneg h0]
  exact this

theorem berDecodeInteger_rd {tag : U64} {v : Int} (ht : tag.toNat < 2 ^ 32) (h1 : -(2 ^ 63) ≤ v) (h2 : v < 2 ^ 63) :
    BRd (berDecodeInteger tag) v (berTlv tag.toNat (berInt v)) := by
  have h8 : octetsInt v ≤ 8 := (octetsInt_le_iff v 8 (by omega)).2 (by omega)
  have hl : (berInt v).length = octetsInt v := beOctets_length _ _
  have hp := octetsInt_pos v
  unfold berDecodeInteger berTlv
  rw [List.append_assoc]
  refine (berDecodeTag_rd ht).bind (g := fun _ => _) ?_
  refine (berDecodeLength_rd (n := (berInt v).length) (by omega)).bind (g := fun length : Int => do
    let ret ← berReadBytes length.toNat 0#64
    if length < 0 then bUb else bCall (uint2int ret length.toNat)) ?_
  have := (berReadBytes_rd (berInt v) 0#64).bind (g := fun ret : U64 =>
    if ((berInt v).length : Int) < 0 then bUb else bCall (uint2int ret (Int.toNat (berInt v).length))) (b := v) (m := []) (by
      rw [if_neg (by omega), Int.toNat_natCast, hl]
      have hf : berFold (berInt v) 0#64 = BitVec.ofNat 64 (v % 2 ^ (8 * octetsInt v)).toNat := by
        apply BitVec.eq_of_toNat_eq
        rw [berFold_zero (by omega) _ (by rw [hl]; omega), berInt_val, BitVec.toNat_ofNat, Nat.mod_eq_of_lt]
        rw [← berInt_val]
        have a := octetsVal_lt (berInt v)
        rw [pow256, hl] at a
        exact Nat.lt_of_lt_of_le a (Nat.pow_le_pow_right (by omega) (by omega))
      rw [hf, uint2int_twos hp h8 (octetsInt_fits v), bCall_pure]
      exact BRd.pure v)
  rw [List.append_nil] at this
  rw [Int.toNat_natCast]
  rw [Int.toNat_natCast] at this
  exact this

theorem berEncodeBoolean_wr {tag : U64} (b : Bool) : BWr (berEncodeBoolean tag b) (berTlv tag.toNat (berBool b)) := by
  unfold berEncodeBoolean berTlv
  rw [List.append_assoc]
  exact (berEncodeUInt_wr tag).bind ((BWr.putByte _).bind (BWr.putByte _))

theorem berDecodeBoolean_rd {tag : U64} (ht : tag.toNat < 2 ^ 32) (b : Bool) :
    BRd (berDecodeBoolean tag) b (berTlv tag.toNat (berBool b)) := by
  unfold berDecodeBoolean berTlv
  rw [List.append_assoc]
  refine (berDecodeTag_rd ht).bind (g := fun _ => _) ?_
  refine (berDecodeLength_rd (n := (berBool b).length) (by show 1 < 2 ^ 31; decide)).bind (g := fun length : Int =>
    if length ≠ 1 then bFail .mismatch else do
      let data ← berGetByte
      pure (data != 0#8)) ?_
  have e1 : ((berBool b).length : Int) = 1 := rfl
  rw [if_neg (by rw [e1]; omega)]
  have := (BRd.getByte (if b then 0xFF#8 else 0#8)).map (fun data => data != 0#8)
  have e : ((if b = true then 0xFF#8 else 0#8) != 0#8) = b := by cases b <;> rfl
  rw [e] at this
  exact this

theorem berEncodeNull_wr {tag : U64} : BWr (berEncodeNull tag) (berTlv tag.toNat []) := by
  unfold berEncodeNull berTlv
  rw [List.append_nil]
  exact (berEncodeUInt_wr tag).bind (BWr.putByte _)

theorem berDecodeNull_rd {tag : U64} (ht : tag.toNat < 2 ^ 32) : BRd (berDecodeNull tag) () (berTlv tag.toNat []) := by
  unfold berDecodeNull berTlv
  rw [List.append_assoc]
  refine (berDecodeTag_rd ht).bind (g := fun _ => _) ?_
  refine (berDecodeLength_rd (n := 0) (by decide)).bind (g := fun length : Int =>
    if length ≠ 0 then bFail .mismatch else pure ()) ?_
  rw [if_neg (by simp)]
  exact BRd.pure ()

theorem berEncodeArray_wr {tag : U64} {value : List Byte} {n : Nat} (hn : n ≤ value.length) (h31 : n < 2 ^ 31) :
    BWr (do berEncodeTag tag; berEncodeLength n; berPutArray value n 0) (berTlv tag.toNat (value.take n)) := by
  unfold berTlv
  rw [List.append_assoc]
  refine (berEncodeUInt_wr tag).bind ?_
  have hl : (value.take n).length = n := by rw [List.length_take]; omega
  rw [hl]
  refine (berEncodeLength_wr h31).bind ?_
  have := berPutArray_wr value n 0 (by omega)
  rw [List.drop_zero] at this
  exact this

theorem bClear_ok {value : List Byte} {n : Nat} (h : n ≤ value.length) : bClear value n = pure (List.replicate n 0#8 ++ value.drop n) := by
  rw [bClear, if_pos h]

theorem clear_fill {value l : List Byte} {m : Nat} (hl : l.length ≤ m) :
    (List.replicate m 0#8 ++ value.drop m).take 0 ++ l ++ (List.replicate m 0#8 ++ value.drop m).drop (0 + l.length) =
      l ++ List.replicate (m - l.length) 0#8 ++ value.drop m := by
  rw [List.take_zero, List.nil_append, Nat.zero_add, List.drop_append, List.drop_replicate, List.length_replicate,
    Nat.sub_eq_zero_of_le hl, List.drop_zero, List.append_assoc]

theorem berDecodeIA5String_rd {tag : U64} (ht : tag.toNat < 2 ^ 32) {value l : List Byte} {m : Nat} (hl : l.length ≤ m)
    (hm : m ≤ value.length) (h31 : l.length < 2 ^ 31) :
    BRd (berDecodeIA5String tag value m) (l ++ List.replicate (m - l.length) 0#8 ++ value.drop m) (berTlv tag.toNat l) := by
  unfold berDecodeIA5String berTlv
  rw [bClear_ok hm, pure_bind, List.append_assoc (natOctets _)]
  refine (berDecodeTag_rd ht).bind (g := fun _ => _) ?_
  refine (berDecodeLength_rd h31).bind (g := fun length : Int => berGetArray m length.toNat 0 _) ?_
  rw [Int.toNat_natCast, ← clear_fill hl]
  exact berGetArray_rd m l 0 _ (by omega) (by simp)

theorem berDecodeOctetString_rd {tag : U64} (ht : tag.toNat < 2 ^ 32) {value l : List Byte} {m : Nat} (hl : l.length ≤ m)
    (hm : m ≤ value.length) (h31 : l.length < 2 ^ 31) :
    BRd (berDecodeOctetString tag value m) (l ++ List.replicate (m - l.length) 0#8 ++ value.drop m, (l.length : Int)) (berTlv tag.toNat l) := by
  unfold berDecodeOctetString berTlv
  rw [bClear_ok hm, pure_bind, List.append_assoc (natOctets _)]
  refine (berDecodeTag_rd ht).bind (g := fun _ => _) ?_
  refine (berDecodeLength_rd h31).bind (g := fun length : Int => do
    let octCount := if length ≤ m then length else m
    let value ← berGetArray m length.toNat 0 (List.replicate m 0#8 ++ value.drop m)
    pure (value, octCount)) ?_
  simp only [Int.toNat_natCast]
  rw [if_pos (by omega), ← clear_fill hl]
  exact (berGetArray_rd m l 0 _ (by omega) (by simp)).map (fun v => (v, (l.length : Int)))

theorem bits_len (n : Nat) : (if n % 8 ≠ 0 then n / 8 + 1 else n / 8) = (n + 7) / 8 := by split <;> omega

theorem bits_unused (n : Nat) : (if 8 - n % 8 = 8 then 0 else 8 - n % 8) = (n + 7) / 8 * 8 - n := by split <;> omega

theorem berEncodeBitString_wr {tag : U64} {value : List Byte} {n : Nat} (hn : (n + 7) / 8 ≤ value.length) (h31 : n < 2 ^ 31) :
    BWr (berEncodeBitString tag value n) (berTlv tag.toNat (berBits n (value.take ((n + 7) / 8)))) := by
  unfold berEncodeBitString berTlv
  simp only [bits_len, bits_unused]
  rw [List.append_assoc]
  refine (berEncodeUInt_wr tag).bind ?_
  have hl : (berBits n (value.take ((n + 7) / 8))).length = (n + 7) / 8 + 1 := by
    rw [berBits, List.length_cons, List.length_take]; omega
  rw [hl]
  refine (berEncodeLength_wr (by omega)).bind ?_
  have := berPutArray_wr value ((n + 7) / 8) 0 (by omega)
  rw [List.drop_zero] at this
  exact (BWr.putByte _).bind this

theorem berDecodeBitString_rd {tag : U64} (ht : tag.toNat < 2 ^ 32) {value l : List Byte} {n m : Nat} (hl : l.length = (n + 7) / 8)
    (hnm : n ≤ m) (hm : (m + 7) / 8 ≤ value.length) (h31 : n < 2 ^ 31) :
    BRd (berDecodeBitString tag value m) (l ++ value.drop l.length, (n : Int)) (berTlv tag.toNat (berBits n l)) := by
  unfold berDecodeBitString berTlv
  rw [List.append_assoc]
  simp only [bits_len]
  refine (berDecodeTag_rd ht).bind (g := fun _ => _) ?_
  have hb : (berBits n l).length = l.length + 1 := rfl
  rw [hb]
  refine (berDecodeLength_rd (n := l.length + 1) (by omega)).bind (g := fun length : Int => do
    let lastByteUnusedBits ← berGetByte
    if length = -(2 ^ 31) then bUb else do
    let r ← berGetBits ((m + 7) / 8) (length - 1).toNat 0 value 0 lastByteUnusedBits
    pure (r.1, r.2.1 - r.2.2.toNat)) ?_
  refine (BRd.getByte (BitVec.ofNat 8 ((n + 7) / 8 * 8 - n))).bind (g := fun lastByteUnusedBits =>
    if ((l.length + 1 : Nat) : Int) = -(2 ^ 31) then bUb else do
    let r ← berGetBits ((m + 7) / 8) (((l.length + 1 : Nat) : Int) - 1).toNat 0 value 0 lastByteUnusedBits
    pure (r.1, r.2.1 - r.2.2.toNat)) ?_
  rw [if_neg (by omega)]
  have e : (((l.length + 1 : Nat) : Int) - 1).toNat = l.length := by omega
  rw [e]
  have := (berGetBits_rd ((m + 7) / 8) l 0 value 0 (BitVec.ofNat 8 ((n + 7) / 8 * 8 - n)) (by omega) hm).map
    (fun r => (r.1, r.2.1 - r.2.2.toNat))
  have e2 : (0 : Int) + 8 * (l.length : Nat) - ((BitVec.ofNat 8 ((n + 7) / 8 * 8 - n)).toNat : Nat) = (n : Int) := by
    rw [BitVec.toNat_ofNat, Nat.mod_eq_of_lt (by omega), hl]; omega
  simp only [e2] at this
  rw [List.take_zero, List.nil_append, Nat.zero_add] at this
  exact this

/-! ## Other tags -/

theorem orHead_append {l : List Byte} (m : List Byte) (h : 1 ≤ l.length) : orHead (l ++ m) = orHead l ++ m := by
  cases l with
  | nil => simp at h
  | cons a l => rfl

theorem or20_and1f : ∀ a b : Byte, a ||| 0x20#8 = b ||| 0x20#8 → a &&& 0x1F#8 = b &&& 0x1F#8 := by
  intro a b h
  apply BitVec.eq_of_getLsbD_eq
  intro j hj
  have hj' : j = 0 ∨ j = 1 ∨ j = 2 ∨ j = 3 ∨ j = 4 ∨ j = 5 ∨ j = 6 ∨ j = 7 := by omega
  have := congrArg (fun x => BitVec.getLsbD x j) h
  simp only [BitVec.getLsbD_or] at this
  rw [BitVec.getLsbD_and, BitVec.getLsbD_and]
  rcases hj' with h | h | h | h | h | h | h | h <;> subst h <;> simp_all

theorem tag_prefix_free {l m r : List Byte} (hl : TagOctets l) (hm : TagOctets m) (h : orHead l = orHead m ++ r) : r = [] := by
  obtain ⟨a, ra, rfl, ha⟩ := hl
  obtain ⟨b, rb, rfl, hb⟩ := hm
  simp only [orHead, List.cons_append, List.cons.injEq] at h
  have h5 := or20_and1f a b h.1
  rcases hb with ⟨rfl, hb⟩ | ⟨hb, mid, last, rfl, hmid, hlast⟩
  · rcases ha with ⟨rfl, ha⟩ | ⟨ha, _⟩
    · exact h.2.symm
    · rw [h5] at ha; exact absurd ha hb
  · rcases ha with ⟨rfl, ha⟩ | ⟨ha, mid', last', rfl, hmid', hlast'⟩
    · rw [h5] at ha; exact absurd hb ha
    · cases r with
      | nil => rfl
      | cons x r =>
        exfalso
        obtain ⟨r', y, e⟩ : ∃ r' y, x :: r = r' ++ [y] :=
          ⟨(x :: r).dropLast, (x :: r).getLast (by simp), (List.dropLast_concat_getLast (by simp)).symm⟩
        rw [e, ← List.append_assoc] at h
        have := (List.append_inj' h.2 rfl).1
        have hin : last ∈ mid' := by rw [this]; simp
        have := hmid' last hin
        rw [hlast] at this
        exact absurd this (by decide)

theorem sameTag_of {a b : Nat} (h : orHead (natOctets a) = orHead (natOctets b)) : SameTag a b := by
  have hl := congrArg List.length h
  rw [orHead_length, orHead_length] at hl
  refine ⟨hl, ?_, ?_⟩
  · revert h
    generalize natOctets a = l
    generalize natOctets b = m
    intro h
    cases l <;> cases m <;> simp_all [orHead]
  · revert h
    generalize natOctets a = l
    generalize natOctets b = m
    intro h
    cases l <;> cases m <;> simp_all [orHead]

theorem berReadBytes_short {n : Nat} {acc : U64} {s : ByteStream} (h0 : s.count < s.buf.length) (h1 : s.currentByte ≤ s.count + 1)
    (h2 : s.count + 1 < s.currentByte + n) : ∃ p, berReadBytes n acc s = .ok (.error .insufficient, { s with currentByte := p }) := by
  have hl : ((s.buf.drop s.currentByte).take (s.count + 1 - s.currentByte)).length = s.count + 1 - s.currentByte := by
    rw [List.length_take, List.length_drop]; omega
  have hn : ((s.buf.drop s.currentByte).take (s.count + 1 - s.currentByte) ++
      List.replicate (n - (s.count + 1 - s.currentByte)) 0#8).length = n := by
    rw [List.length_append, hl, List.length_replicate]; omega
  have := (berReadBytes_rd ((s.buf.drop s.currentByte).take (s.count + 1 - s.currentByte) ++
      List.replicate (n - (s.count + 1 - s.currentByte)) 0#8) acc).2 s h0 h1 (by rw [hn]; exact h2)
    (by rw [List.take_append_of_le_length (by omega), List.take_take, Nat.min_self])
  rw [hn] at this
  exact this

/-- With another tag in the stream `BerDecodeTag` fails. -/
theorem berDecodeTag_other {tag tag' : U64} (ht' : tag'.toNat < 2 ^ 32)
    (hw : TagOctets (natOctets tag.toNat)) (hw' : TagOctets (natOctets tag'.toNat)) (hne : ¬ SameTag tag.toNat tag'.toNat)
    {s : ByteStream} (h0 : s.count < s.buf.length) (h1 : s.currentByte + octetsNat tag.toNat ≤ s.count)
    (h2 : (s.buf.drop s.currentByte).take (octetsNat tag.toNat) = natOctets tag.toNat) :
    ∃ s', berDecodeTag tag' s = .ok (.error .insufficient, s') := by
  have hp := octetsNat_pos tag.toNat
  have hp' := octetsNat_pos tag'.toNat
  by_cases hfit : s.currentByte + octetsNat tag'.toNat ≤ s.count + 1
  · refine berDecodeTag_fails ht' hfit (by omega) ?_
    intro heq
    apply hne
    by_cases hk : octetsNat tag'.toNat ≤ octetsNat tag.toNat
    · have e : (s.buf.drop s.currentByte).take (octetsNat tag'.toNat) = (natOctets tag.toNat).take (octetsNat tag'.toNat) := by
        rw [← h2, List.take_take, Nat.min_eq_left hk]
      rw [e] at heq
      have hsplit : orHead (natOctets tag.toNat) = orHead (natOctets tag'.toNat) ++ (natOctets tag.toNat).drop (octetsNat tag'.toNat) := by
        rw [heq, ← orHead_append _ (by rw [List.length_take, natOctets_length]; omega), List.take_append_drop]
      have hr := tag_prefix_free hw hw' hsplit
      rw [hr, List.append_nil] at hsplit
      exact sameTag_of hsplit
    · have e : (s.buf.drop s.currentByte).take (octetsNat tag'.toNat) =
          natOctets tag.toNat ++ ((s.buf.drop s.currentByte).take (octetsNat tag'.toNat)).drop (octetsNat tag.toNat) := by
        have := (List.take_append_drop (octetsNat tag.toNat) ((s.buf.drop s.currentByte).take (octetsNat tag'.toNat))).symm
        rwa [List.take_take, Nat.min_eq_left (by omega), h2] at this
      rw [e, orHead_append _ (by rw [natOctets_length]; exact hp)] at heq
      have hr := tag_prefix_free hw' hw heq
      rw [hr, List.append_nil] at heq
      exact sameTag_of heq.symm
  · rw [berDecodeTag_eq ht']
    obtain ⟨p, e⟩ := berReadBytes_short (n := octetsNat tag'.toNat) (acc := 0#64) h0 (by omega) (by omega)
    exact ⟨_, bm_bind_err e⟩

/-! ## Safety -/

theorem BerSafe.pure {α : Type} (a : α) : BerSafe (pure a) := fun s _ => ⟨_, s.currentByte, rfl⟩

theorem BerSafe.fail {α : Type} (e : BerErr) : BerSafe (bFail e : BM α) := fun s _ => ⟨_, s.currentByte, rfl⟩

theorem BerSafe.bind {α β : Type} {f : BM α} {g : α → BM β} (hf : BerSafe f) (hg : ∀ a, BerSafe (g a)) : BerSafe (f >>= g) := by
  intro s h
  obtain ⟨r, p, e⟩ := hf s h
  cases r with
  | error e' => exact ⟨_, p, bm_bind_err e⟩
  | ok a =>
    obtain ⟨r', p', e'⟩ := hg a { s with currentByte := p } h
    exact ⟨r', p', by rw [bm_bind_ok e, e']⟩

theorem BerSafe.getByte : BerSafe berGetByte := by
  intro s h
  by_cases hc : s.currentByte + 1 > s.count + 1
  · exact ⟨.error .insufficient, s.currentByte, by unfold berGetByte; rw [if_pos hc]⟩
  · exact ⟨.ok s.buf[s.currentByte], s.currentByte + 1, berGetByte_ok (by omega) (List.getElem?_eq_getElem (by omega))⟩

theorem berReadBytes_safe (n : Nat) : ∀ acc, BerSafe (berReadBytes n acc) := by
  induction n with
  | zero => intro acc; exact BerSafe.pure acc
  | succ n ih => intro acc; exact BerSafe.getByte.bind fun _ => ih _

theorem berReadLength_safe (n : Nat) : ∀ acc, BerSafe (berReadLength n acc) := by
  induction n with
  | zero => intro acc; exact BerSafe.pure acc
  | succ n ih => intro acc; exact BerSafe.getByte.bind fun _ => ih _

theorem BerSafe.ite {α : Type} {c : Prop} [Decidable c] {f g : BM α} (hf : BerSafe f) (hg : BerSafe g) : BerSafe (if c then f else g) := by
  split
  · exact hf
  · exact hg

theorem berDecodeTag_safe {tag : U64} (ht : tag.toNat < 2 ^ 32) : BerSafe (berDecodeTag tag) := by
  rw [berDecodeTag_eq ht]
  exact (berReadBytes_safe _ _).bind fun _ => .ite (.fail _) (.pure _)

theorem berDecodeLength_safe : BerSafe berDecodeLength := by
  unfold berDecodeLength
  exact BerSafe.getByte.bind fun _ => .ite (.pure _) (.ite (.pure _) ((berReadLength_safe _ _).bind fun _ => .pure _))

theorem berDecodeTwoZeroes_safe : BerSafe berDecodeTwoZeroes := by
  unfold berDecodeTwoZeroes
  exact BerSafe.getByte.bind fun _ => .ite (.fail _) (BerSafe.getByte.bind fun _ => .ite (.fail _) (.pure _))

theorem berGetArray_safe (m n : Nat) : ∀ i value, m ≤ value.length → BerSafe (berGetArray m n i value) := by
  induction n with
  | zero => intro i v _; exact BerSafe.pure v
  | succ n ih =>
    intro i v hm
    rw [berGetArray]
    refine BerSafe.getByte.bind fun c => ?_
    unfold bArrSet
    by_cases hi : i < m
    · rw [if_pos hi, if_pos (by omega), pure_bind]
      exact ih _ _ (by rw [List.length_set]; exact hm)
    · rw [if_neg hi, pure_bind]
      exact ih _ _ hm

theorem berDecodeBoolean_safe {tag : U64} (ht : tag.toNat < 2 ^ 32) : BerSafe (berDecodeBoolean tag) :=
  (berDecodeTag_safe ht).bind fun _ => berDecodeLength_safe.bind fun _ => .ite (.fail _) (BerSafe.getByte.bind fun _ => .pure _)

theorem berDecodeNull_safe {tag : U64} (ht : tag.toNat < 2 ^ 32) : BerSafe (berDecodeNull tag) :=
  (berDecodeTag_safe ht).bind fun _ => berDecodeLength_safe.bind fun _ => .ite (.fail _) (.pure _)

theorem berDecodeIA5String_safe {tag : U64} (ht : tag.toNat < 2 ^ 32) {value : List Byte} {m : Nat} (hm : m ≤ value.length) :
    BerSafe (berDecodeIA5String tag value m) := by
  unfold berDecodeIA5String
  rw [bClear_ok hm, pure_bind]
  exact (berDecodeTag_safe ht).bind fun _ => berDecodeLength_safe.bind fun _ => berGetArray_safe _ _ _ _ (by simp)

theorem berDecodeOctetString_safe {tag : U64} (ht : tag.toNat < 2 ^ 32) {value : List Byte} {m : Nat} (hm : m ≤ value.length) :
    BerSafe (berDecodeOctetString tag value m) := by
  unfold berDecodeOctetString
  rw [bClear_ok hm, pure_bind]
  exact (berDecodeTag_safe ht).bind fun _ => berDecodeLength_safe.bind fun _ =>
    (berGetArray_safe _ _ _ _ (by simp)).bind fun _ => .pure _

end Asn1
