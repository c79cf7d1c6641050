import Verif.Proof.Ber
/-!
# Lemmas about BER: tags, lengths, arrays
-/
namespace Asn1

theorem octetsVal_inj {l m : List Byte} (hl : l.length = m.length) (h : octetsVal l = octetsVal m) : l = m := by
  induction l generalizing m with
  | nil => cases m with | nil => rfl | cons => simp at hl
  | cons a l ih =>
    cases m with
    | nil => simp at hl
    | cons b m =>
      simp only [List.length_cons, Nat.add_right_cancel_iff] at hl
      rw [octetsVal_cons, octetsVal_cons, hl] at h
      have h1 := octetsVal_lt l
      have h2 := octetsVal_lt m
      rw [hl] at h1
      have hab : a.toNat = b.toNat := by
        have e : (a.toNat * 256 ^ m.length + octetsVal l) / 256 ^ m.length =
          (b.toNat * 256 ^ m.length + octetsVal m) / 256 ^ m.length := by rw [h]
        rw [Nat.mul_comm, Nat.mul_add_div (Nat.pow_pos (by omega)), Nat.div_eq_of_lt h1, Nat.mul_comm,
          Nat.mul_add_div (Nat.pow_pos (by omega)), Nat.div_eq_of_lt h2] at e
        omega
      have : a = b := BitVec.eq_of_toNat_eq hab
      subst this
      rw [ih hl (by omega)]

/-- Setting bit 6 of the first octet. -/
def orHead (l : List Byte) : List Byte :=
  match l with
  | [] => []
  | a :: l => (a ||| 0x20#8) :: l

theorem orHead_length (l : List Byte) : (orHead l).length = l.length := by cases l <;> rfl

theorem octetsVal_orHead (a : Byte) (l : List Byte) :
    octetsVal (a :: l) ||| 0x20 <<< (8 * l.length) = octetsVal (orHead (a :: l)) := by
  have hr : octetsVal l < 2 ^ (8 * l.length) := by rw [← pow256]; exact octetsVal_lt l
  rw [orHead, octetsVal_cons, octetsVal_cons, pow256, BitVec.toNat_or]
  rw [Nat.mul_comm a.toNat, Nat.mul_comm (_ ||| _), Nat.two_pow_add_eq_or_of_lt hr, Nat.two_pow_add_eq_or_of_lt hr]
  apply Nat.eq_of_testBit_eq
  intro i
  simp only [Nat.testBit_or, Nat.testBit_shiftLeft, Nat.testBit_two_pow_mul]
  by_cases hi : 8 * l.length ≤ i
  · simp only [hi, decide_true, Bool.true_and]
    show _ = ((a.toNat.testBit _ || (32 : Nat).testBit _) || _)
    rw [Bool.or_assoc, Bool.or_assoc]
    congr 1
    exact Bool.or_comm _ _
  · simp [hi]

theorem berFold_zero {w : Nat} (hw : 8 ≤ w) (l : List Byte) (hl : 8 * l.length ≤ w) : (berFold l (0#w)).toNat = octetsVal l := by
  rw [berFold_toNat hw]
  have h1 := octetsVal_lt l
  rw [pow256] at h1
  have h2 : (2 : Nat) ^ (8 * l.length) ≤ 2 ^ w := Nat.pow_le_pow_right (by omega) hl
  simp only [BitVec.toNat_ofNat, Nat.zero_mod, Nat.zero_mul, Nat.zero_add]
  exact Nat.mod_eq_of_lt (by omega)

theorem primitiveBit_toNat {k : Nat} (hk : k < 4) : ((0x20#32 <<< (k * 8)).setWidth 64).toNat = 0x20 <<< (8 * k) := by
  have : k = 0 ∨ k = 1 ∨ k = 2 ∨ k = 3 := by omega
  rcases this with h | h | h | h <;> subst h <;> rfl

theorem u64_or_eq {a b p : U64} : (a ||| p = b ||| p) ↔ a.toNat ||| p.toNat = b.toNat ||| p.toNat := by
  rw [← BitVec.toNat_or, ← BitVec.toNat_or]
  exact ⟨fun h => by rw [h], fun h => BitVec.eq_of_toNat_eq h⟩

/-- What `BerDecodeTag` compares. -/
theorem tagTest {tag : U64} (ht : tag.toNat < 2 ^ 32) {l : List Byte} (hl : l.length = octetsNat tag.toNat) :
    (tag ||| (0x20#32 <<< ((octetsNat tag.toNat - 1) * 8)).setWidth 64 =
      berFold l 0#64 ||| (0x20#32 <<< ((octetsNat tag.toNat - 1) * 8)).setWidth 64) ↔ orHead (natOctets tag.toNat) = orHead l := by
  have h4 : octetsNat tag.toNat ≤ 4 := (octetsNat_le_iff _ _ (by omega)).2 ht
  have h1 := octetsNat_pos tag.toNat
  rw [u64_or_eq, primitiveBit_toNat (by omega), berFold_zero (by omega) _ (by omega)]
  have hn : (natOctets tag.toNat).length = octetsNat tag.toNat := natOctets_length _
  have hv := natOctets_val tag.toNat
  revert hn hv
  generalize natOctets tag.toNat = m
  intro hn hv
  cases l with
  | nil => simp at hl; omega
  | cons a l =>
    cases m with
    | nil => simp at hn; omega
    | cons b m =>
      simp only [List.length_cons] at hl hn
      have e1 : octetsNat tag.toNat - 1 = l.length := by omega
      have e2 : l.length = m.length := by omega
      rw [e1, octetsVal_orHead, ← hv, e2, octetsVal_orHead]
      constructor
      · intro h
        exact octetsVal_inj (by simp only [orHead_length, List.length_cons, e2]) h
      · intro h; rw [h]

/-- `BerDecodeTag` on as many octets as the tag has. -/
theorem berDecodeTag_eq {tag : U64} (ht : tag.toNat < 2 ^ 32) :
    berDecodeTag tag = berReadBytes (octetsNat tag.toNat) 0#64 >>= fun tgCopy =>
      if (tag ||| (0x20#32 <<< ((octetsNat tag.toNat - 1) * 8)).setWidth 64) !=
        (tgCopy ||| (0x20#32 <<< ((octetsNat tag.toNat - 1) * 8)).setWidth 64) then bFail .insufficient else pure () := by
  have h4 : octetsNat tag.toNat ≤ 4 := (octetsNat_le_iff _ _ (by omega)).2 ht
  unfold berDecodeTag
  simp only [tagSize_eq]
  rw [if_neg (by omega)]

theorem berDecodeTag_rd_of {tag : U64} (ht : tag.toNat < 2 ^ 32) {l : List Byte} (hl : l.length = octetsNat tag.toNat)
    (h : orHead (natOctets tag.toNat) = orHead l) : BRd (berDecodeTag tag) () l := by
  rw [berDecodeTag_eq ht]
  have := (berReadBytes_rd l 0#64).bind (g := fun tgCopy : U64 =>
      if (tag ||| (0x20#32 <<< ((octetsNat tag.toNat - 1) * 8)).setWidth 64) !=
        (tgCopy ||| (0x20#32 <<< ((octetsNat tag.toNat - 1) * 8)).setWidth 64) then bFail .insufficient else pure ()) (b := ()) (m := []) (by
    rw [(tagTest ht hl).2 h]
    simp only [bne_self_eq_false, Bool.false_eq_true, if_false]
    exact BRd.pure ())
  rw [List.append_nil, hl] at this
  exact this

theorem berDecodeTag_rd {tag : U64} (ht : tag.toNat < 2 ^ 32) : BRd (berDecodeTag tag) () (natOctets tag.toNat) :=
  berDecodeTag_rd_of ht (natOctets_length _) rfl

theorem berDecodeTag_fails {tag : U64} (ht : tag.toNat < 2 ^ 32) {s : ByteStream} (hs : s.currentByte + octetsNat tag.toNat ≤ s.count + 1)
    (hb : s.currentByte + octetsNat tag.toNat ≤ s.buf.length)
    (h : orHead (natOctets tag.toNat) ≠ orHead ((s.buf.drop s.currentByte).take (octetsNat tag.toNat))) :
    ∃ s', berDecodeTag tag s = .ok (.error .insufficient, s') := by
  have hl : ((s.buf.drop s.currentByte).take (octetsNat tag.toNat)).length = octetsNat tag.toNat := by
    rw [List.length_take, List.length_drop]; omega
  have hr := (berReadBytes_rd ((s.buf.drop s.currentByte).take (octetsNat tag.toNat)) 0#64).1 s (by omega) (by omega) (by rw [hl])
  rw [hl] at hr
  rw [berDecodeTag_eq ht, bm_bind_ok hr]
  have := fun e => h ((tagTest ht hl).1 e)
  rw [if_pos (by rw [bne_iff_ne]; exact this)]
  exact ⟨_, rfl⟩

/-! ## Lengths -/

theorem berEncodeLength_wr {n : Nat} (hn : n < 2 ^ 31) : BWr (berEncodeLength n) (berLength n) := by
  unfold berEncodeLength berLength
  by_cases h : n < 128
  · rw [if_pos (by omega), if_pos h]
    have : BitVec.ofInt 8 (n : Int) = BitVec.ofNat 8 n := by simp
    rw [this]
    exact BWr.putByte _
  · rw [if_neg (by omega), if_neg h]
    have e32 : (BitVec.ofInt 32 (n : Int)).toNat = n := by simp; omega
    have e64 : (BitVec.ofInt 64 (n : Int)).toNat = n := by simp; omega
    have hk : octetsNat n ≤ 4 := (octetsNat_le_iff _ _ (by omega)).2 (by omega)
    have hk1 := octetsNat_pos n
    have ho : octetCountLoop 4 (BitVec.ofInt 32 (n : Int)) = octetsNat n := by
      rw [octetCountLoop_eq _ 4 (by rw [e32]; omega) (by rw [e32]; omega), e32]
    simp only []
    rw [ho]
    have hor : BitVec.ofNat 8 (octetsNat n) ||| 0x80#8 = BitVec.ofNat 8 (128 + octetsNat n) := by
      have : octetsNat n = 1 ∨ octetsNat n = 2 ∨ octetsNat n = 3 ∨ octetsNat n = 4 := by omega
      rcases this with h | h | h | h <;> rw [h] <;> rfl
    rw [hor]
    have := berEncodeUInt_wr (BitVec.ofInt 64 (n : Int))
    rw [e64] at this
    exact (BWr.putByte _).bind this

theorem berDecodeLength_rd {n : Nat} (hn : n < 2 ^ 31) : BRd berDecodeLength (n : Int) (berLength n) := by
  unfold berDecodeLength berLength
  by_cases h : n < 128
  · rw [if_pos h]
    have e1 : ∀ n, n < 128 → BitVec.ofNat 8 n &&& 0x80#8 = 0#8 ∧ (BitVec.ofNat 8 n &&& 0x7F#8).toNat = n := by decide
    have := (BRd.getByte (BitVec.ofNat 8 n)).bind (g := fun curByte : Byte =>
      if curByte &&& 0x80#8 = 0#8 then (pure ((curByte &&& 0x7F#8).toNat : Int) : BM Int) else
      if curByte &&& 0x7F#8 = 0#8 then pure (-1) else do
        let ret ← berReadLength (curByte &&& 0x7F#8).toNat 0#32
        pure ret.toInt) (b := (n : Int)) (m := []) (by
      rw [if_pos (e1 n h).1, (e1 n h).2]
      exact BRd.pure _)
    exact this
  · rw [if_neg h]
    have hk : octetsNat n ≤ 4 := (octetsNat_le_iff _ _ (by omega)).2 (by omega)
    have hk1 := octetsNat_pos n
    have e1 : ∀ k, k < 5 → 1 ≤ k → BitVec.ofNat 8 (128 + k) &&& 0x80#8 ≠ 0#8 ∧ BitVec.ofNat 8 (128 + k) &&& 0x7F#8 ≠ 0#8 ∧
      (BitVec.ofNat 8 (128 + k) &&& 0x7F#8).toNat = k := by decide
    obtain ⟨a1, a2, a3⟩ := e1 (octetsNat n) (by omega) hk1
    refine (BRd.getByte (BitVec.ofNat 8 (128 + octetsNat n))).bind (g := fun curByte : Byte =>
      if curByte &&& 0x80#8 = 0#8 then (pure ((curByte &&& 0x7F#8).toNat : Int) : BM Int) else
      if curByte &&& 0x7F#8 = 0#8 then pure (-1) else do
        let ret ← berReadLength (curByte &&& 0x7F#8).toNat 0#32
        pure ret.toInt) ?_
    rw [if_neg a1, if_neg a2, a3]
    have hr := berReadLength_rd (natOctets n) 0#32
    rw [natOctets_length] at hr
    have := hr.map BitVec.toInt
    have hf : (berFold (natOctets n) 0#32).toNat = n := by
      rw [berFold_zero (by omega) _ (by rw [natOctets_length]; omega), natOctets_val]
    have hi : (berFold (natOctets n) 0#32).toInt = (n : Int) := by
      rw [BitVec.toInt_eq_toNat_of_lt (by rw [hf]; omega), hf]
    rw [hi] at this
    exact this

/-! ## Arrays -/

theorem berPutArray_wr (value : List Byte) (n : Nat) : ∀ i, i + n ≤ value.length →
    BWr (berPutArray value n i) ((value.drop i).take n) := by
  induction n with
  | zero => intro i _; rw [List.take_zero]; exact BWr.pure
  | succ n ih =>
    intro i hi
    rw [berPutArray]
    have e : value[i]? = some value[i] := List.getElem?_eq_getElem (by omega)
    unfold bTbl
    rw [e]
    simp only [pure_bind]
    rw [List.drop_eq_getElem_cons (by omega), List.take_succ_cons]
    exact (BWr.putByte _).bind (ih (i + 1) (by omega))

theorem berGetArray_rd (maxLength : Nat) (l : List Byte) : ∀ (i : Nat) (value : List Byte), i + l.length ≤ maxLength →
    maxLength ≤ value.length →
    BRd (berGetArray maxLength l.length i value) (value.take i ++ l ++ value.drop (i + l.length)) l := by
  induction l with
  | nil =>
    intro i value _ _
    have e : value.take i ++ [] ++ value.drop (i + ([] : List Byte).length) = value := by simp
    rw [e]
    exact BRd.pure value
  | cons b l ih =>
    intro i value h1 h2
    rw [List.length_cons] at h1
    refine (BRd.getByte b).bind (g := fun curByte => do
      let value ← (if i < maxLength then bArrSet value i curByte else pure value)
      berGetArray maxLength l.length (i + 1) value) ?_
    unfold bArrSet
    rw [if_pos (by omega), if_pos (by omega), pure_bind]
    have := ih (i + 1) (value.set i b) (by omega) (by rw [List.length_set]; exact h2)
    have e : (value.set i b).take (i + 1) ++ l ++ (value.set i b).drop (i + 1 + l.length) =
        value.take i ++ b :: l ++ value.drop (i + (b :: l).length) := by
      rw [List.drop_set_of_lt (by omega), List.set_eq_take_append_cons_drop, if_pos (by omega)]
      rw [List.take_append, List.length_take, List.take_of_length_le (by rw [List.length_take]; omega), Nat.min_eq_left (by omega)]
      have : i + 1 - i = 1 := by omega
      rw [this, List.take_succ_cons, List.take_zero, List.append_assoc (value.take i), List.singleton_append, List.length_cons]
      congr 2; omega
    rw [e] at this
    exact this

theorem berGetBits_rd (maxBytesLen : Nat) (l : List Byte) : ∀ (i : Nat) (value : List Byte) (n : Int) (u : Byte),
    i + l.length ≤ maxBytesLen → maxBytesLen ≤ value.length →
    BRd (berGetBits maxBytesLen l.length i value n u) (value.take i ++ l ++ value.drop (i + l.length), n + 8 * l.length, u) l := by
  induction l with
  | nil =>
    intro i value n u _ _
    have e : value.take i ++ [] ++ value.drop (i + ([] : List Byte).length) = value := by simp
    have e2 : n + 8 * (([] : List Byte).length : Nat) = n := by simp
    rw [e, e2]
    exact BRd.pure (value, n, u)
  | cons b l ih =>
    intro i value n u h1 h2
    rw [List.length_cons] at h1
    refine (BRd.getByte b).bind (g := fun curByte =>
      if i < maxBytesLen then do
        let value ← bArrSet value i curByte
        berGetBits maxBytesLen l.length (i + 1) value (n + 8) u
      else berGetBits maxBytesLen l.length (i + 1) value n 0#8) ?_
    unfold bArrSet
    rw [if_pos (by omega), if_pos (by omega), pure_bind]
    have := ih (i + 1) (value.set i b) (n + 8) u (by omega) (by rw [List.length_set]; exact h2)
    have e : (value.set i b).take (i + 1) ++ l ++ (value.set i b).drop (i + 1 + l.length) =
        value.take i ++ b :: l ++ value.drop (i + (b :: l).length) := by
      rw [List.drop_set_of_lt (by omega), List.set_eq_take_append_cons_drop, if_pos (by omega)]
      rw [List.take_append, List.length_take, List.take_of_length_le (by rw [List.length_take]; omega), Nat.min_eq_left (by omega)]
      have : i + 1 - i = 1 := by omega
      rw [this, List.take_succ_cons, List.take_zero, List.append_assoc (value.take i), List.singleton_append, List.length_cons]
      congr 2; omega
    have e2 : n + 8 + 8 * (l.length : Int) = n + 8 * ((b :: l).length : Nat) := by
      rw [List.length_cons]; omega
    rw [e, e2] at this
    exact this

end Asn1
