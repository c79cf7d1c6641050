import Verif.Proof.Append2
/-! `AppendByteArray` and the functions built on it. -/
namespace Asn1

theorem encSt_extend {s s' : BitStream} {bs w : List Bool} (hs : EncSt s bs)
    (hroom : bs.length + w.length ≤ 8 * s.count) (hwf : Wf s') (hc : s'.count = s.count)
    (hl : s'.buf.length = s.buf.length) (hp : s'.pos = s.pos + w.length)
    (hb : ∀ i, bitAt s'.buf i =
        if s.pos ≤ i ∧ i < s.pos + w.length then w[i - s.pos]?.getD false else bitAt s.buf i) :
    EncSt s' (bs ++ w) ∧ Frame s s' := by
  refine ⟨⟨hwf, ?_, ?_, ?_⟩, ⟨hc, hl, ?_⟩⟩
  · rw [hp, hs.pos, List.length_append]
  · rw [hc, List.length_append]; exact hroom
  · intro i hi
    rw [hb i, hs.pos, List.getElem?_append]
    rw [hc] at hi
    by_cases h1 : i < bs.length
    · rw [if_neg (by omega), if_pos h1, hs.bits i hi]
    · by_cases h2 : i < bs.length + w.length
      · rw [if_pos ⟨by omega, h2⟩, if_neg h1]
      · rw [if_neg (by omega), if_neg h1, hs.bits i hi, List.getElem?_eq_none (by omega),
          List.getElem?_eq_none (by omega)]
  · intro i hi
    rw [hb i, if_neg]
    rw [hs.pos]; omega

theorem EncSt.zero_tail {s : BitStream} {bs : List Bool} (hs : EncSt s bs) {i : Nat} (h1 : s.pos ≤ i) (h2 : i < 8 * s.count) :
    bitAt s.buf i = false := by
  rw [hs.bits i h2, List.getElem?_eq_none (by rw [← hs.pos]; exact h1)]; rfl

/-- The state after a whole byte was put at the cursor. -/
def afterByte (s : BitStream) (v : Byte) : BitStream :=
  { s with buf := putByte s.buf s.currentByte s.currentBit v, currentByte := s.currentByte + 1 }

theorem afterByte_encSt {s : BitStream} {bs : List Bool} (v : Byte) (hs : EncSt s bs)
    (hroom : bs.length + 8 ≤ 8 * s.count) :
    EncSt (afterByte s v) (bs ++ byteBits v) ∧ Frame s (afterByte s v) := by
  have hr : s.pos + 8 ≤ 8 * s.count := by rw [hs.pos]; exact hroom
  obtain ⟨h1, h2, h3, h4, h5⟩ := putByte_writes v hs.wf hr
  exact encSt_extend (s' := afterByte s v) hs (by simpa using hroom) h1 h2 h3
    (by rw [byteBits_length]; exact h4) (by rw [byteBits_length]; exact h5)

/-- One iteration of the middle loop has the effect of appending a byte when the tail is zero. -/
theorem orStep_run {s : BitStream} {bs : List Bool} (v : Byte) (hs : EncSt s bs) (hk1 : s.currentByte + 1 < s.buf.length)
    (hroom : bs.length + 8 ≤ 8 * s.count) {β : Type} (g : Unit → M β) :
    ∃ s', (bufOr s.currentByte (v >>> s.currentBit) >>= fun _ => incByte >>= fun _ =>
        bufOr (s.currentByte + 1) (v <<< (8 - s.currentBit)) >>= g) s = g () s' ∧
      EncSt s' (bs ++ byteBits v) ∧ Frame s s' ∧ s'.currentBit = s.currentBit := by
  have hb := hs.wf.bit
  have hcap := hs.wf.cap
  have hr : s.pos + 8 ≤ 8 * s.count := by rw [hs.pos]; exact hroom
  have hr' := hr
  simp only [BitStream.pos] at hr'
  have hk : s.currentByte < s.buf.length := by omega
  have hz : ∀ i, s.pos ≤ i → i < 8 * s.count → bitAt s.buf i = false := fun i a b => hs.zero_tail a b
  let x : Byte := s.buf.getD s.currentByte 0#8 ||| v >>> s.currentBit
  let y : Byte := s.buf.getD (s.currentByte + 1) 0#8 ||| v <<< (8 - s.currentBit)
  let s' : BitStream := { s with buf := (s.buf.set s.currentByte x).set (s.currentByte + 1) y,
                                 currentByte := s.currentByte + 1 }
  have hx : ∀ j, j < 8 → x.getMsbD j = if j < s.currentBit then (s.buf.getD s.currentByte 0#8).getMsbD j
      else v.getMsbD (j - s.currentBit) := by
    intro j hj
    simp only [x, BitVec.getMsbD_or, BitVec.getMsbD_ushiftRight]
    by_cases h : j < s.currentBit
    · simp [h]
    · have := hz (8 * s.currentByte + j) (by simp only [BitStream.pos]; omega) (by omega)
      rw [bitAt_def' _ _ _ hj] at this
      rw [this, if_neg h]; simp [h, hj]
  have hy : ∀ j, j < 8 → y.getMsbD j = if j < s.currentBit then v.getMsbD (j + (8 - s.currentBit))
      else (s.buf.getD (s.currentByte + 1) 0#8).getMsbD j := by
    intro j hj
    simp only [y, BitVec.getMsbD_or, BitVec.getMsbD_shiftLeft]
    by_cases h : j < s.currentBit
    · have := hz (8 * (s.currentByte + 1) + j) (by simp only [BitStream.pos]; omega) (by omega)
      rw [bitAt_def' _ _ _ hj] at this
      rw [this, if_pos h]; simp
    · rw [if_neg h, BitVec.getMsbD_of_ge v _ (by omega), Bool.or_false]
  refine ⟨s', ?_, ?_⟩
  · rw [bufOr_bind hk]
    simp only [incByte, modS_bind]
    rw [bufOr_bind (by simpa using hk1)]
    simp [s', x, y]
  · have hbits := two_bytes_bits (k := s.currentByte) (cb := s.currentBit) (v := v) hb hk (fun _ => hk1) hx hy
    have hset : s.currentBit = 0 → (s.buf.set s.currentByte x).set (s.currentByte + 1) y = s.buf.set s.currentByte x := by
      intro h0
      have hy0 : y = (s.buf.set s.currentByte x).getD (s.currentByte + 1) 0#8 := by
        simp [y, h0]
      rw [hy0]
      apply List.ext_getElem?
      intro i
      by_cases h : i = s.currentByte + 1
      · subst h
        simp [hk1]
      · rw [List.getElem?_set_ne (fun e => h e.symm)]
    have hbits : ∀ i, bitAt s'.buf i = if s.pos ≤ i ∧ i < s.pos + 8 then v.getMsbD (i - s.pos) else bitAt s.buf i := by
      intro i
      have := hbits i
      by_cases h0 : s.currentBit = 0
      · simp only [h0, if_true] at this
        simp only [s', hset h0, BitStream.pos, h0]; exact this
      · simp only [h0, if_false] at this
        exact this
    have := encSt_extend (s' := s') (w := byteBits v) hs (by simpa using hroom) ⟨hb, by simpa [s'] using hcap⟩ rfl
      (by simp [s']) (by simp only [BitStream.pos, s', byteBits_length]; omega)
      (by intro i; simp only [byteBits_getD, byteBits_length]; exact hbits i)
    exact ⟨this.1, this.2, rfl⟩

theorem appendByteArrayLoop_run {arr : List Byte} (n : Nat) :
    ∀ (i : Nat) (s : BitStream) (bs : List Bool), EncSt s bs → s.currentByte + n < s.buf.length → i + n ≤ arr.length →
      bs.length + 8 * n ≤ 8 * s.count →
      ∃ s', appendByteArrayLoop arr s.currentBit (8 - s.currentBit) n i s = .ok ((), s') ∧
        EncSt s' (bs ++ bytesBits ((arr.drop i).take n)) ∧ Frame s s' ∧ s'.currentBit = s.currentBit := by
  induction n with
  | zero =>
    intro i s bs hs h0 _ _
    exact ⟨s, rfl, by simpa using hs, Frame.refl s, rfl⟩
  | succ n ih =>
    intro i s bs hs h0 hi hroom
    have hlt : i < arr.length := by omega
    obtain ⟨s1, hr1, he1, hf1, hc1⟩ := orStep_run arr[i] hs (by omega) (by omega)
      (fun _ => appendByteArrayLoop arr s.currentBit (8 - s.currentBit) n (i + 1))
    obtain ⟨s2, hr2, he2, hf2, hc2⟩ := ih (i + 1) s1 _ he1 (by
        have a1 : 8 * s1.currentByte + s1.currentBit = _ := he1.pos
        have a2 : 8 * s.currentByte + s.currentBit = _ := hs.pos
        have a3 := hs.wf.bit
        simp only [List.length_append, byteBits_length] at a1
        rw [hf1.len]; omega) (by omega)
      (by rw [hf1.count]; simp; omega)
    refine ⟨s2, ?_, ?_, hf1.trans hf2, hc2.trans hc1⟩
    · simp only [appendByteArrayLoop]
      rw [tblGet_bind (List.getElem?_eq_getElem hlt), getS_bind, hr1]
      rw [hc1] at hr2; exact hr2
    · rw [List.drop_eq_getElem_cons hlt, List.take_succ_cons, bytesBits_cons, ← List.append_assoc]
      exact he2

/-- Masked update of two bytes, as used for the first and last byte. -/
theorem maskStep_run {s : BitStream} {bs : List Bool} (v : Byte) (hs : EncSt s bs) (hk1 : s.currentByte + 1 < s.buf.length)
    (hroom : bs.length + 8 ≤ 8 * s.count) :
    (bufAnd s.currentByte (~~~(BitVec.ofNat 8 (2 ^ (8 - s.currentBit) - 1))) >>= fun _ =>
      bufOr s.currentByte (v >>> s.currentBit) >>= fun _ => incByte >>= fun _ =>
      bufAnd (s.currentByte + 1) (~~~(~~~(BitVec.ofNat 8 (2 ^ (8 - s.currentBit) - 1)))) >>= fun _ =>
      bufOr (s.currentByte + 1) (v <<< (8 - s.currentBit))) s = .ok ((), afterByte s v) := by
  have hb := hs.wf.bit
  have hcap := hs.wf.cap
  have hr : s.pos + 8 ≤ 8 * s.count := by rw [hs.pos]; exact hroom
  simp only [BitStream.pos] at hr
  have hk : s.currentByte < s.buf.length := by omega
  rw [bufAnd_bind hk, bufOr_bind (by simpa using hk)]
  simp only [incByte, modS_bind]
  rw [bufAnd_bind (by simpa using hk1), bufOr_run (by simpa using hk1)]
  by_cases h0 : s.currentBit = 0
  · simp only [h0, putByte, afterByte, if_true]
    congr 3
    apply List.ext_getElem?
    intro i
    by_cases h : i = s.currentByte + 1
    · subst h
      simp [hk1, List.getElem?_set]
      have : (255#8 &&& s.buf[s.currentByte + 1]) = s.buf[s.currentByte + 1] := by
        rw [show (255#8) = BitVec.allOnes 8 from rfl, BitVec.allOnes_and]
      first | exact this | (rw [BitVec.and_comm]; exact this)
    · rw [List.getElem?_set_ne (fun e => h e.symm), List.getElem?_set_ne (fun e => h e.symm)]
      simp [hk]
  · simp [h0, hk, hk1, putByte, afterByte]

/-- The last byte: the second byte is only touched when the cursor is inside a byte. -/
theorem lastStep_run {s : BitStream} {bs : List Bool} (v : Byte) (hs : EncSt s bs)
    (hroom : bs.length + 8 ≤ 8 * s.count) :
    (bufAnd s.currentByte (~~~(BitVec.ofNat 8 (2 ^ (8 - s.currentBit) - 1))) >>= fun _ =>
      bufOr s.currentByte (v >>> s.currentBit) >>= fun _ => incByte >>= fun _ =>
      if s.currentBit ≠ 0 then
        (bufAnd (s.currentByte + 1) (~~~(~~~(BitVec.ofNat 8 (2 ^ (8 - s.currentBit) - 1)))) >>= fun _ =>
          bufOr (s.currentByte + 1) (v <<< (8 - s.currentBit)))
      else pure ()) s = .ok ((), afterByte s v) := by
  have hb := hs.wf.bit
  have hcap := hs.wf.cap
  have hr : s.pos + 8 ≤ 8 * s.count := by rw [hs.pos]; exact hroom
  simp only [BitStream.pos] at hr
  by_cases h0 : s.currentBit = 0
  · have hk : s.currentByte < s.buf.length := by omega
    rw [bufAnd_bind hk, bufOr_bind (by simpa using hk)]
    simp only [incByte, modS_bind]
    simp [h0, putByte, afterByte, hk]
  · rw [← maskStep_run v hs (by omega) hroom, if_pos h0]

theorem appendByteArray_run {s : BitStream} {bs : List Bool} {arr : List Byte} {n : Nat} (hs : EncSt s bs)
    (h0 : s.currentBit ≠ 0 ∨ n ≠ 1 ∨ s.currentByte + 1 < s.buf.length) (hn : n ≤ arr.length) (hroom : bs.length + 8 * n ≤ 8 * s.count) :
    ∃ s', appendByteArray arr n s = .ok (true, s') ∧ EncSt s' (bs ++ bytesBits (arr.take n)) ∧ Frame s s' := by
  have hb := hs.wf.bit
  have hcap := hs.wf.cap
  have hpos : 8 * s.currentByte + s.currentBit = bs.length := hs.pos
  have hm := masksb_get (n := 8 - s.currentBit) (by omega)
  simp only [appendByteArray, getS_bind]
  rw [tblGet_bind hm, if_neg (by omega)]
  match n, hn, hroom, h0 with
  | 0, _, _, _ =>
    refine ⟨s, ?_, by simpa using hs, Frame.refl s⟩
    simp [appendByteArrayLoop]
  | 1, hn, hroom, h0 =>
    obtain ⟨he, hf⟩ := afterByte_encSt (arr[0]'hn) hs (by omega)
    refine ⟨_, ?_, ?_, hf⟩
    · simp only [gt_iff_lt, Nat.zero_lt_one, if_true, Nat.sub_self, Nat.zero_sub, appendByteArrayLoop]
      rw [bind_ok (a := ()) (s' := afterByte s (arr[0]'hn))]
      · simp
      · rw [tblGet_bind (List.getElem?_eq_getElem hn)]
        exact maskStep_run _ hs (by omega) (by omega)
    · have : arr.take 1 = [arr[0]'hn] := by
        cases arr with
        | nil => simp at hn
        | cons => simp
      rw [this]; simpa using he
  | n + 2, hn, hroom, h0 =>
    obtain ⟨he1, hf1⟩ := afterByte_encSt (arr[0]'(by omega)) hs (by omega)
    have hc1 : (afterByte s (arr[0]'(by omega))).currentBit = s.currentBit := rfl
    obtain ⟨s2, hr2, he2, hf2, hc2⟩ := appendByteArrayLoop_run (arr := arr) n 1 _ _ he1
      (by simp only [afterByte, putByte_length]; omega) (by omega) (by rw [hf1.count]; simp; omega)
    rw [hc1] at hr2 hc2
    have hcnt : s2.count = s.count := (hf1.trans hf2).count
    have htl : ((arr.drop 1).take n).length = n := by simp; omega
    have hroom2 : ((bs ++ byteBits arr[0]) ++ bytesBits ((arr.drop 1).take n)).length + 8 ≤ 8 * s2.count := by
      rw [hcnt, List.length_append, List.length_append, bytesBits_length, htl, byteBits_length]; omega
    obtain ⟨he3, hf3⟩ := afterByte_encSt (arr[n + 1]'(by omega)) he2 hroom2
    have hlast := lastStep_run (arr[n + 1]'(by omega)) he2 hroom2
    rw [hc2] at hlast
    refine ⟨_, ?_, ?_, (hf1.trans hf2).trans hf3⟩
    · rw [if_pos (by omega)]
      rw [bind_ok (a := ()) (s' := afterByte s (arr[0]'(by omega)))]
      · rw [show n + 2 - 1 - 1 = n by omega, bind_ok hr2, if_pos (by omega)]
        rw [bind_ok (a := ()) (s' := afterByte s2 (arr[n + 1]'(by omega)))]
        · rfl
        · rw [tblGet_bind (List.getElem?_eq_getElem (i := n + 2 - 1) (by omega)), getS_bind]
          exact hlast
      · rw [tblGet_bind (List.getElem?_eq_getElem (i := 0) (by omega))]
        exact maskStep_run _ hs (by omega) (by omega)
    · have : arr.take (n + 2) = arr[0]'(by omega) :: ((arr.drop 1).take n ++ [arr[n + 1]'(by omega)]) := by
        rw [← List.take_append_getElem (by omega : n + 1 < arr.length)]
        cases arr with
        | nil => simp at hn
        | cons => simp
      rw [this]; simpa using he3

theorem appendByteArray_full {s : BitStream} {arr : List Byte} {n : Nat} (hb : s.currentBit < 8)
    (h : s.pos + 8 * n > 8 * s.count) : appendByteArray arr n s = .ok (false, s) := by
  have hm := masksb_get (n := 8 - s.currentBit) (by omega)
  simp only [BitStream.pos] at h
  simp only [appendByteArray, getS_bind]
  rw [tblGet_bind hm, if_pos (by omega)]
  rfl

theorem bitAt_memcpy {buf arr : List Byte} {k n : Nat} (hn : n ≤ arr.length) (hk : k + n ≤ buf.length) (i : Nat) :
    bitAt (buf.take k ++ arr.take n ++ buf.drop (k + n)) i =
      if 8 * k ≤ i ∧ i < 8 * k + 8 * n then bitAt arr (i - 8 * k) else bitAt buf i := by
  have l1 : (buf.take k).length = k := by simp; omega
  have l2 : (arr.take n).length = n := by simp; omega
  simp only [bitAt, List.getD_eq_getElem?_getD, List.getElem?_append, List.length_append, l1, l2]
  by_cases h1 : i / 8 < k
  · rw [if_pos (by omega), if_pos h1, if_neg (by omega), List.getElem?_take, if_pos h1]
  · by_cases h2 : i / 8 < k + n
    · rw [if_pos (by omega), if_neg h1, if_pos (by omega), List.getElem?_take, if_pos (by omega)]
      rw [show (i - 8 * k) / 8 = i / 8 - k by omega, show (i - 8 * k) % 8 = i % 8 by omega]
    · rw [if_neg (by omega), if_neg (by omega), List.getElem?_drop]
      rw [show k + n + (i / 8 - (k + n)) = i / 8 by omega]

theorem encodeOctetStringNoLength_appends {arr : List Byte} {n : Nat} (hn : n ≤ arr.length) :
    Appends (encodeOctetStringNoLength arr n) true (bytesBits (arr.take n)) := by
  intro s bs hs hroom
  have l2 : (arr.take n).length = n := by simp; omega
  rw [bytesBits_length, l2] at hroom
  by_cases h0 : s.currentBit = 0
  · have hpos : 8 * s.currentByte + s.currentBit = bs.length := hs.pos
    have hcap := hs.wf.cap
    simp only [encodeOctetStringNoLength, getS_bind]
    rw [if_pos h0, if_pos (by omega)]
    have hcp : memcpyIn s.currentByte arr n s = .ok ((), { s with
        buf := s.buf.take s.currentByte ++ arr.take n ++ s.buf.drop (s.currentByte + n) }) := by
      simp only [memcpyIn]; rw [if_pos ⟨hn, by omega⟩]
    rw [bind_ok hcp]
    simp only [modS_bind, pure_run]
    have hlen : (s.buf.take s.currentByte ++ arr.take n ++ s.buf.drop (s.currentByte + n)).length = s.buf.length := by
      simp; omega
    refine ⟨_, rfl, ?_⟩
    apply encSt_extend hs (by rw [bytesBits_length, l2]; exact hroom)
    · exact ⟨hs.wf.bit, by simp only [hlen]; exact hcap⟩
    · rfl
    · exact hlen
    · simp only [BitStream.pos, bytesBits_length, l2]; omega
    · intro i
      simp only [bytesBits_length, l2]
      rw [bitAt_memcpy hn (by omega)]
      have hp : s.pos = 8 * s.currentByte := by simp only [BitStream.pos]; omega
      rw [hp]
      by_cases h : 8 * s.currentByte ≤ i ∧ i < 8 * s.currentByte + 8 * n
      · rw [if_pos h, if_pos h, bytesBits_getD]
        simp only [bitAt, List.getD_eq_getElem?_getD, List.getElem?_take]
        rw [if_pos (by omega)]
      · rw [if_neg h, if_neg h]
  · simp only [encodeOctetStringNoLength, getS_bind]
    rw [if_neg h0]
    exact appendByteArray_run hs (Or.inl h0) hn hroom

theorem shift_partial_lt (b : Byte) {r : Nat} (h : r ≤ 8) : (b >>> (8 - r)).toNat < 2 ^ r := by
  rw [BitVec.toNat_ushiftRight, Nat.shiftRight_eq_div_pow]
  have := b.isLt
  rw [Nat.div_lt_iff_lt_mul (Nat.two_pow_pos _), ← Nat.pow_add]
  rw [show r + (8 - r) = 8 by omega]; exact this

theorem bytesBits_take {arr : List Byte} {n : Nat} (hn : n ≤ 8 * arr.length) (hr : 0 < n % 8) :
    (bytesBits arr).take n = bytesBits (arr.take (n / 8)) ++ bitsMsb (n % 8) ((arr.getD (n / 8) 0#8) >>> (8 - n % 8)).toNat := by
  have hlt : n / 8 < arr.length := by omega
  have hsplit : arr = arr.take (n / 8) ++ arr[n / 8] :: arr.drop (n / 8 + 1) := by
    rw [← List.drop_eq_getElem_cons hlt, List.take_append_drop]
  have l1 : (bytesBits (arr.take (n / 8))).length = 8 * (n / 8) := by
    rw [bytesBits_length, List.length_take]; omega
  conv => lhs; rw [hsplit]
  rw [bytesBits_append, bytesBits_cons, List.take_append, l1, List.take_of_length_le (by omega),
    List.take_append, byteBits_length, show n - 8 * (n / 8) = n % 8 by omega,
    show n % 8 - 8 = 0 by omega, List.take_zero, List.append_nil]
  congr 1
  have : arr.getD (n / 8) 0#8 = arr[n / 8] := by simp [hlt]
  rw [this]
  have e := bitsMsb_append (n % 8) (8 - n % 8) (arr[n / 8]).toNat
  rw [show n % 8 + (8 - n % 8) = 8 by omega] at e
  rw [byteBits, e, List.take_append, bitsMsb_length, List.take_of_length_le (by simp), Nat.sub_self, List.take_zero,
    List.append_nil, BitVec.toNat_ushiftRight]

theorem appendBits_appends {arr : List Byte} {n : Nat} (hn : n ≤ 8 * arr.length) :
    Appends (appendBits arr n) () ((bytesBits arr).take n) := by
  have h1 := encodeOctetStringNoLength_appends (arr := arr) (n := n / 8) (by omega)
  by_cases hr : 0 < n % 8
  · rw [bytesBits_take hn hr]
    apply h1.bind
    rw [if_pos hr]
    intro s bs hs hroom
    rw [tblGet_bind (b := arr.getD (n / 8) 0#8) (by rw [List.getElem?_eq_getElem (by omega)]; simp; rw [List.getElem?_eq_getElem (by omega)]; rfl)]
    exact appendPartialByte_appends (neg := false) (by omega) hr (Or.inr (shift_partial_lt _ (by omega))) s bs hs hroom
  · have : (bytesBits arr).take n = bytesBits (arr.take (n / 8)) ++ [] := by
      conv => lhs; rw [← List.take_append_drop (n / 8) arr]
      have l1 : (bytesBits (arr.take (n / 8))).length = 8 * (n / 8) := by
        rw [bytesBits_length, List.length_take]; omega
      rw [bytesBits_append, List.take_append, l1, List.take_of_length_le (by omega),
        show n - 8 * (n / 8) = 0 by omega, List.take_zero]
    rw [this]
    apply h1.bind
    rw [if_neg hr]
    exact Appends.pure ()

end Asn1
