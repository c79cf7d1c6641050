import Verif.Proof.AcnPatch
/-! IA5String determinants; numbers written over zeros. -/
namespace Asn1

theorem appendZeros_writes (n : Nat) : Writes (appendZeros n) () (List.replicate n false) := by
  induction n with
  | zero => exact Writes.pure _
  | succ n ih => exact (appendBit_writes false).bind (g := fun _ => appendZeros n) ih

theorem and_one_testBit8 (v : Byte) (k : Nat) : (((v >>> k) &&& 1#8) != 0#8) = v.toNat.testBit k := by
  have : ((v >>> k) &&& 1#8).toNat = (v.toNat >>> k) % 2 := by
    rw [BitVec.toNat_and, BitVec.toNat_ushiftRight]; exact Nat.and_one_is_mod _
  have h2 : v.toNat.testBit k = decide ((v.toNat >>> k) % 2 = 1) := by
    rw [Nat.testBit_eq_decide_div_mod_eq, Nat.shiftRight_eq_div_pow]
  rw [h2]
  by_cases h : (v.toNat >>> k) % 2 = 1
  · rw [h] at this
    have : (v >>> k) &&& 1#8 ≠ 0#8 := by intro e; rw [e] at this; simp at this
    simp [h, this]
  · rw [show (v.toNat >>> k) % 2 = 0 by omega] at this
    have : (v >>> k) &&& 1#8 = 0#8 := BitVec.eq_of_toNat_eq (by simpa using this)
    simp [h, this]

theorem patchCharLoop_writes (c : Byte) (k : Nat) : Writes (patchCharLoop c k) () (bitsMsb k c.toNat) := by
  induction k with
  | zero => exact Writes.pure _
  | succ k ih =>
    simp only [patchCharLoop]
    rw [bitsMsb_succ, and_one_testBit8]
    exact (appendBit_writes _).bind ih

theorem blankPad_length (n : Nat) (str : List Byte) : (blankPad n str).length = max n str.length := by
  simp only [blankPad, List.length_append, List.length_replicate]; omega

theorem blankPad_get {n i : Nat} {str : List Byte} (h : i < n) :
    (blankPad n str)[i]? = some (if h : i < str.length then str[i] else 0x20#8) := by
  simp only [blankPad, List.getElem?_append]
  split
  · simp [*]
  · rw [List.getElem?_replicate, if_pos (by omega)]

theorem HoldsString.get {obj str : List Byte} (h : HoldsString obj str) {i : Nat} (hi : i < str.length) : obj[i]? = some str[i] := by
  obtain ⟨rest, hr⟩ := h.1
  rw [← hr, List.append_assoc, List.getElem?_append_left hi, List.getElem?_eq_getElem hi]

theorem patchStrLoop_writes {obj str : List Byte} (h : HoldsString obj str) (k : Nat) : ∀ i,
    Writes (patchStrLoop obj str.length k i) () (sevenBits (((blankPad (i + k) str).drop i).take k)) := by
  induction k with
  | zero => intro i; rw [List.take_zero]; exact Writes.pure _
  | succ k ih =>
    intro i
    have hlen : i < (blankPad (i + (k + 1)) str).length := by rw [blankPad_length]; omega
    have hg := blankPad_get (n := i + (k + 1)) (i := i) (str := str) (by omega)
    rw [List.getElem?_eq_getElem hlen] at hg
    have hg := Option.some.inj hg
    have e : (if i < str.length then tblGet obj i else pure 0x20#8) = pure (blankPad (i + (k + 1)) str)[i] := by
      rw [hg]
      by_cases hi : i < str.length
      · rw [if_pos hi, dif_pos hi]; exact tblGet_ok (h.get hi)
      · rw [if_neg hi, dif_neg hi]
    simp only [patchStrLoop]
    rw [e, pure_bind, List.drop_eq_getElem_cons hlen, List.take_succ_cons]
    simp only [sevenBits, List.map_cons, List.flatten_cons]
    have := ih (i + 1)
    rw [show i + 1 + k = i + (k + 1) by omega] at this
    exact (patchCharLoop_writes _ 7).bind this

theorem sevenBits_length (l : List Byte) : (sevenBits l).length = 7 * l.length := by
  induction l with
  | nil => rfl
  | cons c l ih =>
    simp only [sevenBits, List.map_cons, List.flatten_cons, List.length_append, bitsMsb_length, List.length_cons] at ih ⊢
    omega

theorem sevenBits_index {l : List Byte} (h : ∀ c ∈ l, c.toNat < 128) : sevenBits l = indexCode ia5Set l := by
  induction l with
  | nil => simp [sevenBits, indexCode]
  | cons c l ih =>
    rw [indexCode_cons ia5Set c l, ← ih (fun c hc => h c (List.mem_cons_of_mem _ hc)), ia5_idx (h c List.mem_cons_self), ia5_length]
    have e7 : constrainedCode 0 (((128 : Nat) : Int) - 1) (c.toNat : Int) = bitsMsb 7 c.toNat := by
      unfold constrainedCode
      have : ((c.toNat : Int) - 0).toNat = c.toNat := by omega
      rw [this]
      rfl
    rw [e7]
    rfl

theorem ia5_reads {n : Nat} {l dst : List Byte} (hl : l.length = n) (h : ∀ c ∈ l, c.toNat < 128) (hd : n + 1 ≤ dst.length) :
    Reads (acnDecStrIndexFixSize n ia5Set 128 dst) (true, filled n l dst) (sevenBits l) := by
  have := (acnDecStrIndexPrivate_reads (max := n) (set := ia5Set) (dst := dst) (str := l) (by rw [ia5_length]; omega) hd (by omega)
    (ia5_within h)).1
  rw [ia5_length, hl] at this
  rw [sevenBits_index h]
  exact this

theorem patchDetIa5_run {obj str : List Byte} (h : HoldsString obj str) {n : Nat} {det : AcnRef} (hd : det.isSet = false)
    (hb : det.pos.currentBit < 8) {s : BitStream} (hwf : Wf s) (hroom : det.pos.pos + 7 * n ≤ 8 * s.count) :
    ∃ s', patchDetIa5 obj n det s = .ok (((true, none), { det with strValue := strnCopy obj str.length, isSet := true }), s') ∧
      Wf s' ∧ OnlyAt det.pos.pos (7 * n) s s' ∧ HoldsBits s'.buf det.pos.pos (sevenBits ((blankPad n str).take n)) := by
  have hw := patchStrLoop_writes h n 0
  rw [Nat.zero_add, List.drop_zero] at hw
  have hlen : (sevenBits ((blankPad n str).take n)).length = 7 * n := by
    rw [sevenBits_length, List.length_take, blankPad_length]; omega
  obtain ⟨s', r, w, o, hh⟩ := patched hw det.pos hwf hb (by rw [hlen]; exact hroom)
  rw [hlen] at o
  refine ⟨s', ?_, w, o, hh⟩
  rw [patchDetIa5, if_pos hd, strLen_eq h, pure_bind]
  have e : (do
      let cur ← acnGetPos
      acnSetPos det.pos
      patchStrLoop obj str.length n 0
      acnSetPos cur
      pure ((true, none), { det with strValue := strnCopy obj str.length, isSet := true }) : M ((Bool × Option Nat) × AcnRef)) =
    (do (do let cur ← acnGetPos; acnSetPos det.pos; patchStrLoop obj str.length n 0; acnSetPos cur : M Unit);
        pure ((true, none), { det with strValue := strnCopy obj str.length, isSet := true })) := by
    simp only [bind_assoc]
  rw [e, bind_ok r]
  rfl

theorem initDetIa5_run {n : Nat} {s : BitStream} {bs : List Bool} (h : EncSt s bs) (hroom : bs.length + 7 * n ≤ 8 * s.count) (d : AcnRef) :
    ∃ s1, initDetIa5 n d s = .ok (⟨⟨s.currentByte, s.currentBit⟩, false, 0#64, d.strValue.set 0 0#8⟩, s1) ∧
      EncSt s1 (bs ++ List.replicate (7 * n) false) ∧ Frame s s1 := by
  obtain ⟨s1, r1, e1, f1⟩ := (appendZeros_writes (n * 7)).appends s bs h (by rw [List.length_replicate]; omega)
  rw [Nat.mul_comm] at e1
  refine ⟨s1, ?_, e1, f1⟩
  show (do appendZeros (n * 7); pure _ : M AcnRef) s = _
  rw [bind_ok r1]
  rfl

theorem strnEq_eq (n : Nat) : ∀ {A B a b : List Byte}, HoldsString A a → HoldsString B b →
    strnEq A B n = pure (decide (a.take n = b.take n)) := by
  induction n with
  | zero => intro A B a b _ _; simp [strnEq]
  | succ n ih =>
    intro A B a b hA hB
    obtain ⟨⟨ra, hra⟩, h0a⟩ := hA
    obtain ⟨⟨rb, hrb⟩, h0b⟩ := hB
    cases a with
    | nil =>
      cases b with
      | nil =>
        simp only [List.nil_append, List.singleton_append] at hra hrb
        subst hra; subst hrb
        simp [strnEq]
      | cons y b =>
        have hy : y ≠ 0#8 := fun e => h0b (by simp [e])
        simp only [List.nil_append, List.cons_append] at hra hrb
        subst hra; subst hrb
        simp only [strnEq]
        rw [if_pos (fun e => hy e.symm)]
        simp
    | cons x a =>
      have hx : x ≠ 0#8 := fun e => h0a (by simp [e])
      cases b with
      | nil =>
        simp only [List.nil_append, List.cons_append] at hra hrb
        subst hra; subst hrb
        simp only [strnEq]
        rw [if_pos hx]
        simp
      | cons y b =>
        simp only [List.cons_append] at hra hrb
        subst hra; subst hrb
        simp only [strnEq]
        by_cases hxy : x = y
        · subst hxy
          rw [if_neg (by simp), if_neg hx,
            ih (a := a) (b := b) ⟨⟨ra, rfl⟩, fun e => h0a (List.mem_cons_of_mem _ e)⟩ ⟨⟨rb, rfl⟩, fun e => h0b (List.mem_cons_of_mem _ e)⟩]
          simp
        · rw [if_pos hxy]
          simp [hxy]

theorem strnCopy_holds {obj str : List Byte} (h : HoldsString obj str) : HoldsString (strnCopy obj str.length) (str.take 255) := by
  obtain ⟨⟨rest, hr⟩, h0⟩ := h
  constructor
  · refine ⟨List.replicate (255 - min str.length 255) 0#8, ?_⟩
    rw [strnCopy, ← hr, List.append_assoc (as := str), List.take_append_of_le_length (l₁ := str) (by omega)]
    have e1 : str.take (min str.length 255) = str.take 255 := by
      rcases Nat.le_total str.length 255 with hl | hl
      · rw [Nat.min_eq_left hl, List.take_of_length_le (Nat.le_refl _), List.take_of_length_le hl]
      · rw [Nat.min_eq_right hl]
    rw [e1, List.append_assoc]
    congr 1
    rw [show 256 - min str.length 255 = (255 - min str.length 255) + 1 by omega, List.replicate_succ]
    rfl
  · exact fun e => h0 (List.mem_of_mem_take e)

theorem patchDetIa5_again {obj obj' str str' : List Byte} (h : HoldsString obj str) (h' : HoldsString obj' str') {n : Nat} {det : AcnRef}
    (hd : det.isSet = true) (hs : det.strValue = strnCopy obj str.length) (s : BitStream) :
    patchDetIa5 obj' n det s =
      .ok ((if (str.take 255).take n = str'.take n then (true, none) else (false, some 203), det), s) := by
  rw [patchDetIa5, if_neg (by rw [hd]; decide), hs, strnEq_eq n (strnCopy_holds h) h', pure_bind]
  by_cases e : (str.take 255).take n = str'.take n
  · rw [if_pos (by simpa using e), if_pos e]; rfl
  · rw [if_neg (by simpa using e), if_neg e]; rfl

/-! ### Numbers written over zeros -/

/-- `f` overwrites the bits at the cursor of `s` by `w` and changes no other bit. -/
def WritesFrom {α : Type} (s : BitStream) (f : M α) (a : α) (w : List Bool) : Prop :=
  ∃ s', f s = .ok (a, s') ∧ Wf s' ∧ s'.count = s.count ∧ s'.buf.length = s.buf.length ∧ s'.pos = s.pos + w.length ∧
    ∀ i, bitAt s'.buf i = if s.pos ≤ i ∧ i < s.pos + w.length then w[i - s.pos]?.getD false else bitAt s.buf i

theorem WritesFrom.bind {α β : Type} {s : BitStream} {f : M α} {g : α → M β} {a : α} {b : β} {w1 w2 : List Bool}
    (hf : WritesFrom s f a w1)
    (hg : ∀ s1, Wf s1 → s1.count = s.count → s1.pos = s.pos + w1.length →
      (∀ i, s.pos + w1.length ≤ i → bitAt s1.buf i = bitAt s.buf i) → WritesFrom s1 (g a) b w2) :
    WritesFrom s (f >>= g) b (w1 ++ w2) := by
  obtain ⟨s1, r1, wf1, c1, l1, p1, b1⟩ := hf
  obtain ⟨s2, r2, wf2, c2, l2, p2, b2⟩ := hg s1 wf1 c1 p1 (fun i hi => by rw [b1, if_neg (by omega)])
  refine ⟨s2, by rw [bind_ok r1, r2], wf2, by omega, by omega, by rw [List.length_append]; omega, ?_⟩
  intro i
  rw [b2, b1, p1, List.length_append, List.getElem?_append]
  by_cases h1 : s.pos + w1.length ≤ i ∧ i < s.pos + w1.length + w2.length
  · rw [if_pos h1, if_pos (by omega), if_neg (by omega), show i - (s.pos + w1.length) = i - s.pos - w1.length by omega]
  · rw [if_neg h1]
    by_cases h2 : s.pos ≤ i ∧ i < s.pos + w1.length
    · rw [if_pos h2, if_pos (by omega), if_pos (by omega)]
    · rw [if_neg h2, if_neg (by omega)]

theorem WritesFrom.congr {α : Type} {s : BitStream} {f : M α} {a : α} {w w' : List Bool} (h : WritesFrom s f a w) (e : w = w') :
    WritesFrom s f a w' := e ▸ h

theorem partial_from {s : BitStream} {v : Byte} {n : Nat} (hwf : Wf s) (hn : n < 8) (hn0 : 0 < n) (hv : v.toNat < 2 ^ n)
    (hroom : s.pos + n ≤ 8 * s.count) (hc : s.currentBit + n ≤ 8) :
    WritesFrom s (appendPartialByte v n false) () (bitsMsb n v.toNat) := by
  obtain ⟨s', r, wf, c, l, p, b⟩ := appendPartialByte_run (neg := false) hwf hn (Or.inr hv) hn0 hroom
  refine ⟨s', r, wf, c, l, by rw [bitsMsb_length]; exact p, ?_⟩
  intro i
  rw [b, bitsMsb_length]
  have e : ¬ (8 < s.currentBit + n ∧ i / 8 = s.currentByte + 1) := by omega
  rw [if_neg e, if_neg e]
  by_cases hi : s.pos ≤ i ∧ i < s.pos + n
  · rw [if_pos hi, if_pos hi, bitsMsb_byte_getD (by omega)]
    simp [negP, show i - s.pos < n by omega]
  · rw [if_neg hi, if_neg hi]

theorem bytes_from (v : U32) (k : Nat) (hk : k ≤ 4) : Writes (encodeNN32Bytes v false k) () (bitsMsb (8 * k) v.toNat) := by
  induction k with
  | zero => exact Writes.pure ()
  | succ k ih =>
    have hm : masks2[k + 1]? = some (masks2[k + 1]'(by simp [masks2]; omega)) := List.getElem?_eq_getElem _
    have hb := mask2_byte (v := v) (by omega) hm
    have h := (appendByte_writes (((v &&& (masks2[k + 1]'(by simp [masks2]; omega))) >>> (8 * k)).setWidth 8) false).bind
      (g := fun _ => encodeNN32Bytes v false k) (ih (by omega))
    rw [hb, byteBits_negB, byteBits_setWidth, BitVec.toNat_ushiftRight] at h
    have e : encodeNN32Bytes v false (k + 1) = (do
        appendByte ((v >>> (8 * k)).setWidth 8) false
        encodeNN32Bytes v false k) := by
      rw [← hb]
      show (do
        let m ← tblGet masks2 (k + 1)
        appendByte (((v &&& m) >>> (8 * k)).setWidth 8) false
        encodeNN32Bytes v false k) = _
      rw [tblGet_ok hm, pure_bind]
    rw [e, show 8 * (k + 1) = 8 + 8 * k by omega, bitsMsb_append]
    exact h

theorem enc32_from {s : BitStream} {v : U32} (hwf : Wf s) (hroom : s.pos + bitLen v.toNat ≤ 8 * s.count)
    (hc : s.currentBit + bitLen v.toNat % 8 ≤ 8) :
    WritesFrom s (encodeNonNegativeInteger32Neg v false) () (bitsMsb (bitLen v.toNat) v.toNat) := by
  unfold encodeNonNegativeInteger32Neg
  by_cases h0 : v = 0#32
  · subst h0
    exact ⟨s, rfl, hwf, rfl, rfl, rfl, fun i => by
      have : (bitsMsb (bitLen (0#32).toNat) (0#32).toNat).length = 0 := rfl
      rw [this, if_neg (by omega)]⟩
  · rw [if_neg h0, cc_eq h0]
    have hn : bitLen v.toNat ≤ 32 := (bitLen_le_iff _ _).2 v.isLt
    have hlt := lt_two_pow_bitLen v.toNat
    generalize bitLen v.toNat = n at hn hlt hroom hc ⊢
    simp only []
    have hk : (n - n % 8) / 8 = n / 8 := by omega
    have hs : n - n % 8 = 8 * (n / 8) := by omega
    rw [hk, hs]
    have split : bitsMsb n v.toNat = bitsMsb (n % 8) (v.toNat >>> (8 * (n / 8))) ++ bitsMsb (8 * (n / 8)) v.toNat := by
      rw [← bitsMsb_append]; congr 1; omega
    rw [split]
    refine WritesFrom.bind (a := ()) (g := fun _ => encodeNN32Bytes v false (n / 8)) ?_ ?_
    · by_cases hp : n % 8 = 0
      · simp only [hp, ne_eq, not_true_eq_false, if_false]
        exact ⟨s, rfl, hwf, rfl, rfl, rfl, fun i => by
          rw [bitsMsb_length, if_neg (by omega)]⟩
      · rw [if_pos hp]
        have hx : (v >>> (8 * (n / 8))).toNat < 2 ^ (n % 8) := by
          rw [BitVec.toNat_ushiftRight, Nat.shiftRight_eq_div_pow, Nat.div_lt_iff_lt_mul (Nat.two_pow_pos _), ← Nat.pow_add]
          rwa [show n % 8 + 8 * (n / 8) = n by omega]
        have hy : ((v >>> (8 * (n / 8))).setWidth 8).toNat = v.toNat >>> (8 * (n / 8)) := by
          rw [BitVec.toNat_setWidth, BitVec.toNat_ushiftRight]
          rw [BitVec.toNat_ushiftRight] at hx
          exact Nat.mod_eq_of_lt (Nat.lt_of_lt_of_le hx (Nat.pow_le_pow_right (by omega) (by omega)))
        have := partial_from (s := s) (v := (v >>> (8 * (n / 8))).setWidth 8) (n := n % 8) hwf (by omega) (by omega)
          (by rw [hy, ← BitVec.toNat_ushiftRight]; exact hx) (by omega) hc
        rwa [hy] at this
    · intro s1 wf1 c1 p1 _
      rw [bitsMsb_length] at p1
      exact bytes_from v (n / 8) (by omega) s1 wf1 (by rw [bitsMsb_length, c1]; omega)

/-- A number of the range `lo..hi` (less than 2^32 values) written over zeros, when the field ends on a byte boundary or lies within one
byte. -/
theorem constraint_from {s : BitStream} {v lo hi : Int} (hwf : Wf s) (h1 : lo ≤ v) (h2 : v ≤ hi) (h3 : hi - lo < 2 ^ 32)
    (hroom : s.pos + (constrainedCode lo hi v).length ≤ 8 * s.count)
    (hz : HoldsBits s.buf s.pos (List.replicate (constrainedCode lo hi v).length false))
    (hc : (s.pos + (constrainedCode lo hi v).length) % 8 = 0 ∨ s.pos % 8 + (constrainedCode lo hi v).length ≤ 8) :
    WritesFrom s (encodeConstraintWholeNumber v lo hi) () (constrainedCode lo hi v) := by
  unfold encodeConstraintWholeNumber
  unfold constrainedCode at *
  have e1 : assertC (decide (lo ≤ hi)) = pure () := by
    funext s; simp [assertC, show lo ≤ hi by omega]
  rw [e1, pure_bind, chk_ok (by omega), pure_bind]
  have hR := ofInt_toNat (x := hi - lo) (by omega) (by omega)
  rw [bitsMsb_length] at hroom hz hc
  by_cases h0 : BitVec.ofInt 64 (hi - lo) = 0#64
  · rw [if_pos h0]
    rw [h0] at hR
    have : (hi - lo).toNat = 0 := by rw [← hR]; rfl
    rw [this]
    exact ⟨s, rfl, hwf, rfl, rfl, rfl, fun i => by
      have : (bitsMsb (bitLen 0) (v - lo).toNat).length = 0 := rfl
      rw [this, if_neg (by omega)]⟩
  · rw [if_neg h0, chk_ok (by omega), pure_bind, getNumberOfBits_eq (BitVec.ofInt 64 (hi - lo)), hR]
    have hV := ofInt_toNat (x := v - lo) (by omega) (by omega)
    rw [getNumberOfBits_eq, hV]
    have hle : bitLen (v - lo).toNat ≤ bitLen (hi - lo).toNat :=
      (bitLen_le_iff _ _).2 (Nat.lt_of_le_of_lt (by omega) (lt_two_pow_bitLen (hi - lo).toNat))
    have hw : (v - lo).toNat < 2 ^ 32 := by omega
    generalize hn : bitLen (hi - lo).toNat = n at *
    have e : ((n : Int) - bitLen (v - lo).toNat) = ((n - bitLen (v - lo).toNat : Nat) : Int) := by omega
    simp only [e]
    have hpad : bitsMsb n (v - lo).toNat =
        List.replicate (n - bitLen (v - lo).toNat) false ++ bitsMsb (bitLen (v - lo).toNat) (v - lo).toNat := by
      rw [← bitsMsb_pad _ _ _ (lt_two_pow_bitLen _)]; congr 1; omega
    rw [hpad]
    refine WritesFrom.bind (a := ()) (g := fun _ => encodeNonNegativeInteger (BitVec.ofInt 64 (v - lo))) ?_ ?_
    · obtain ⟨s', r, wf, c, bf, p⟩ := appendNBitZero_run hwf (n - bitLen (v - lo).toNat) (by omega)
      refine ⟨s', r, wf, c, by rw [bf], by rw [p, List.length_replicate], ?_⟩
      intro i
      rw [bf, List.length_replicate]
      by_cases hi : s.pos ≤ i ∧ i < s.pos + (n - bitLen (v - lo).toNat)
      · rw [if_pos hi]
        have := hz (i - s.pos) (by rw [List.length_replicate]; omega)
        rw [show s.pos + (i - s.pos) = i by omega] at this
        rw [this]
        simp only [List.getElem?_replicate]
        rw [if_pos (by omega), if_pos (by omega)]
      · rw [if_neg hi]
    · intro s1 wf1 c1 p1 _
      rw [List.length_replicate] at p1
      unfold encodeNonNegativeInteger
      rw [if_pos (by rw [BitVec.lt_def, hV]; exact hw)]
      have hb1 := wf1.bit
      have hb := hwf.bit
      have hpp : s1.pos = 8 * s1.currentByte + s1.currentBit := rfl
      have := enc32_from (s := s1) (v := (BitVec.ofInt 64 (v - lo)).setWidth 32) wf1
      rw [setWidth32_toNat (by rw [hV]; exact hw), hV] at this
      exact this (by omega) (by omega)

end Asn1
