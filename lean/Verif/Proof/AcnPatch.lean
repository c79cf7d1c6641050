import Verif.Spec.AcnPatch
import Verif.Proof.AcnInt2
import Verif.Proof.AcnStrings
/-! Lemmas about patching. -/
namespace Asn1

theorem Writes.pure {α : Type} (a : α) : Writes (pure a : M α) a [] := by
  intro s hwf _
  refine ⟨s, rfl, hwf, rfl, rfl, by simp, ?_⟩
  intro i
  rw [if_neg (by simp only [List.length_nil]; omega)]

theorem Writes.bind {α β : Type} {f : M α} {g : α → M β} {a : α} {b : β} {w1 w2 : List Bool}
    (hf : Writes f a w1) (hg : Writes (g a) b w2) : Writes (f >>= g) b (w1 ++ w2) := by
  intro s hwf hroom
  rw [List.length_append] at hroom
  obtain ⟨s1, r1, wf1, c1, l1, p1, b1⟩ := hf s hwf (by omega)
  obtain ⟨s2, r2, wf2, c2, l2, p2, b2⟩ := hg s1 wf1 (by rw [c1]; omega)
  refine ⟨s2, by rw [bind_ok r1, r2], wf2, by omega, by omega, by rw [List.length_append]; omega, ?_⟩
  intro i
  rw [b2, b1, p1, List.length_append, List.getElem?_append]
  by_cases h1 : s.pos + w1.length ≤ i ∧ i < s.pos + w1.length + w2.length
  · rw [if_pos h1, if_pos (by omega), if_neg (by omega), show i - (s.pos + w1.length) = i - s.pos - w1.length by omega]
  · rw [if_neg h1]
    by_cases h2 : s.pos ≤ i ∧ i < s.pos + w1.length
    · rw [if_pos h2, if_pos (by omega), if_pos (by omega)]
    · rw [if_neg h2, if_neg (by omega)]

theorem Writes.check {f : M Unit} {w : List Bool} (h : Writes f () w) : Writes (do f; assertInBounds) () w := by
  intro s hwf hroom
  obtain ⟨s1, r1, wf1, c1, l1, p1, b1⟩ := h s hwf hroom
  refine ⟨s1, ?_, wf1, c1, l1, p1, b1⟩
  rw [bind_ok r1, assertInBounds_run (by rw [p1, c1]; exact hroom)]

theorem Writes.checkV {α : Type} {f : M α} {a : α} {w : List Bool} (h : Writes f a w) :
    Writes (do let _ ← f; assertInBounds) () w := by
  intro s hwf hroom
  obtain ⟨s1, r1, wf1, c1, l1, p1, b1⟩ := h s hwf hroom
  refine ⟨s1, ?_, wf1, c1, l1, p1, b1⟩
  rw [bind_ok r1, assertInBounds_run (by rw [p1, c1]; exact hroom)]

theorem acnEncUIntConstSize8_writes (v : U64) : Writes (acnEncUIntConstSize8 v) () (bitsMsb 8 v.toNat) := by
  have := (appendByte0_writes (v.setWidth 8)).checkV
  rw [byteBits_setWidth] at this
  exact this

theorem acnEncBigLoop_writes (v : U64) (k : Nat) : ∀ mask, k ≤ 8 → (1 ≤ k → mask = 0xFF#64 <<< ((k - 1) * 8)) →
    Writes (acnEncBigLoop v k mask) () (bitsMsb (8 * k) v.toNat) := by
  induction k with
  | zero => intro mask _ _; exact Writes.pure _
  | succ k ih =>
    intro mask hk hm
    have hm := hm (by omega)
    rw [Nat.add_sub_cancel] at hm
    subst hm
    simp only [acnEncBigLoop]
    rw [mask_byte (by omega), show 8 * (k + 1) = 8 + 8 * k by omega, bitsMsb_append]
    have e : bitsMsb 8 (v.toNat >>> (8 * k)) = byteBits ((v >>> (k * 8)).setWidth 8) := by
      rw [byteBits_setWidth, BitVec.toNat_ushiftRight, Nat.mul_comm]
    rw [e]
    refine (appendByte0_writes _).bind ?_
    apply ih _ (by omega)
    intro h1
    obtain ⟨j, rfl⟩ : ∃ j, k = j + 1 := ⟨k - 1, by omega⟩
    exact mask_step j (by omega)

theorem acnEncUIntBig_writes (v : U64) {size : Nat} (h : size ≤ 8) :
    Writes (acnEncUIntBig v size) () (bitsMsb (8 * size) v.toNat) :=
  (acnEncBigLoop_writes v size _ h (fun _ => rfl)).check

theorem acnEncLittleLoop_writes (k : Nat) : ∀ v : U64, Writes (acnEncLittleLoop k v) () (littleCode k v.toNat) := by
  induction k with
  | zero => intro v; exact Writes.pure _
  | succ k ih =>
    intro v
    simp only [acnEncLittleLoop, littleCode]
    rw [← byteBits_setWidth]
    refine (appendByte0_writes _).bind ?_
    have := ih (v >>> 8)
    rw [BitVec.toNat_ushiftRight, Nat.shiftRight_eq_div_pow] at this
    exact this

theorem acnEncUIntLittle_writes (v : U64) (size : Nat) :
    Writes (acnEncUIntLittle v size) () (littleCode size v.toNat) :=
  (acnEncLittleLoop_writes size v).check

theorem acnEncSInt8_writes {v : Int} (h1 : -(2 ^ 63) < v) (h2 : v < 2 ^ 63) :
    Writes (acnEncSIntConstSize8 v) () (twosCode 8 v) := by
  unfold acnEncSIntConstSize8
  rw [int2uint_run h1 h2, pure_bind, ← bitsMsb_ofInt (by omega)]
  exact acnEncUIntConstSize8_writes _

theorem acnEncSIntBig_writes {v : Int} {size : Nat} (hs : size ≤ 8) (h1 : -(2 ^ 63) < v) (h2 : v < 2 ^ 63) :
    Writes (acnEncSIntBig v size) () (twosCode (8 * size) v) := by
  unfold acnEncSIntBig
  rw [int2uint_run h1 h2, pure_bind, ← bitsMsb_ofInt (by omega)]
  exact acnEncUIntBig_writes _ hs

theorem and_one_testBit (v : U64) (k : Nat) : (((v >>> k) &&& 1#64) != 0#64) = v.toNat.testBit k := by
  have : ((v >>> k) &&& 1#64).toNat = (v.toNat >>> k) % 2 := by
    rw [BitVec.toNat_and, BitVec.toNat_ushiftRight]; exact Nat.and_one_is_mod _
  have h2 : v.toNat.testBit k = decide ((v.toNat >>> k) % 2 = 1) := by
    rw [Nat.testBit_eq_decide_div_mod_eq, Nat.shiftRight_eq_div_pow]
  rw [h2]
  by_cases h : (v.toNat >>> k) % 2 = 1
  · rw [h] at this
    have : (v >>> k) &&& 1#64 ≠ 0#64 := by intro e; rw [e] at this; simp at this
    simp [h, this]
  · rw [show (v.toNat >>> k) % 2 = 0 by omega] at this
    have : (v >>> k) &&& 1#64 = 0#64 := BitVec.eq_of_toNat_eq (by simpa using this)
    simp [h, this]

theorem patchBitsLoop_writes (v : U64) (k : Nat) (h : k ≤ 64) : Writes (patchBitsLoop v k) () (bitsMsb k v.toNat) := by
  induction k with
  | zero => exact Writes.pure _
  | succ k ih =>
    simp only [patchBitsLoop]
    rw [if_pos (by omega), bitsMsb_succ, and_one_testBit]
    exact (appendBit_writes _).bind (ih (by omega))

theorem toInt_range (v : U64) : -(2 ^ 63) ≤ v.toInt ∧ v.toInt < 2 ^ 63 := ⟨BitVec.le_toInt v, BitVec.toInt_lt⟩

theorem twosCode_toInt (v : U64) {n : Nat} (hn : n ≤ 64) : twosCode n v.toInt = bitsMsb n v.toNat := by
  rw [← bitsMsb_ofInt hn, BitVec.ofInt_toInt]

theorem bool1_bits (v : U64) (h : v.toNat < 2) : [v != 0#64] = bitsMsb 1 v.toNat := by
  have : v = 0#64 ∨ v = 1#64 := by
    rcases (show v.toNat = 0 ∨ v.toNat = 1 by omega) with h | h
    · left; exact BitVec.eq_of_toNat_eq h
    · right; exact BitVec.eq_of_toNat_eq h
  rcases this with rfl | rfl <;> decide

theorem littleCode_zero (n : Nat) : littleCode n 0 = List.replicate (8 * n) false := by
  induction n with
  | zero => rfl
  | succ n ih => rw [littleCode, Nat.zero_div, ih, bitsMsb_zero, List.replicate_append_replicate]; congr 1; omega

theorem DetKind.code_length (k : DetKind) (v : U64) : (k.code v).length = k.width := by
  cases k <;> simp [DetKind.code, DetKind.width, littleCode_length]

theorem DetKind.code_zero (k : DetKind) : k.code 0#64 = List.replicate k.width false := by
  cases k <;> simp only [DetKind.code, BitVec.toNat_ofNat, Nat.zero_mod, bitsMsb_zero, littleCode_zero, DetKind.width]

theorem detEncoder_zero {k : DetKind} (hk : k.Legal) : Appends (detEncoder k 0#64) () (List.replicate k.width false) := by
  rw [← DetKind.code_zero]
  cases k with
  | u8 => exact acnEncUIntConstSize8_appends _
  | uBig size => exact acnEncUIntBig_appends _ (by simp only [DetKind.Legal] at hk; omega)
  | uLittle size => exact acnEncUIntLittle_appends _ _
  | i8 => exact acnEncSIntConstSize8_appends (v := 0) (by omega) (by omega)
  | iBig size =>
    have h8 : size ≤ 8 := by simp only [DetKind.Legal] at hk; omega
    have := acnEncSIntBig_appends (v := 0) h8 (by omega) (by omega)
    rw [← bitsMsb_ofInt (by omega)] at this
    exact this
  | bool1 =>
    exact (appendBit_writes _).appends
  | constSize n => exact acnEncUIntConstSize_appends (v := 0#64) (Nat.two_pow_pos _)
  | twosConstSize n =>
    have h2 : 1 ≤ n ∧ n ≤ 64 := hk
    have hp : (0 : Int) < 2 ^ (n - 1) := Int.pow_pos (by omega)
    have := acnEncSIntConstSize_appends (v := 0) (n := n) ⟨h2.1, by omega, by omega⟩ (by omega) (by omega)
    rw [← bitsMsb_ofInt (by omega)] at this
    exact this

theorem detOverwrite_writes {k : DetKind} {v : U64} (hk : k.Legal) (hv : k.Fits v) (hm : v.toInt ≠ -(2 ^ 63) ∨ k ≠ .iBig 8) :
    Writes (detOverwrite k v) () (k.code v) := by
  have hr := toInt_range v
  cases k with
  | u8 => exact acnEncUIntConstSize8_writes _
  | uBig size => exact acnEncUIntBig_writes _ (by simp only [DetKind.Legal] at hk; omega)
  | uLittle size => exact acnEncUIntLittle_writes _ _
  | i8 =>
    have h8 : FitsTwos 8 v.toInt := hv
    have h8' : -(2 ^ (8 - 1) : Int) ≤ v.toInt := h8.2.1
    have := acnEncSInt8_writes (v := v.toInt) (by omega) (by omega)
    rwa [twosCode_toInt _ (by omega)] at this
  | iBig size =>
    have hs : size = 2 ∨ size = 4 ∨ size = 8 := hk
    have hf : FitsTwos (8 * size) v.toInt := hv
    have h1 := hf.2.1
    have hlt : -(2 ^ 63) < v.toInt := by
      rcases hs with rfl | rfl | rfl
      · have : -(2 ^ (8 * 2 - 1) : Int) ≤ v.toInt := h1; omega
      · have : -(2 ^ (8 * 4 - 1) : Int) ≤ v.toInt := h1; omega
      · rcases hm with hm | hm
        · omega
        · exact absurd rfl hm
    have := acnEncSIntBig_writes (v := v.toInt) (size := size) (by omega) hlt hr.2
    rwa [twosCode_toInt _ (by omega)] at this
  | bool1 =>
    have := appendBit_writes (v != 0#64)
    rw [bool1_bits v hv] at this
    exact this
  | constSize n => exact patchBitsLoop_writes _ _ hk
  | twosConstSize n => exact patchBitsLoop_writes _ _ hk.2

theorem reads_mapU {f : M (Bool × Int)} {v : Int} {w : List Bool} (h : Reads f (true, v) w) :
    Reads (do let r ← f; pure (r.1, BitVec.ofInt 64 r.2) : M (Bool × U64)) (true, BitVec.ofInt 64 v) w := by
  rw [← List.append_nil w]
  exact h.bind (Reads.pure _)

theorem detDecoder_reads {k : DetKind} {v : U64} (hk : k.Legal) (hv : k.Fits v) :
    Reads (detDecoder k) (true, v) (k.code v) := by
  cases k with
  | u8 =>
    have := (acnDecUIntConstSize8_reads (v := v.toNat) hv).1
    rwa [BitVec.ofNat_toNat, BitVec.setWidth_eq] at this
  | uBig size =>
    have := (acnDecUIntBig_reads size 0 v.toNat hv).1
    rwa [Nat.zero_mul, Nat.zero_add, BitVec.ofNat_toNat, BitVec.setWidth_eq] at this
  | uLittle size =>
    have := (acnDecUIntLittle_reads size 0 0 v.toNat hv (by simp)).1
    rwa [Nat.mul_zero, Nat.pow_zero, Nat.mul_one, Nat.add_zero, BitVec.ofNat_toNat, BitVec.setWidth_eq] at this
  | i8 =>
    have := reads_mapU (acnDecSIntConstSize8_reads hv).1
    rwa [twosCode_toInt _ (by omega), BitVec.ofInt_toInt] at this
  | iBig size =>
    have hs : size = 2 ∨ size = 4 ∨ size = 8 := hk
    have := reads_mapU (acnDecSIntBig_reads (size := size) (by omega) (by omega) hv).1
    rwa [twosCode_toInt _ (by omega), BitVec.ofInt_toInt] at this
  | bool1 =>
    show Reads (do let r ← readBit; pure (r.1, if r.2 then 1#64 else 0#64) : M (Bool × U64)) _ (bitsMsb 1 v.toNat)
    rw [← bool1_bits v hv, ← List.append_nil [v != 0#64]]
    refine (readBit_reads _).bind ?_
    have e : (if (v != 0#64) = true then 1#64 else 0#64) = v := by
      have hv : v.toNat < 2 := hv
      rcases (show v.toNat = 0 ∨ v.toNat = 1 by omega) with h | h
      · have : v = 0#64 := BitVec.eq_of_toNat_eq h
        subst this; rfl
      · have : v = 1#64 := BitVec.eq_of_toNat_eq h
        subst this; rfl
    simp only [e]
    exact Reads.pure _
  | constSize n =>
    have := (acnDecUIntConstSize_reads hk (v := v.toNat) hv).1
    rwa [BitVec.ofNat_toNat, BitVec.setWidth_eq] at this
  | twosConstSize n =>
    have := reads_mapU (acnDecSIntConstSize_reads hv hk.2).1
    rwa [twosCode_toInt _ hk.2, BitVec.ofInt_toInt] at this

/-- A position inside the stream. -/
def AcnPos.pos (p : AcnPos) : Nat := 8 * p.currentByte + p.currentBit

/-- Writing somewhere else and coming back. -/
theorem patched {f : M Unit} {w : List Bool} (hf : Writes f () w) (p : AcnPos) {s : BitStream} (hwf : Wf s) (hp : p.currentBit < 8)
    (hroom : p.pos + w.length ≤ 8 * s.count) :
    ∃ s', (do let cur ← acnGetPos; acnSetPos p; f; acnSetPos cur : M Unit) s = .ok ((), s') ∧ Wf s' ∧
      OnlyAt p.pos w.length s s' ∧ HoldsBits s'.buf p.pos w := by
  obtain ⟨s1, r1, wf1, c1, l1, p1, b1⟩ :=
    hf { s with currentByte := p.currentByte, currentBit := p.currentBit } ⟨hp, hwf.cap⟩ hroom
  have hpos : ({ s with currentByte := p.currentByte, currentBit := p.currentBit } : BitStream).pos = p.pos := rfl
  rw [hpos] at b1 p1
  refine ⟨{ s1 with currentByte := s.currentByte, currentBit := s.currentBit }, ?_, ⟨hwf.bit, wf1.cap⟩,
    ⟨rfl, rfl, c1, l1, ?_⟩, ?_⟩
  · show (do f; acnSetPos ⟨s.currentByte, s.currentBit⟩ : M Unit) _ = _
    rw [bind_ok r1]
    rfl
  · intro i hi
    show bitAt s1.buf i = _
    rw [b1, if_neg (by omega)]
  · intro i hi
    show bitAt s1.buf _ = _
    rw [b1, if_pos (by omega), Nat.add_sub_cancel_left]

theorem HoldsBits.readsAt {α : Type} {dec : M (Bool × α)} {v : α} {w : List Bool} {buf : List Byte} {p : Nat}
    (h : HoldsBits buf p w) (hr : Reads dec (true, v) w) : ReadsAt dec v buf p w.length := by
  intro t hwf hp hc hb
  obtain ⟨rest, hd⟩ := decSt_exists (s := { t with currentByte := (p + w.length) / 8, currentBit := (p + w.length) % 8 })
    ⟨by show (p + w.length) % 8 < 8; omega, hwf.cap⟩ (by show 8 * ((p + w.length) / 8) + (p + w.length) % 8 ≤ 8 * t.count; omega)
  have hpos : ({ t with currentByte := (p + w.length) / 8, currentBit := (p + w.length) % 8 } : BitStream).pos = p + w.length := by
    show 8 * ((p + w.length) / 8) + (p + w.length) % 8 = _; omega
  have h1 := hd.pos
  have h2 := hd.bits
  rw [hpos] at h1 h2
  obtain ⟨t', rt, dt, ht, ct⟩ := hr t rest ⟨hwf, by rw [List.length_append, hp]; have : t.count = ({ t with currentByte := (p + w.length) / 8, currentBit := (p + w.length) % 8 } : BitStream).count := rfl; omega, by
    intro i hi
    rw [List.length_append] at hi
    rw [List.getElem?_append, hp]
    by_cases hlt : i < w.length
    · rw [if_pos hlt, hb _ (by omega) (by omega)]
      exact h i hlt
    · rw [if_neg hlt]
      have := h2 (i - w.length) (by omega)
      rw [show p + w.length + (i - w.length) = p + i by omega] at this
      exact this⟩
  refine ⟨t', rt, ?_, ht, ct⟩
  have := dt.pos
  have e : ({ t with currentByte := (p + w.length) / 8, currentBit := (p + w.length) % 8 } : BitStream).count = t.count := rfl
  omega

theorem initDet_run {k : DetKind} (hk : k.Legal) {s : BitStream} {bs : List Bool} (h : EncSt s bs)
    (hroom : bs.length + k.width ≤ 8 * s.count) (d : AcnRef) :
    ∃ s1, initDet k d s = .ok ({ d with pos := ⟨s.currentByte, s.currentBit⟩, isSet := false, value := 0#64 }, s1) ∧
      EncSt s1 (bs ++ List.replicate k.width false) ∧ Frame s s1 := by
  obtain ⟨s1, r1, e1, f1⟩ := detEncoder_zero hk s bs h (by rw [List.length_replicate]; exact hroom)
  refine ⟨s1, ?_, e1, f1⟩
  show (do detEncoder k 0#64; pure _ : M AcnRef) s = _
  rw [bind_ok r1]
  rfl

theorem patchDet_run {k : DetKind} {v : U64} (hk : k.Legal) (hv : k.Fits v) (hm : v.toInt ≠ -(2 ^ 63) ∨ k ≠ .iBig 8)
    {det : AcnRef} (hd : det.isSet = false) (hb : det.pos.currentBit < 8) {s : BitStream} (hwf : Wf s)
    (hroom : det.pos.pos + k.width ≤ 8 * s.count) :
    ∃ s', patchDet k v det s = .ok (((true, none), { det with value := v, isSet := true }), s') ∧ Wf s' ∧
      OnlyAt det.pos.pos k.width s s' ∧ HoldsBits s'.buf det.pos.pos (k.code v) := by
  obtain ⟨s', r, w, o, hh⟩ := patched (detOverwrite_writes hk hv hm) det.pos hwf hb (by rw [DetKind.code_length]; exact hroom)
  rw [DetKind.code_length] at o
  refine ⟨s', ?_, w, o, hh⟩
  rw [patchDet, if_pos hd]
  have e : (do
      let cur ← acnGetPos
      acnSetPos det.pos
      detOverwrite k v
      acnSetPos cur
      pure ((true, none), { det with value := v, isSet := true }) : M ((Bool × Option Nat) × AcnRef)) =
    (do (do let cur ← acnGetPos; acnSetPos det.pos; detOverwrite k v; acnSetPos cur : M Unit);
        pure ((true, none), { det with value := v, isSet := true })) := by
    simp only [bind_assoc]
  rw [e, bind_ok r]
  rfl

theorem patchDet_again {k : DetKind} {v : U64} {det : AcnRef} (hd : det.isSet = true) (s : BitStream) :
    patchDet k v det s =
      .ok ((if det.value = v then (true, none) else (false, some 203), det), s) := by
  rw [patchDet, if_neg (by rw [hd]; decide)]
  by_cases h : det.value = v
  · rw [if_neg (by simp [h]), if_pos h]; rfl
  · rw [if_pos h, if_neg h]; rfl

end Asn1
