import Verif.Proof.AcnPatch2
/-! Contained types with deferred patching. -/
namespace Asn1

theorem holds_of_encSt {s : BitStream} {bs w later : List Bool} (h : EncSt s (bs ++ w ++ later)) :
    HoldsBits s.buf bs.length w := by
  intro i hi
  have hr := h.room
  simp only [List.length_append] at hr
  rw [h.bits _ (by omega), List.getElem?_append_left (by simp; omega), List.getElem?_append_right (by omega),
    Nat.add_sub_cancel_left]

/-- Replacing the bits of a written field. -/
theorem EncSt.patched {s s' : BitStream} {bs z w later : List Bool} (h : EncSt s (bs ++ z ++ later)) (hl : z.length = w.length)
    (hwf : Wf s') (ho : OnlyAt bs.length w.length s s') (hh : HoldsBits s'.buf bs.length w) : EncSt s' (bs ++ w ++ later) := by
  have hp := h.pos
  have hr := h.room
  simp only [List.length_append] at hp hr
  refine ⟨hwf, ?_, ?_, ?_⟩
  · have : s'.pos = s.pos := by simp only [BitStream.pos, ho.byte, ho.bit]
    rw [this, hp]; simp only [List.length_append]; omega
  · rw [ho.count]; simp only [List.length_append]; omega
  · intro i hi
    rw [ho.count] at hi
    by_cases h1 : i < bs.length
    · rw [ho.other i (Or.inl h1), h.bits i hi, List.append_assoc, List.append_assoc, List.getElem?_append_left h1,
        List.getElem?_append_left h1]
    · by_cases h2 : i < bs.length + w.length
      · have := hh (i - bs.length) (by omega)
        rw [show bs.length + (i - bs.length) = i by omega] at this
        rw [this, List.getElem?_append_left (by simp; omega), List.getElem?_append_right (by omega)]
      · rw [ho.other i (Or.inr (by omega)), h.bits i hi, List.getElem?_append_right (by simp; omega),
          List.getElem?_append_right (by simp; omega)]
        simp only [List.length_append]
        rw [hl]

theorem Appends.at {α : Type} {f : M α} {a : α} {w : List Bool} (h : Appends f a w) {s : BitStream} {bs : List Bool} (hs : EncSt s bs)
    (hr : bs.length + w.length ≤ 8 * s.count) :
    ∃ s', f s = .ok (a, s') ∧ EncSt s' (bs ++ w) ∧ Frame s s' := h s bs hs hr

theorem distanceInBits_eq {a b : BitStream} {n : Nat} (h : b.pos = a.pos + n) :
    acnDistanceInBits ⟨a.currentByte, a.currentBit⟩ ⟨b.currentByte, b.currentBit⟩ = BitVec.ofNat 64 n := by
  unfold acnDistanceInBits
  simp only [BitStream.pos] at h
  rw [← BitVec.ofInt_natCast]
  congr 1
  dsimp only
  omega

theorem distanceInBytes_eq {a b : BitStream} {n : Nat} (h : b.pos = a.pos + n) :
    acnDistanceInBytes ⟨a.currentByte, a.currentBit⟩ ⟨b.currentByte, b.currentBit⟩ = BitVec.ofNat 64 ((n + 7) / 8) := by
  unfold acnDistanceInBytes
  simp only [BitStream.pos] at h
  rw [← BitVec.ofInt_natCast]
  congr 1
  rw [show ((b.currentByte * 8 + b.currentBit : Int) - (a.currentByte * 8 + a.currentBit) + 7) = ((n + 7 : Nat) : Int) by omega]
  rfl

/-- The two encoders of a contained type differ in the unit of the length only. -/
theorem containing_encode {inner : M Bool} {w : List Bool} (hi : Appends inner true w) {k : DetKind} (hk : k.Legal)
    {s : BitStream} {bs z mid : List Bool} (hs : EncSt s (bs ++ z ++ mid)) (hz : z.length = k.width)
    (hroom : (bs ++ z ++ mid).length + w.length ≤ 8 * s.count) {det : AcnRef} (hd : det.isSet = false)
    (hb : det.pos.currentBit < 8) (hpos : det.pos.pos = bs.length) (dist : AcnPos → AcnPos → U64) {n : Nat}
    (hdist : ∀ a b : BitStream, b.pos = a.pos + w.length →
      dist ⟨a.currentByte, a.currentBit⟩ ⟨b.currentByte, b.currentBit⟩ = BitVec.ofNat 64 n)
    (hv : k.Fits (BitVec.ofNat 64 n)) (hm : (BitVec.ofNat 64 n).toInt ≠ -(2 ^ 63) ∨ k ≠ .iBig 8) :
    ∃ s', (do
        let a ← acnGetPos
        let ret ← inner
        if ret then do
          let b ← acnGetPos
          let r ← patchDet k (dist a b) det
          pure (r.1.1, r.2)
        else pure (false, det) : M (Bool × AcnRef)) s =
        .ok ((true, { det with value := BitVec.ofNat 64 n, isSet := true }), s') ∧
      EncSt s' (bs ++ k.code (BitVec.ofNat 64 n) ++ mid ++ w) ∧ Frame s s' := by
  obtain ⟨s1, r1, e1, f1⟩ := hi.at hs hroom
  have hp1 : s1.pos = s.pos + w.length := by rw [e1.pos, hs.pos]; simp [Nat.add_assoc]
  have hl := e1.room
  simp only [List.length_append] at hl
  obtain ⟨s2, r2, wf2, o2, h2⟩ := patchDet_run hk hv hm hd hb e1.wf (by rw [hpos]; omega)
  rw [hpos] at o2 h2
  rw [List.append_assoc] at e1
  have e2 := e1.patched (by rw [hz, DetKind.code_length]) wf2 (by rw [DetKind.code_length]; exact o2) h2
  refine ⟨s2, ?_, by rw [List.append_assoc (bs ++ _)]; exact e2, f1.trans ⟨o2.count, o2.len, fun i hi => o2.other i (by omega)⟩⟩
  show (do
        let ret ← inner
        if ret then do
          let b ← acnGetPos
          let r ← patchDet k (dist ⟨s.currentByte, s.currentBit⟩ b) det
          pure (r.1.1, r.2)
        else pure (false, det) : M (Bool × AcnRef)) s = _
  rw [bind_ok r1, if_pos rfl]
  show (do
          let r ← patchDet k (dist ⟨s.currentByte, s.currentBit⟩ ⟨s1.currentByte, s1.currentBit⟩) det
          pure (r.1.1, r.2) : M (Bool × AcnRef)) s1 = _
  rw [hdist s s1 hp1, bind_ok r2]
  rfl

theorem DecSt.setEnd {s : BitStream} {w pad rest : List Bool} (h : DecSt s (w ++ pad ++ rest)) {c : Nat}
    (hc : s.pos + w.length + pad.length = 8 * c) : DecSt { s with count := c } (w ++ pad) := by
  have hp := h.pos
  simp only [List.length_append] at hp
  refine ⟨⟨h.wf.bit, by have := h.wf.cap; show c ≤ s.buf.length; omega⟩, ?_, ?_⟩
  · show s.pos + (w ++ pad).length = 8 * c
    rw [List.length_append]; omega
  · intro i hi
    show bitAt s.buf (s.pos + i) = _
    rw [h.bits i (by rw [List.length_append]; omega), List.getElem?_append_left hi]

theorem DecSt.jump {s t : BitStream} {w rest : List Bool} (h : DecSt s (w ++ rest)) (hb : t.buf = s.buf) {c b : Nat}
    (hp : 8 * c + b = s.pos + w.length) (hlt : b < 8) :
    DecSt { t with count := s.count, currentByte := c, currentBit := b } rest := by
  have hq := h.pos
  rw [List.length_append] at hq
  refine ⟨⟨hlt, by show s.count ≤ t.buf.length; rw [hb]; exact h.wf.cap⟩, ?_, ?_⟩
  · show 8 * c + b + rest.length = 8 * s.count
    omega
  · intro i hi
    show bitAt t.buf (8 * c + b + i) = _
    rw [hb, hp, Nat.add_assoc, h.bits _ (by rw [List.length_append]; omega), List.getElem?_append_right (by omega),
      Nat.add_sub_cancel_left]

theorem bitContaining_reads {α : Type} {dec : M (Bool × α)} {v : α} {w : List Bool} (h : Reads dec (true, v) w) :
    Reads (bitContainingDecode dec (w.length : Nat)) (true, v) w := by
  intro s rest hs
  have hp := hs.pos
  rw [List.length_append] at hp
  obtain ⟨r, hr⟩ : ∃ r, 8 * ((s.pos + w.length + 7) / 8) = s.pos + w.length + r := ⟨8 * ((s.pos + w.length + 7) / 8) - (s.pos + w.length), by omega⟩
  have hs' := hs
  rw [← List.take_append_drop r rest, ← List.append_assoc] at hs'
  have h1 := hs'.setEnd (c := (s.pos + w.length + 7) / 8) (by rw [List.length_take]; omega)
  obtain ⟨t, r1, d1, b1, c1⟩ := h _ _ h1
  refine ⟨_, ?_, hs.jump (t := t) (c := (s.pos + w.length) / 8) (b := (s.pos + w.length) % 8) b1 (by omega) (by omega), b1, rfl⟩
  have e : (s.currentByte * 8 + s.currentBit + ((w.length : Nat) : Int) : Int) = ((s.pos + w.length : Nat) : Int) := by
    simp only [BitStream.pos]; omega
  unfold bitContainingDecode
  rw [getS_bind]
  simp only [e]
  rw [if_neg (by omega), Int.toNat_natCast]
  show (do
    let r ← dec
    modS fun t => { t with count := s.count, currentByte := (s.pos + w.length) / 8, currentBit := (s.pos + w.length) % 8 }
    pure r : M (Bool × α)) { s with count := (s.pos + w.length + 7) / 8 } = _
  rw [bind_ok r1]
  rfl

/-- At a byte boundary: the contained bits, then padding to the next byte boundary, are skipped together. -/
theorem octContaining_run {α : Type} {dec : M (Bool × α)} {v : α} {w : List Bool} (h : Reads dec (true, v) w) {s : BitStream}
    {pad rest : List Bool} (hs : DecSt s (w ++ pad ++ rest)) (h0 : s.currentBit = 0)
    (hpad : w.length + pad.length = 8 * ((w.length + 7) / 8)) :
    ∃ s', octContainingDecode dec (((w.length + 7) / 8 : Nat) : Int) s = .ok ((true, v), s') ∧ DecSt s' rest ∧ s'.buf = s.buf ∧
      s'.count = s.count := by
  have h1 := hs.setEnd (c := s.currentByte + (w.length + 7) / 8) (by simp only [BitStream.pos]; omega)
  obtain ⟨t, r1, d1, b1, c1⟩ := h _ _ h1
  refine ⟨_, ?_, hs.jump (t := t) (c := s.currentByte + (w.length + 7) / 8) (b := 0) b1
    (by rw [List.length_append]; simp only [BitStream.pos]; omega) (by omega), b1, rfl⟩
  have e : (s.currentByte + (((w.length + 7) / 8 : Nat) : Int) : Int) = ((s.currentByte + (w.length + 7) / 8 : Nat) : Int) := by omega
  unfold octContainingDecode
  rw [getS_bind]
  simp only [e]
  rw [if_neg (by omega), Int.toNat_natCast]
  show (do
    let r ← dec
    modS fun t => { t with count := s.count, currentByte := s.currentByte + (w.length + 7) / 8, currentBit := 0 }
    pure r : M (Bool × α)) { s with count := s.currentByte + (w.length + 7) / 8 } = _
  rw [bind_ok r1]
  rfl

theorem octContaining_safe {α : Type} {dec : M (Bool × α)} (h : Safe dec) {s : BitStream} (hwf : Wf s) (hsl : Slack s) {n : Int}
    (h1 : (s.pos : Int) ≤ 8 * (s.currentByte + n)) (h2 : s.currentByte + n ≤ s.count) :
    ∃ r s', octContainingDecode dec n s = .ok (r, s') ∧ s'.buf = s.buf ∧ s'.count = s.count ∧ s'.currentBit < 8 ∧
      s'.pos ≤ 8 * s.count := by
  have hpos : (s.pos : Int) = 8 * s.currentByte + s.currentBit := by simp only [BitStream.pos]; omega
  obtain ⟨e, he⟩ : ∃ e : Nat, s.currentByte + n = (e : Int) := ⟨(s.currentByte + n).toNat, by omega⟩
  have hcap := hwf.cap
  have hsl' : s.count + 1 ≤ s.buf.length := hsl
  obtain ⟨r, t, r1, b1, c1, _⟩ := h { s with count := e } ⟨hwf.bit, by show e ≤ s.buf.length; omega⟩
    (by show s.pos ≤ 8 * e; omega) (by show e + 1 ≤ s.buf.length; omega)
  refine ⟨r, { t with count := s.count, currentByte := e, currentBit := 0 }, ?_, b1, rfl, by show 0 < 8; omega,
    by show 8 * e + 0 ≤ 8 * s.count; omega⟩
  unfold octContainingDecode
  rw [getS_bind]
  simp only [he]
  rw [if_neg (by omega), Int.toNat_natCast]
  show (do
    let r ← dec
    modS fun t => { t with count := s.count, currentByte := e, currentBit := 0 }
    pure r : M (Bool × α)) { s with count := e } = _
  rw [bind_ok r1]
  rfl

theorem bitContaining_safe {α : Type} {dec : M (Bool × α)} (h : Safe dec) {s : BitStream} (hwf : Wf s) (hsl : Slack s) {n : Int}
    (h1 : 0 ≤ n) (h2 : s.pos + n ≤ 8 * s.count) :
    ∃ r s', bitContainingDecode dec n s = .ok (r, s') ∧ s'.buf = s.buf ∧ s'.count = s.count ∧ s'.currentBit < 8 ∧
      s'.pos ≤ 8 * s.count := by
  have hpos : (s.pos : Int) = 8 * s.currentByte + s.currentBit := by simp only [BitStream.pos]; omega
  obtain ⟨m, rfl⟩ : ∃ m : Nat, n = (m : Int) := ⟨n.toNat, by omega⟩
  have he : (s.currentByte * 8 + s.currentBit + (m : Int) : Int) = ((s.pos + m : Nat) : Int) := by omega
  have hcap := hwf.cap
  have hsl' : s.count + 1 ≤ s.buf.length := hsl
  obtain ⟨r, t, r1, b1, c1, _⟩ := h { s with count := (s.pos + m + 7) / 8 } ⟨hwf.bit, by show (s.pos + m + 7) / 8 ≤ s.buf.length; omega⟩
    (by show s.pos ≤ 8 * ((s.pos + m + 7) / 8); omega) (by show (s.pos + m + 7) / 8 + 1 ≤ s.buf.length; omega)
  refine ⟨r, { t with count := s.count, currentByte := (s.pos + m) / 8, currentBit := (s.pos + m) % 8 }, ?_, b1, rfl,
    by show (s.pos + m) % 8 < 8; omega, by show 8 * ((s.pos + m) / 8) + (s.pos + m) % 8 ≤ 8 * s.count; omega⟩
  unfold bitContainingDecode
  rw [getS_bind]
  simp only [he]
  rw [if_neg (by omega), Int.toNat_natCast]
  show (do
    let r ← dec
    modS fun t => { t with count := s.count, currentByte := (s.pos + m) / 8, currentBit := (s.pos + m) % 8 }
    pure r : M (Bool × α)) { s with count := (s.pos + m + 7) / 8 } = _
  rw [bind_ok r1]
  rfl

/-- The embedded length, when the length field ends on a byte boundary or lies within one byte. -/
theorem embedded_encode {inner : M Bool} {w : List Bool} (hi : Appends inner true w) {lo hi' : Int} {n : Nat}
    (h1 : lo ≤ n) (h2 : (n : Int) ≤ hi') (h3 : hi' - lo < 2 ^ 32) (h63 : n < 2 ^ 63) {s : BitStream} {bs : List Bool} (hs : EncSt s bs)
    (hroom : bs.length + bitLen (hi' - lo).toNat + w.length ≤ 8 * s.count)
    (hc : (bs.length + bitLen (hi' - lo).toNat) % 8 = 0 ∨ bs.length % 8 + bitLen (hi' - lo).toNat ≤ 8)
    (dist : AcnPos → AcnPos → U64)
    (hdist : ∀ a b : BitStream, b.pos = a.pos + w.length →
      dist ⟨a.currentByte, a.currentBit⟩ ⟨b.currentByte, b.currentBit⟩ = BitVec.ofNat 64 n) :
    ∃ s', (do
      let p ← acnGetPos
      encodeConstraintWholeNumber lo lo hi'
      let a ← acnGetPos
      let ret ← inner
      if ret then do
        let b ← acnGetPos
        acnSetPos p
        encodeConstraintWholeNumber (dist a b).toInt lo hi'
        acnSetPos b
        pure true
      else pure false : M Bool) s = .ok (true, s') ∧ EncSt s' (bs ++ constrainedCode lo hi' n ++ w) ∧ Frame s s' := by
  have hcl : ∀ x, (constrainedCode lo hi' x).length = bitLen (hi' - lo).toNat := fun x => by simp [constrainedCode]
  obtain ⟨s1, r1, e1, f1⟩ := (encodeConstraintWholeNumber_appends (v := lo) (lo := lo) (hi := hi') (by omega) (by omega) (by omega)).at hs
    (by rw [hcl]; omega)
  obtain ⟨s2, r2, e2, f2⟩ := hi.at e1 (by rw [List.length_append, hcl, f1.count]; omega)
  have hp2 : s2.pos = s1.pos + w.length := by rw [e2.pos, e1.pos]; simp [Nat.add_assoc]
  have hzero : constrainedCode lo hi' lo = List.replicate (bitLen (hi' - lo).toNat) false := by
    rw [constrainedCode, Int.sub_self]; exact bitsMsb_zero _
  have hh := holds_of_encSt e2
  have hspos : s.pos = bs.length := hs.pos
  have hti : (BitVec.ofNat 64 n).toInt = (n : Int) := by
    rw [BitVec.toInt_eq_toNat_of_lt, BitVec.toNat_ofNat, Nat.mod_eq_of_lt (by omega)]
    rw [BitVec.toNat_ofNat, Nat.mod_eq_of_lt (by omega)]; omega
  have hc1 := f1.count
  have hc2 := f2.count
  obtain ⟨s3, r3, wf3, c3, l3, p3, b3⟩ := constraint_from (s := { s2 with currentByte := s.currentByte, currentBit := s.currentBit })
    (v := (n : Int)) ⟨hs.wf.bit, e2.wf.cap⟩ h1 h2 h3
    (by show s.pos + _ ≤ 8 * s2.count; rw [hcl, hspos]; omega)
    (by show HoldsBits s2.buf s.pos _; rw [hspos, hcl, ← hzero]; exact hh)
    (by rw [hcl]; show (s.pos + _) % 8 = 0 ∨ s.pos % 8 + _ ≤ 8; rw [hspos]; exact hc)
  have hpp : ({ s2 with currentByte := s.currentByte, currentBit := s.currentBit } : BitStream).pos = bs.length := hspos
  rw [hpp] at b3
  have o3 : OnlyAt bs.length (constrainedCode lo hi' n).length s2 { s3 with currentByte := s2.currentByte, currentBit := s2.currentBit } :=
    ⟨rfl, rfl, c3, l3, fun i hi => by show bitAt s3.buf i = _; rw [b3, if_neg (by omega)]⟩
  have e3 := e2.patched (w := constrainedCode lo hi' n) (by rw [hcl, hcl]) (s' := { s3 with currentByte := s2.currentByte, currentBit := s2.currentBit })
    ⟨e2.wf.bit, wf3.cap⟩ o3 (fun i hi => by show bitAt s3.buf _ = _; rw [b3, if_pos (by omega), Nat.add_sub_cancel_left])
  refine ⟨_, ?_, e3, f1.trans (f2.trans ⟨c3, l3, fun i hi => o3.other i (by rw [hcl]; omega)⟩)⟩
  show (do
      encodeConstraintWholeNumber lo lo hi'
      let a ← acnGetPos
      let ret ← inner
      if ret then do
        let b ← acnGetPos
        acnSetPos ⟨s.currentByte, s.currentBit⟩
        encodeConstraintWholeNumber (dist a b).toInt lo hi'
        acnSetPos b
        pure true
      else pure false : M Bool) s = _
  rw [bind_ok r1]
  show (do
      let ret ← inner
      if ret then do
        let b ← acnGetPos
        acnSetPos ⟨s.currentByte, s.currentBit⟩
        encodeConstraintWholeNumber (dist ⟨s1.currentByte, s1.currentBit⟩ b).toInt lo hi'
        acnSetPos b
        pure true
      else pure false : M Bool) s1 = _
  rw [bind_ok r2, if_pos rfl]
  show (do
        encodeConstraintWholeNumber (dist ⟨s1.currentByte, s1.currentBit⟩ ⟨s2.currentByte, s2.currentBit⟩).toInt lo hi'
        acnSetPos ⟨s2.currentByte, s2.currentBit⟩
        pure true : M Bool) { s2 with currentByte := s.currentByte, currentBit := s.currentBit } = _
  rw [hdist s1 s2 hp2, hti, bind_ok r3]
  rfl

end Asn1
