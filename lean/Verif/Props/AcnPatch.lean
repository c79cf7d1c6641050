import Verif.Proof.AcnPatch3
import Verif.Proof.Outcome
/-!
# Properties of deferred determinants and of contained types: C26, C27, C52, C53, C54
-/
namespace Asn1

/-! ## C26 -/

/-- C26, numbers and BOOLEAN: the reservation writes zeros behind what is written. Whatever happens to the stream
afterwards, the patch succeeds, leaves the cursor, changes at most the reserved bits, and every reader at the reserved
place gets the value. If the stream was only appended to, the outcome is what writing the value at once had given.
Missing: `-2^63` in eight octets (`C26_violation_min`). -/
theorem C26_partial (k : DetKind) (hk : k.Legal) (v : U64) (hv : k.Fits v) (hm : v.toInt ≠ -(2 ^ 63) ∨ k ≠ .iBig 8)
    (d : AcnRef) (s : BitStream) (bs : List Bool) (hs : EncSt s bs) (hroom : bs.length + k.width ≤ 8 * s.count) :
    ∃ det s1, initDet k d s = .ok (det, s1) ∧ EncSt s1 (bs ++ List.replicate k.width false) ∧ Frame s s1 ∧
      ∀ s2, Wf s2 → s2.count = s1.count →
        ∃ det' s3, patchDet k v det s2 = .ok (((true, none), det'), s3) ∧ OnlyAt bs.length k.width s2 s3 ∧
          ReadsAt (detDecoder k) v s3.buf bs.length k.width ∧
          ∀ later, EncSt s2 (bs ++ List.replicate k.width false ++ later) → EncSt s3 (bs ++ k.code v ++ later) := by
  obtain ⟨s1, r1, e1, f1⟩ := initDet_run hk hs hroom d
  refine ⟨_, s1, r1, e1, f1, ?_⟩
  intro s2 wf2 c2
  have hp : AcnPos.pos ⟨s.currentByte, s.currentBit⟩ = bs.length := hs.pos
  obtain ⟨s3, r3, wf3, o3, h3⟩ := patchDet_run (det := { d with pos := ⟨s.currentByte, s.currentBit⟩, isSet := false, value := 0#64 })
    hk hv hm rfl hs.wf.bit wf2 (by show AcnPos.pos ⟨s.currentByte, s.currentBit⟩ + _ ≤ _; rw [hp, c2, f1.count]; exact hroom)
  have o3' : OnlyAt bs.length k.width s2 s3 := by rw [← hp]; exact o3
  have h3' : HoldsBits s3.buf bs.length (k.code v) := by rw [← hp]; exact h3
  refine ⟨_, s3, r3, o3', ?_, ?_⟩
  · have := h3'.readsAt (detDecoder_reads hk hv)
    rwa [DetKind.code_length] at this
  · intro later e2
    exact e2.patched (by rw [List.length_replicate, DetKind.code_length]) wf3 (by rw [DetKind.code_length]; exact o3') h3'

example : (DetKind.twosConstSize 13).Legal ∧ (DetKind.twosConstSize 13).Fits (BitVec.ofInt 64 (-1000)) ∧
    (BitVec.ofInt 64 (-1000)).toInt ≠ -(2 ^ 63) ∧ (DetKind.uLittle 4).Legal ∧ (DetKind.uLittle 4).Fits 0xCAFEBABE#64 := by
  simp only [DetKind.Legal, DetKind.Fits, FitsTwos]; decide

example : ∃ s, EncSt s [] ∧ ([] : List Bool).length + (DetKind.uLittle 4).width ≤ 8 * s.count := by
  obtain ⟨s, _, h, c, _⟩ := init_encSt (buf := List.replicate 9 7#8) (count := 9) (by decide)
  exact ⟨s, h, by rw [c]; decide⟩

/-- C26, IA5String: the same; the reader gets the string padded with blanks to the size of the determinant. -/
theorem C26_ia5 (n : Nat) (obj str : List Byte) (ho : HoldsString obj str) (hn : str.length ≤ n) (hc : ∀ c ∈ str, c.toNat < 128)
    (d : AcnRef) (s : BitStream) (bs : List Bool) (hs : EncSt s bs) (hroom : bs.length + 7 * n ≤ 8 * s.count) :
    ∃ det s1, initDetIa5 n d s = .ok (det, s1) ∧ EncSt s1 (bs ++ List.replicate (7 * n) false) ∧ Frame s s1 ∧
      ∀ s2, Wf s2 → s2.count = s1.count →
        ∃ det' s3, patchDetIa5 obj n det s2 = .ok (((true, none), det'), s3) ∧ OnlyAt bs.length (7 * n) s2 s3 ∧
          (∀ dst, n + 1 ≤ dst.length →
            ReadsAt (acnDecStrIndexFixSize n ia5Set 128 dst) (filled n (blankPad n str) dst) s3.buf bs.length (7 * n)) ∧
          ∀ later, EncSt s2 (bs ++ List.replicate (7 * n) false ++ later) → EncSt s3 (bs ++ sevenBits (blankPad n str) ++ later) := by
  obtain ⟨s1, r1, e1, f1⟩ := initDetIa5_run hs hroom d
  refine ⟨_, s1, r1, e1, f1, ?_⟩
  intro s2 wf2 c2
  have hp : AcnPos.pos ⟨s.currentByte, s.currentBit⟩ = bs.length := hs.pos
  obtain ⟨s3, r3, wf3, o3, h3⟩ := patchDetIa5_run (det := ⟨⟨s.currentByte, s.currentBit⟩, false, 0#64, d.strValue.set 0 0#8⟩)
    ho (n := n) rfl hs.wf.bit wf2 (by show AcnPos.pos ⟨s.currentByte, s.currentBit⟩ + _ ≤ _; rw [hp, c2, f1.count]; exact hroom)
  have hl : (blankPad n str).length = n := by rw [blankPad_length]; omega
  rw [List.take_of_length_le (by omega)] at h3
  have o3' : OnlyAt bs.length (7 * n) s2 s3 := by rw [← hp]; exact o3
  have h3' : HoldsBits s3.buf bs.length (sevenBits (blankPad n str)) := by rw [← hp]; exact h3
  have h7 : (sevenBits (blankPad n str)).length = 7 * n := by rw [sevenBits_length, hl]
  have hc' : ∀ c ∈ blankPad n str, c.toNat < 128 := by
    intro c h
    rcases List.mem_append.1 h with h | h
    · exact hc c h
    · rw [(List.mem_replicate.1 h).2]; decide
  refine ⟨_, s3, r3, o3', ?_, ?_⟩
  · intro dst hd
    have := h3'.readsAt (ia5_reads hl hc' hd)
    rwa [h7] at this
  · intro later e2
    exact e2.patched (by rw [List.length_replicate, h7]) wf3 (by rw [h7]; exact o3') h3'

example : HoldsString [0x41#8, 0x42#8, 0#8] [0x41#8, 0x42#8] ∧ blankPad 4 [0x41#8, 0x42#8] = [0x41#8, 0x42#8, 0x20#8, 0x20#8] := by
  refine ⟨⟨⟨[], rfl⟩, by decide⟩, by decide⟩

/-- A determinant that is reserved and not yet patched, and a value for it. -/
structure Pending (count : Nat) (j : DetKind × U64 × AcnRef) : Prop where
  legal : j.1.Legal
  fits : j.1.Fits j.2.1
  notMin : j.2.1.toInt ≠ -(2 ^ 63) ∨ j.1 ≠ .iBig 8
  fresh : j.2.2.isSet = false
  bit : j.2.2.pos.currentBit < 8
  room : j.2.2.pos.pos + j.1.width ≤ 8 * count

/-- The bits reserved for two determinants do not overlap. -/
def Apart (i j : DetKind × U64 × AcnRef) : Prop :=
  i.2.2.pos.pos + i.1.width ≤ j.2.2.pos.pos ∨ j.2.2.pos.pos + j.1.width ≤ i.2.2.pos.pos

theorem ReadsAt.of_agree {α : Type} {dec : M (Bool × α)} {v : α} {buf buf' : List Byte} {p n : Nat} (h : ReadsAt dec v buf p n)
    (he : ∀ i, p ≤ i → i < p + n → bitAt buf' i = bitAt buf i) : ReadsAt dec v buf' p n :=
  fun t hwf hp hc hb => h t hwf hp hc fun i h1 h2 => by rw [hb i h1 h2, he i h1 h2]

/-- C26, any number of determinants: patched in any order, each reader gets its value, all other bits and the cursor are
as before. Missing: as in `C26_partial`. -/
theorem C26_several_partial (js : List (DetKind × U64 × AcnRef)) (hd : js.Pairwise Apart) : ∀ (s : BitStream), Wf s →
    (∀ j ∈ js, Pending s.count j) →
    ∃ s', patchAll js s = .ok (true, s') ∧ s'.currentByte = s.currentByte ∧ s'.currentBit = s.currentBit ∧ s'.count = s.count ∧
      (∀ j ∈ js, ReadsAt (detDecoder j.1) j.2.1 s'.buf j.2.2.pos.pos j.1.width) ∧
      (∀ i, (∀ j ∈ js, i < j.2.2.pos.pos ∨ j.2.2.pos.pos + j.1.width ≤ i) → bitAt s'.buf i = bitAt s.buf i) := by
  induction js with
  | nil => intro s _ _; exact ⟨s, rfl, rfl, rfl, rfl, by simp, by simp⟩
  | cons j js ih =>
    intro s hwf hp
    rw [List.pairwise_cons] at hd
    have hj := hp j (by simp)
    obtain ⟨s1, r1, wf1, o1, h1⟩ := patchDet_run hj.legal hj.fits hj.notMin hj.fresh hj.bit hwf hj.room
    obtain ⟨s2, r2, y2, b2, c2, d2, k2⟩ := ih hd.2 s1 wf1 (fun i hi => by rw [o1.count]; exact hp i (by simp [hi]))
    refine ⟨s2, ?_, by rw [y2, o1.byte], by rw [b2, o1.bit], by rw [c2, o1.count], ?_, ?_⟩
    · rw [patchAll, bind_ok r1]
      exact r2
    · intro i hi
      rcases List.mem_cons.1 hi with rfl | hi
      · have := h1.readsAt (detDecoder_reads hj.legal hj.fits)
        rw [DetKind.code_length] at this
        refine this.of_agree fun q q1 q2 => k2 q fun j' hj' => ?_
        rcases hd.1 j' hj' with h | h <;> omega
      · exact d2 i hi
    · intro i hi
      rw [k2 i fun j' hj' => hi j' (by simp [hj']), o1.other i (hi j (by simp))]

example : [(DetKind.u8, 7#64, { acnRefZero with pos := ⟨0, 3⟩ }), (DetKind.bool1, 1#64, { acnRefZero with pos := ⟨1, 3⟩ })].Pairwise Apart ∧
    ∀ j ∈ [(DetKind.u8, 7#64, { acnRefZero with pos := ⟨0, 3⟩ }), (DetKind.bool1, 1#64, { acnRefZero with pos := ⟨1, 3⟩ })], Pending 2 j := by
  refine ⟨by rw [List.pairwise_cons]; exact ⟨by intro a h; rw [List.mem_singleton] at h; subst h; exact .inl (by decide), by simp⟩, ?_⟩
  intro j h
  simp only [List.mem_cons, List.not_mem_nil, or_false] at h
  rcases h with rfl | rfl <;>
    exact ⟨by simp [DetKind.Legal], by simp only [DetKind.Fits]; decide, .inr (by decide), rfl, by decide, by decide⟩

/-- C26 fails for the least value in a determinant of eight octets: the negation in the encoder overflows. -/
theorem C26_violation_min : ∃ s, Wf s ∧ (DetKind.iBig 8).Legal ∧ (DetKind.iBig 8).Fits (BitVec.ofInt 64 (-(2 ^ 63))) ∧
    (patchDet (.iBig 8) (BitVec.ofInt 64 (-(2 ^ 63))) acnRefZero s) = .ub :=
  ⟨⟨List.replicate 9 0#8, 8, 8, 0⟩, ⟨by decide, by decide⟩, by simp [DetKind.Legal], by simp only [DetKind.Fits, FitsTwos]; decide,
    Res.eq_ub (by decide +kernel)⟩

/-! ## C27 -/

/-- C27, numbers and BOOLEAN: the calls succeed iff all values equal the first, and then, as well as when they fail, the
stream is what the first call left; a failure is reported as 203. -/
theorem C27 (k : DetKind) (hk : k.Legal) (v : U64) (hv : k.Fits v) (hm : v.toInt ≠ -(2 ^ 63) ∨ k ≠ .iBig 8) (vs : List U64)
    (det : AcnRef) (hd : det.isSet = false) (hb : det.pos.currentBit < 8) (s : BitStream) (hwf : Wf s)
    (hroom : det.pos.pos + k.width ≤ 8 * s.count) :
    ∃ det' s', patchDet k v det s = .ok (((true, none), det'), s') ∧
      patchRun k (v :: vs) det s = .ok ((if ∀ u ∈ vs, u = v then (true, none) else (false, some 203), det'), s') := by
  obtain ⟨s', r, _, _, _⟩ := patchDet_run hk hv hm hd hb hwf hroom
  refine ⟨_, s', r, ?_⟩
  rw [patchRun, bind_ok r, if_pos rfl]
  show patchRun k vs { det with value := v, isSet := true } s' = _
  clear r
  induction vs with
  | nil => simp [patchRun, pure_run]
  | cons u us ih =>
    rw [patchRun, bind_ok (patchDet_again rfl s')]
    by_cases h : u = v
    · subst h
      simp only [ite_true, List.mem_cons, forall_eq_or_imp, true_and]
      exact ih
    · have h' : ¬ ∀ x ∈ u :: us, x = v := fun e => h (e u (by simp))
      rw [if_neg h']
      have e1 : (if v = u then (true, none) else (false, some 203) : Bool × Option Nat) = (false, some 203) := if_neg (fun e => h e.symm)
      show (if (if v = u then (true, none) else (false, some 203) : Bool × Option Nat).1 = true then _ else pure _ : M _) s' = _
      rw [e1]
      rfl

example : DetKind.u8.Fits 5#64 ∧ (∀ u ∈ [5#64, 5#64], u = 5#64) ∧ ¬ ∀ u ∈ [5#64, 6#64], u = 5#64 :=
  ⟨by simp only [DetKind.Fits]; decide, by simp, by simp⟩

/-- C27, IA5String. Missing: strings of 256 characters or more (`C27_violation_long`), and strings longer than the
determinant, of which only the part that fits is compared (`C27_violation_prefix`). -/
theorem C27_ia5_partial (n : Nat) (obj str obj' str' : List Byte) (h : HoldsString obj str) (h' : HoldsString obj' str')
    (hn : str.length ≤ n) (hn' : str'.length ≤ n) (h255 : str.length ≤ 255) (det : AcnRef) (hd : det.isSet = false)
    (hb : det.pos.currentBit < 8) (s : BitStream) (hwf : Wf s) (hroom : det.pos.pos + 7 * n ≤ 8 * s.count) :
    ∃ det' s', patchDetIa5 obj n det s = .ok (((true, none), det'), s') ∧
      patchDetIa5 obj' n det' s' = .ok ((if str' = str then (true, none) else (false, some 203), det'), s') := by
  obtain ⟨s', r, _, _, _⟩ := patchDetIa5_run h (n := n) hd hb hwf hroom
  refine ⟨_, s', r, ?_⟩
  rw [patchDetIa5_again h h' rfl rfl]
  rw [List.take_of_length_le (l := str) h255, List.take_of_length_le hn, List.take_of_length_le hn']
  simp only [eq_comm (a := str)]

/-- C27 fails for long strings: the copy that is compared has 255 characters, so a second patch with the very same string is
a mismatch. -/
theorem C27_violation_long (n : Nat) (obj str : List Byte) (h : HoldsString obj str) (hl : 256 ≤ str.length) (hn : 256 ≤ n)
    (det : AcnRef) (hd : det.isSet = false) (hb : det.pos.currentBit < 8) (s : BitStream) (hwf : Wf s)
    (hroom : det.pos.pos + 7 * n ≤ 8 * s.count) :
    ∃ det' s', patchDetIa5 obj n det s = .ok (((true, none), det'), s') ∧
      patchDetIa5 obj n det' s' = .ok (((false, some 203), det'), s') := by
  obtain ⟨s', r, _, _, _⟩ := patchDetIa5_run h (n := n) hd hb hwf hroom
  refine ⟨_, s', r, ?_⟩
  rw [patchDetIa5_again h h rfl rfl, if_neg]
  intro e
  have := congrArg List.length e
  simp only [List.length_take] at this
  omega

example : HoldsString (List.replicate 256 0x41#8 ++ [0#8]) (List.replicate 256 0x41#8) ∧
    256 ≤ (List.replicate 256 0x41#8).length := by
  refine ⟨⟨⟨[], List.append_nil _⟩, ?_⟩, by rw [List.length_replicate]; exact Nat.le_refl _⟩
  intro h; exact absurd (List.mem_replicate.1 h).2 (by decide)

/-- C27 fails for strings that are too long for the determinant: different values are taken as equal. -/
theorem C27_violation_prefix : ∃ det s s', patchDetIa5 [0x41#8, 0x42#8, 0#8] 1 det s = .ok (((true, none), { det with
      strValue := strnCopy [0x41#8, 0x42#8, 0#8] 2, isSet := true }), s') ∧
    patchDetIa5 [0x41#8, 0x43#8, 0#8] 1 { det with strValue := strnCopy [0x41#8, 0x42#8, 0#8] 2, isSet := true } s' =
      .ok (((true, none), { det with strValue := strnCopy [0x41#8, 0x42#8, 0#8] 2, isSet := true }), s') := by
  obtain ⟨s', r, _, _, _⟩ := patchDetIa5_run (obj := [0x41#8, 0x42#8, 0#8]) (str := [0x41#8, 0x42#8]) ⟨⟨[], rfl⟩, by decide⟩ (n := 1)
    (det := acnRefZero) rfl (by decide) (s := ⟨[0#8], 1, 0, 7⟩) ⟨by decide, by decide⟩ (by decide)
  refine ⟨_, _, s', r, ?_⟩
  exact patchDetIa5_again (obj := [0x41#8, 0x42#8, 0#8]) (obj' := [0x41#8, 0x43#8, 0#8]) (str := [0x41#8, 0x42#8])
    (str' := [0x41#8, 0x43#8]) ⟨⟨[], rfl⟩, by decide⟩ ⟨⟨[], rfl⟩, by decide⟩ rfl rfl s'

/-! ## C52 -/

/-- C52, BIT STRING (CONTAINING T): the encoder writes the contained bits and their number in the reserved determinant. -/
theorem C52_bits_encode (inner : M Bool) (w : List Bool) (hi : Appends inner true w) (k : DetKind) (hk : k.Legal)
    (hv : k.Fits (BitVec.ofNat 64 w.length)) (h63 : w.length < 2 ^ 63) (s : BitStream) (bs mid : List Bool)
    (hs : EncSt s (bs ++ List.replicate k.width false ++ mid))
    (hroom : bs.length + k.width + mid.length + w.length ≤ 8 * s.count) (det : AcnRef) (hd : det.isSet = false)
    (hb : det.pos.currentBit < 8) (hpos : det.pos.pos = bs.length) :
    ∃ det' s', bitContainingEncode inner k det s = .ok ((true, det'), s') ∧
      EncSt s' (bs ++ k.code (BitVec.ofNat 64 w.length) ++ mid ++ w) ∧ Frame s s' := by
  obtain ⟨s', r, e, f⟩ := containing_encode hi hk hs (by simp) (by simp; omega) hd hb hpos acnDistanceInBits
    (fun _ _ h => distanceInBits_eq h) hv (.inl (by
      rw [BitVec.toInt_eq_toNat_of_lt] <;> rw [BitVec.toNat_ofNat, Nat.mod_eq_of_lt (by omega)] <;> omega))
  exact ⟨_, s', r, e, f⟩

/-- C52, BIT STRING (CONTAINING T): the decoder of T, limited to the announced number of bits, gets the value, and the
stream goes on right behind the contained bits, at every alignment. -/
theorem C52_bits_decode {α : Type} (dec : M (Bool × α)) (v : α) (w : List Bool) (h : Reads dec (true, v) w) :
    Reads (bitContainingDecode dec (w.length : Nat)) (true, v) w := bitContaining_reads h

example : Reads readByte (true, 0x5A#8) (bitsMsb 8 0x5A) ∧ Appends (do appendByte0 0x5A#8) true (bitsMsb 8 0x5A) :=
  ⟨by have := (readByte_reads 0x5A#8); exact this, (appendByte0_writes 0x5A#8).appends⟩

/-- C52, OCTET STRING (CONTAINING T): the encoder writes the contained bits and the number of octets they take. -/
theorem C52_octets_encode (inner : M Bool) (w : List Bool) (hi : Appends inner true w) (k : DetKind) (hk : k.Legal)
    (hv : k.Fits (BitVec.ofNat 64 ((w.length + 7) / 8))) (h63 : w.length < 2 ^ 63) (s : BitStream) (bs mid : List Bool)
    (hs : EncSt s (bs ++ List.replicate k.width false ++ mid))
    (hroom : bs.length + k.width + mid.length + w.length ≤ 8 * s.count) (det : AcnRef) (hd : det.isSet = false)
    (hb : det.pos.currentBit < 8) (hpos : det.pos.pos = bs.length) :
    ∃ det' s', octContainingEncode inner k det s = .ok ((true, det'), s') ∧
      EncSt s' (bs ++ k.code (BitVec.ofNat 64 ((w.length + 7) / 8)) ++ mid ++ w) ∧ Frame s s' := by
  obtain ⟨s', r, e, f⟩ := containing_encode hi hk hs (by simp) (by simp; omega) hd hb hpos acnDistanceInBytes
    (fun _ _ h => distanceInBytes_eq h) hv (.inl (by
      rw [BitVec.toInt_eq_toNat_of_lt] <;> rw [BitVec.toNat_ofNat, Nat.mod_eq_of_lt (by omega)] <;> omega))
  exact ⟨_, s', r, e, f⟩

/-- C52, OCTET STRING (CONTAINING T), decoder. Missing: contained types that do not start at an octet boundary
(`C52_violation_unaligned`) and those that do not fill whole octets: the encoder goes on right behind their last bit, the
decoder at the next octet (`C52_violation_padding`). -/
theorem C52_octets_decode_partial {α : Type} (dec : M (Bool × α)) (v : α) (w : List Bool) (h : Reads dec (true, v) w)
    (h8 : w.length % 8 = 0) (s : BitStream) (rest : List Bool) (hs : DecSt s (w ++ rest)) (h0 : s.currentBit = 0) :
    ∃ s', octContainingDecode dec (((w.length + 7) / 8 : Nat) : Int) s = .ok ((true, v), s') ∧ DecSt s' rest ∧ s'.buf = s.buf ∧
      s'.count = s.count :=
  octContaining_run h (pad := []) (by rw [List.append_nil]; exact hs) h0 (by rw [List.length_nil]; omega)

/-- C52 fails when the contained octets do not start at an octet boundary: a determinant of one octet, one bit, then one
contained octet. The encoder succeeds, the decoder of the contained type finds the stream at its end. -/
theorem C52_violation_unaligned : ∃ det s1 s2 s3 det' s4 t1,
    initDet .u8 acnRefZero ⟨List.replicate 4 0#8, 4, 0, 0⟩ = .ok (det, s1) ∧ appendBit true s1 = .ok ((), s2) ∧
    octContainingEncode (appendByte0 0xFF#8) .u8 det s2 = .ok ((true, det'), s3) ∧
    detDecoder .u8 ⟨s3.buf, 3, 0, 0⟩ = .ok ((true, 1#64), s4) ∧ readBit s4 = .ok ((true, true), t1) ∧
    ∃ r t2, octContainingDecode readByte 1 t1 = .ok (r, t2) ∧ r.1 = false := by
  refine ⟨_, _, _, _, _, _, _, rfl, rfl, rfl, rfl, rfl, _, _, rfl, ?_⟩
  decide +kernel

/-- C52 fails when the contained bits do not fill whole octets: a determinant of one octet, a contained BOOLEAN, then a
BOOLEAN that is TRUE. All calls of the decoder succeed and the last one reports FALSE. -/
theorem C52_violation_padding : ∃ det s1 s2 s3 det' s4 t1 t2,
    initDet .u8 acnRefZero ⟨List.replicate 4 0#8, 4, 0, 0⟩ = .ok (det, s1) ∧
    octContainingEncode (do appendBit true; pure true) .u8 det s1 = .ok ((true, det'), s2) ∧ appendBit true s2 = .ok ((), s3) ∧
    detDecoder .u8 ⟨s3.buf, 4, 0, 0⟩ = .ok ((true, 1#64), s4) ∧ octContainingDecode readBit 1 s4 = .ok ((true, true), t1) ∧
    readBit t1 = .ok ((true, false), t2) := by
  exact ⟨_, _, _, _, _, _, _, _, rfl, rfl, rfl, rfl, rfl, rfl⟩

/-- C52, embedded length, BIT STRING. Missing: ranges of `2^32` and more, and length fields that cross an octet boundary
without ending on one (`C52_violation_embedded`). -/
theorem C52_embedded_bits_partial {α : Type} (inner : M Bool) (dec : M (Bool × α)) (dflt v : α) (w : List Bool)
    (hi : Appends inner true w) (hr : Reads dec (true, v) w) (lo hi' : Int) (h1 : lo ≤ w.length) (h2 : (w.length : Int) ≤ hi')
    (h3 : hi' - lo < 2 ^ 32) (h63 : hi' < 2 ^ 63) (h64 : -(2 ^ 63) ≤ lo) (s : BitStream) (bs : List Bool) (hs : EncSt s bs)
    (hroom : bs.length + (constrainedCode lo hi' w.length).length + w.length ≤ 8 * s.count)
    (hc : (bs.length + (constrainedCode lo hi' w.length).length) % 8 = 0 ∨
      bs.length % 8 + (constrainedCode lo hi' w.length).length ≤ 8) :
    (∃ s', bitEmbeddedEncode inner lo hi' s = .ok (true, s') ∧ EncSt s' (bs ++ constrainedCode lo hi' w.length ++ w) ∧ Frame s s') ∧
    Reads (bitEmbeddedDecode dec dflt lo hi') (true, v) (constrainedCode lo hi' w.length ++ w) := by
  have hcl : (constrainedCode lo hi' w.length).length = bitLen (hi' - lo).toNat := by simp [constrainedCode]
  rw [hcl] at hroom hc
  refine ⟨embedded_encode hi h1 h2 h3 (by omega) hs hroom hc acnDistanceInBits (fun _ _ h => distanceInBits_eq h), ?_⟩
  exact (decodeConstraintWholeNumber_reads h1 h2 (by omega) h64 h63).1.bind (bitContaining_reads hr)

/-- C52, embedded length, OCTET STRING: the encoder, under the same conditions, and the decoder when the contained octets
start at an octet boundary and are whole. -/
theorem C52_embedded_octets_partial {α : Type} (inner : M Bool) (dec : M (Bool × α)) (dflt v : α) (w : List Bool)
    (hi : Appends inner true w) (hr : Reads dec (true, v) w) (n : Nat) (hw : w.length = 8 * n) (lo hi' : Int) (h1 : lo ≤ n)
    (h2 : (n : Int) ≤ hi') (h3 : hi' - lo < 2 ^ 32) (h63 : hi' < 2 ^ 63) (h64 : -(2 ^ 63) ≤ lo) (s : BitStream) (bs : List Bool)
    (hs : EncSt s bs) (hroom : bs.length + (constrainedCode lo hi' n).length + w.length ≤ 8 * s.count)
    (hc : (bs.length + (constrainedCode lo hi' n).length) % 8 = 0) :
    (∃ s', octEmbeddedEncode inner lo hi' s = .ok (true, s') ∧ EncSt s' (bs ++ constrainedCode lo hi' n ++ w) ∧ Frame s s') ∧
    ∀ t rest, DecSt t (constrainedCode lo hi' n ++ w ++ rest) → t.pos = bs.length →
      ∃ t', octEmbeddedDecode dec dflt lo hi' t = .ok ((true, v), t') ∧ DecSt t' rest ∧ t'.buf = t.buf ∧ t'.count = t.count := by
  have hcl : (constrainedCode lo hi' n).length = bitLen (hi' - lo).toNat := by simp [constrainedCode]
  have hn : (w.length + 7) / 8 = n := by omega
  constructor
  · rw [hcl] at hroom hc
    refine embedded_encode hi h1 h2 h3 (by omega) hs hroom (.inl hc) acnDistanceInBytes (fun _ _ h => ?_)
    rw [distanceInBytes_eq h, hn]
  · intro t rest ht htp
    rw [List.append_assoc] at ht
    have hp := ht.pos
    rw [List.length_append] at hp
    obtain ⟨t1, r1, d1, b1, c1⟩ := (decodeConstraintWholeNumber_reads h1 h2 (by omega) h64 h63).1 t _ ht
    have hp1 := d1.pos
    have h0 : t1.currentBit = 0 := by
      have := d1.wf.bit
      simp only [BitStream.pos] at hp hp1 htp
      rw [c1] at hp1
      omega
    have := octContaining_run hr (pad := []) (rest := rest) (by rw [List.append_nil]; exact d1) h0 (by rw [List.length_nil]; omega)
    rw [hn] at this
    obtain ⟨t2, r2, d2, b2, c2⟩ := this
    refine ⟨t2, ?_, d2, by rw [b2, b1], by rw [c2, c1]⟩
    rw [octEmbeddedDecode, bind_ok r1]
    exact r2

example : (0 : Int) ≤ (bitsMsb 8 0xA5).length ∧ ((bitsMsb 8 0xA5).length : Int) ≤ 15 ∧
    4 % 8 + (constrainedCode 0 15 (bitsMsb 8 0xA5).length).length ≤ 8 := by decide

/-- C52 fails when the length field crosses an octet boundary: patching it clears the bits behind it. Six bits, then eight
contained ones with a length in 0..15; the encoder succeeds, the decoder reports another octet. -/
theorem C52_violation_embedded : ∃ s1 t2,
    bitEmbeddedEncode (appendByte0 0xFF#8) 0 15 ⟨List.replicate 4 0#8, 4, 0, 6⟩ = .ok (true, s1) ∧
    bitEmbeddedDecode readByte 0#8 0 15 ⟨s1.buf, 4, 0, 6⟩ = .ok ((true, 0x03#8), t2) :=
  ⟨⟨[0x02#8, 0x00#8, 0xc0#8, 0x00#8], 4, 2, 2⟩, ⟨[0x02#8, 0x00#8, 0xc0#8, 0x00#8], 4, 2, 2⟩, by decide +kernel, by decide +kernel⟩

/-! ## C53 -/

/-- C53, OCTET STRING (CONTAINING T): no undefined behaviour, and the stream ends inside the buffer, if the announced
contents lie inside the message. Missing: other announced lengths (`C53_violation`), which the code does not check. -/
theorem C53_octets_partial {α : Type} (dec : M (Bool × α)) (h : Safe dec) (s : BitStream) (hwf : Wf s) (hsl : Slack s) (n : Int)
    (h1 : (s.pos : Int) ≤ 8 * (s.currentByte + n)) (h2 : s.currentByte + n ≤ s.count) :
    ∃ r s', octContainingDecode dec n s = .ok (r, s') ∧ s'.buf = s.buf ∧ s'.count = s.count ∧ s'.currentBit < 8 ∧
      s'.pos ≤ 8 * s.count := octContaining_safe h hwf hsl h1 h2

/-- C53, BIT STRING (CONTAINING T): likewise. -/
theorem C53_bits_partial {α : Type} (dec : M (Bool × α)) (h : Safe dec) (s : BitStream) (hwf : Wf s) (hsl : Slack s) (n : Int)
    (h1 : 0 ≤ n) (h2 : s.pos + n ≤ 8 * s.count) :
    ∃ r s', bitContainingDecode dec n s = .ok (r, s') ∧ s'.buf = s.buf ∧ s'.count = s.count ∧ s'.currentBit < 8 ∧
      s'.pos ≤ 8 * s.count := bitContaining_safe h hwf hsl h1 h2

/-- C53 fails: a message of one octet that announces 200 octets of contents makes the decoder of a contained OCTET STRING of
two octets read outside the buffer, for both kinds of container. -/
theorem C53_violation : ∃ s : BitStream, detDecoder .u8 ⟨[200#8, 0#8], 1, 0, 0⟩ = .ok ((true, 200#64), s) ∧ Wf s ∧ Slack s ∧
    (octContainingDecode (do let _ ← readByte; readByte) 200 s) = .ub ∧
    (bitContainingDecode (do let _ ← readByte; readByte) 200 s) = .ub :=
  ⟨⟨[200#8, 0#8], 1, 1, 0⟩, rfl, ⟨by decide, by decide⟩, by unfold Slack; decide, Res.eq_ub (by decide +kernel), Res.eq_ub (by decide +kernel)⟩

/-! ## C54 -/

/-- C54, range with a lower bound that is not positive: the default decodes as the lower bound. Missing: positive lower
bounds (`C54_violation`). -/
theorem C54_partial (lo hi : Int) (h0 : lo ≤ 0) (h1 : lo ≤ hi) (h2 : hi - lo < 2 ^ 63) (h3 : -(2 ^ 63) ≤ lo) (h4 : hi < 2 ^ 63)
    (det : AcnRef) (hd : det.isSet = false) (hb : det.pos.currentBit < 8) (s : BitStream) (hwf : Wf s)
    (hroom : det.pos.pos + bitLen (hi - lo).toNat ≤ 8 * s.count) :
    ∃ det' s', fallbackPatch (.constSize (bitLen (hi - lo).toNat)) lo det s = .ok (det', s') ∧
      OnlyAt det.pos.pos (bitLen (hi - lo).toNat) s s' ∧
      ReadsAt (decodeConstraintWholeNumber lo hi) lo s'.buf det.pos.pos (bitLen (hi - lo).toNat) := by
  have hl : bitLen (hi - lo).toNat ≤ 64 := (bitLen_le_iff _ _).2 (by omega)
  obtain ⟨s', r, wf', o, hh⟩ := patchDet_run (k := .constSize (bitLen (hi - lo).toNat)) (v := 0#64) hl
    (by simp only [DetKind.Fits]; exact Nat.two_pow_pos _) (.inr (by simp)) hd hb hwf hroom
  refine ⟨{ det with value := 0#64, isSet := true }, s', ?_, o, ?_⟩
  · rw [fallbackPatch, if_pos hd, if_neg (by omega)]
    show (do let r ← patchDet _ 0#64 det; pure r.2 : M AcnRef) s = _
    rw [bind_ok r]; rfl
  · have e : (DetKind.constSize (bitLen (hi - lo).toNat)).code 0#64 = constrainedCode lo hi lo := by
      rw [constrainedCode, Int.sub_self]; rfl
    rw [e] at hh
    have := hh.readsAt (decodeConstraintWholeNumber_reads (Int.le_refl lo) h1 h2 h3 h4).1
    rwa [show (constrainedCode lo hi lo).length = bitLen (hi - lo).toNat by simp [constrainedCode]] at this

example : bitLen ((9 : Int) - (-5)).toNat = 4 := by decide +kernel

/-- C54 fails for positive lower bounds: the default is the lower bound where the distance from the lower bound is
expected. INTEGER(5..9): the decoder rejects what the encoder wrote. -/
theorem C54_violation : ∃ det' s' r t, fallbackPatch (.constSize (bitLen ((9 : Int) - 5).toNat)) 5 acnRefZero ⟨[0#8], 1, 0, 3⟩ =
      .ok (det', s') ∧ decodeConstraintWholeNumber 5 9 ⟨s'.buf, 1, 0, 0⟩ = .ok (r, t) ∧ r.1 = false := by
  have e : bitLen ((9 : Int) - 5).toNat = 3 := by decide +kernel
  rw [e]
  refine ⟨_, _, _, _, rfl, rfl, ?_⟩
  decide +kernel

end Asn1
