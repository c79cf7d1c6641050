import Verif.Proof.Streaming2
import Verif.Proof.Int4
/-! Programs in both builds. -/
namespace Asn1

theorem SAppendsAt.thenTrue {z : Bool} {n pos : Nat} {f : SM Unit} {w : List Bool} (h : SAppendsAt z n pos f () w) :
    SAppendsAt z n pos (do f; pure true) true w := by
  intro s bs hs hl
  obtain ⟨s', hr, hs'⟩ := h s bs hs hl
  exact ⟨s', by rw [sbind_ok hr]; rfl, hs'⟩

theorem Op.sAppends {z : Bool} {n : Nat} {left : List Byte → List Byte → List Byte} (hleft : Leaves z left) (pos : Nat) (o : Op)
    (h : o.LegalAt z n pos) : SAppendsAt z n pos (o.sRun left) true o.requested := by
  cases o with
  | bit v => exact (sAppendBit_appends hleft v pos).thenTrue
  | bitOne => rw [Op.sRun, sAppendBitOne_eq]; exact (sAppendBit_appends hleft true pos).thenTrue
  | bitZero => rw [Op.sRun, sAppendBitZero_eq]; exact (sAppendBit_appends hleft false pos).thenTrue
  | zeros k =>
    obtain ⟨h1, h2, h3⟩ := h
    subst h2
    have := (sAppendNBitZero_appends hleft k.toNat pos h3).thenTrue
    rw [Int.toNat_of_nonneg h1] at this
    exact this
  | byte v neg =>
    have := (sAppendByte_appends (n := n) hleft v neg pos).thenTrue
    rw [byteBits_negB] at this
    exact this
  | byte0 v => exact sAppendByte0_appends hleft v pos
  | part v k neg =>
    obtain ⟨h1, h2, h3, h4⟩ := h
    have := (sAppendPartialByte_appends (n := n) hleft h1 h2 h3 pos h4).thenTrue
    rw [bitsMsb_negP (by omega)] at this
    exact this
  | octets arr k =>
    obtain ⟨h1, h2, h3⟩ := h
    exact sOctets_appends hleft h1 pos h2 h3

theorem Op.appends {z : Bool} {n pos : Nat} (o : Op) (h : o.LegalAt z n pos) : Appends o.run true o.requested := by
  cases o with
  | bit v => exact (appendBit_writes v).appends.thenTrue
  | bitOne => exact appendBitOne_writes.appends.thenTrue
  | bitZero => exact appendBitZero_writes.appends.thenTrue
  | zeros k =>
    have := (appendNBitZero_appends k.toNat).thenTrue
    rw [Int.toNat_of_nonneg h.1] at this
    exact this
  | byte v neg =>
    have := (appendByte_writes v neg).appends.thenTrue
    rw [byteBits_negB] at this
    exact this
  | byte0 v => exact (appendByte0_writes v).appends
  | part v k neg =>
    obtain ⟨h1, h2, h3, _⟩ := h
    have := (appendPartialByte_appends h2 h1 h3).thenTrue
    rw [bitsMsb_negP (by omega)] at this
    exact this
  | octets arr k => exact encodeOctetStringNoLength_appends h.1

theorem sMap_ub {α β : Type} {x : SM α} {f : α → SM β} {s : SStream} (h : x s = .ub) : (x >>= f) s = .ub := by
  rw [sbind_def, h]

/-- A program in the streaming build. -/
theorem Prog.sRun_result {α : Type} {z : Bool} {n : Nat} {left : List Byte → List Byte → List Byte} (hleft : Leaves z left)
    (p : Prog α) : ∀ (s : SStream) (bs : List Bool), SSt z n s bs → LegalFrom z n bs.length p.calls →
    (∀ a, p.result = .ok a → ∃ s', p.sRun left s = .ok (a, s') ∧ SSt z n s' (bs ++ p.requested)) ∧
    (p.result = .ub → p.sRun left s = .ub) ∧ (p.result = .abort → p.sRun left s = .abort) := by
  induction p with
  | done a =>
    intro s bs hs _
    refine ⟨?_, ?_, ?_⟩
    · intro b hb
      cases hb
      exact ⟨s, rfl, by simpa [Prog.requested, Prog.calls] using hs⟩
    · intro h; cases h
    · intro h; cases h
  | ub => intro s bs _ _; exact ⟨(fun a h => by cases h), fun _ => rfl, fun h => by cases h⟩
  | abort => intro s bs _ _; exact ⟨(fun a h => by cases h), (fun h => by cases h), fun _ => rfl⟩
  | op o k ih =>
    intro s bs hs hl
    simp only [Prog.calls, LegalFrom] at hl
    obtain ⟨s1, hr, hs1⟩ := o.sAppends hleft bs.length hl.1 s bs hs rfl
    have := ih true s1 _ hs1 (by rw [List.length_append]; exact hl.2)
    simp only [Prog.sRun, Prog.result]
    rw [sbind_ok hr]
    refine ⟨?_, this.2.1, this.2.2⟩
    intro a ha
    obtain ⟨s', h1, h2⟩ := this.1 a ha
    refine ⟨s', h1, ?_⟩
    rw [List.append_assoc] at h2
    simpa only [Prog.requested, Prog.calls, List.flatMap_cons] using h2

/-- A program in the build without streaming. -/
theorem Prog.run_result {α : Type} {z : Bool} {n : Nat} (p : Prog α) : ∀ (s : BitStream) (bs : List Bool) (pos : Nat), EncSt s bs →
    LegalFrom z n pos p.calls → bs.length + p.requested.length ≤ 8 * s.count →
    (∀ a, p.result = .ok a → ∃ s', p.run s = .ok (a, s') ∧ EncSt s' (bs ++ p.requested)) ∧
    (p.result = .ub → p.run s = .ub) ∧ (p.result = .abort → p.run s = .abort) := by
  induction p with
  | done a =>
    intro s bs _ hs _ _
    refine ⟨?_, ?_, ?_⟩
    · intro b hb
      cases hb
      exact ⟨s, rfl, by simpa [Prog.requested, Prog.calls] using hs⟩
    · intro h; cases h
    · intro h; cases h
  | ub => intro s bs _ _ _ _; exact ⟨(fun a h => by cases h), fun _ => rfl, fun h => by cases h⟩
  | abort => intro s bs _ _ _ _; exact ⟨(fun a h => by cases h), (fun h => by cases h), fun _ => rfl⟩
  | op o k ih =>
    intro s bs pos hs hl hroom
    simp only [Prog.calls, LegalFrom] at hl
    have hreq : (Prog.op o k).requested = o.requested ++ (k true).requested := by
      simp only [Prog.requested, Prog.calls, List.flatMap_cons]
    rw [hreq, List.length_append] at hroom
    obtain ⟨s1, hr, hs1, hf⟩ := o.appends hl.1 s bs hs (by omega)
    have := ih true s1 _ _ hs1 hl.2 (by rw [List.length_append, hf.count]; omega)
    simp only [Prog.run, Prog.result]
    rw [bind_ok hr, hreq, ← List.append_assoc]
    exact this

/-! ### What the receiver gets -/

theorem init2_sst {z : Bool} {n : Nat} {buf : List Byte} (hn : 0 < n) (h : n ≤ buf.length) :
    ∃ s, bitStreamInit2 buf n = .ok s ∧ SSt z n s [] := by
  obtain ⟨t, ht, he, hc, hl, _⟩ := init_encSt h
  refine ⟨⟨t, []⟩, by rw [bitStreamInit2, ht], ⟨hc, he.wf.bit, ?_, by simp, [], rfl, ⟨?_, by simp, by simp, ?_⟩, he.pos.symm⟩⟩
  · have := he.pos; simp only [BitStream.pos, List.length_nil] at this; simp only []; omega
  · have := he.wf.cap; simp only []; omega
  · intro _ i _ hi
    rw [he.bits i (by omega)]; simp

theorem SSt.bits {z : Bool} {n : Nat} {s : SStream} {bs : List Bool} (h : SSt z n s bs) :
    bytesBits s.sent ++ (bytesBits s.st.buf).take s.st.pos = bs := by
  obtain ⟨tail, rfl, hh, hl⟩ := h.held
  congr 1
  have hcap := hh.cap
  have hroom := hh.room
  apply getD_ext
  · rw [List.length_take, bytesBits_length, hl]; omega
  · intro i hi
    rw [List.length_take, bytesBits_length] at hi
    rw [List.getElem?_take, if_pos (by omega), bytesBits_getD, hh.bits i (by omega)]

theorem EncSt.take_bits {s : BitStream} {bs : List Bool} (h : EncSt s bs) : (bytesBits s.buf).take s.pos = bs := by
  have hcap := h.wf.cap
  have hroom := h.room
  have hpos := h.pos
  apply getD_ext
  · rw [List.length_take, bytesBits_length]; omega
  · intro i hi
    rw [List.length_take, bytesBits_length] at hi
    rw [List.getElem?_take, if_pos (by omega), bytesBits_getD, h.bits i (by omega)]

theorem getLength_pos {s : BitStream} (h : s.currentBit < 8) : bitStreamGetLength s = (s.pos + 7) / 8 := by
  simp only [bitStreamGetLength, BitStream.pos]
  split <;> omega

theorem SSt.output_bits {n : Nat} {s : SStream} {bs : List Bool} (h : SSt true n s bs) :
    bytesBits s.output = bs ++ List.replicate (8 * ((bs.length + 7) / 8) - bs.length) false := by
  obtain ⟨tail, rfl, hh, hl⟩ := h.held
  have hcap := hh.cap
  have hb := h.bit
  have hby := h.byte
  rw [SStream.output, bytesBits_append, List.append_assoc, getLength_pos h.bit]
  congr 1
  have hpn : (s.st.pos + 7) / 8 ≤ n := by simp only [BitStream.pos]; omega
  apply getD_ext
  · rw [bytesBits_length, List.length_take, List.length_append, List.length_replicate, List.length_append, bytesBits_length, hl]
    omega
  · intro i hi
    rw [bytesBits_length, List.length_take] at hi
    rw [bytesBits_getD, bitAt_take (by omega), List.getElem?_append]
    by_cases h1 : i < tail.length
    · rw [if_pos h1, hh.bits i h1]
    · rw [if_neg h1, hh.rest rfl i (by omega) (by omega), List.getElem?_replicate]
      split <;> rfl

theorem EncSt.output_bits {s : BitStream} {bs : List Bool} (h : EncSt s bs) :
    bytesBits (s.buf.take (bitStreamGetLength s)) = bs ++ List.replicate (8 * ((bs.length + 7) / 8) - bs.length) false := by
  have hcap := h.wf.cap
  have hroom := h.room
  have hpos := h.pos
  rw [getLength_pos h.wf.bit, hpos]
  apply getD_ext
  · rw [bytesBits_length, List.length_take, List.length_append, List.length_replicate]
    omega
  · intro i hi
    rw [bytesBits_length, List.length_take] at hi
    rw [bytesBits_getD, bitAt_take (by omega), List.getElem?_append, h.bits i (by omega)]
    by_cases h1 : i < bs.length
    · rw [if_pos h1]
    · rw [if_neg h1, List.getElem?_eq_none (by omega), List.getElem?_replicate]
      split <;> rfl

/-! ### Source code of the integer encoders -/

theorem Prog.run_bind {α β : Type} (p : Prog α) (f : α → Prog β) : (p >>= f).run = p.run >>= fun a => (f a).run := by
  induction p with
  | done a => exact (pure_bind a fun a => (f a).run).symm
  | ub => rfl
  | abort => rfl
  | op o k ih =>
    show (do let b ← o.run; ((k b).bind f).run) = (do let b ← o.run; (k b).run) >>= _
    rw [bind_assoc]
    congr 1
    funext b
    exact ih b

theorem Prog.run_pure {α : Type} (a : α) : (pure a : Prog α).run = pure a := rfl

theorem Prog.run_tbl {α : Type} (t : List α) (i : Nat) : (Prog.tbl t i).run = tblGet t i := by
  funext s
  simp only [Prog.tbl, tblGet]
  cases t[i]? <;> rfl

theorem Prog.run_assertC (c : Bool) : (Prog.assertC c).run = Asn1.assertC c := by
  funext s
  cases c <;> rfl

theorem Prog.run_chk (x : Int) : (Prog.chk x).run = Asn1.chk x := by
  simp only [Prog.chk, Asn1.chk]
  split <;> rfl

theorem Prog.run_ite {α : Type} (c : Prop) [Decidable c] (p q : Prog α) : (if c then p else q).run = if c then p.run else q.run := by
  split <;> rfl

theorem do_true {f : M Unit} : (do let _ ← (do f; pure true); pure () : M Unit) = f := by
  simp only [bind_assoc, pure_bind]
  exact bind_pure_unit

theorem Prog.run_byte (v : Byte) (neg : Bool) : (Prog.do_ (.byte v neg)).run = appendByte v neg := do_true
theorem Prog.run_part (v : Byte) (n : Nat) (neg : Bool) : (Prog.do_ (.part v n neg)).run = appendPartialByte v n neg := do_true
theorem Prog.run_zeros (n : Int) : (Prog.do_ (.zeros n)).run = appendNBitZero n := do_true
theorem Prog.run_bitOne : (Prog.do_ .bitOne).run = appendBitOne := do_true
theorem Prog.run_octets (arr : List Byte) (n : Nat) : (Prog.call (.octets arr n)).run = encodeOctetStringNoLength arr n := by
  show (encodeOctetStringNoLength arr n >>= fun b => (Prog.done b).run) = _
  exact bind_pure _

theorem bindM_congr {α β : Type} {f : M α} {g h : α → M β} (e : ∀ a, g a = h a) : (f >>= g) = (f >>= h) := by
  rw [funext e]

namespace Src

theorem appendNBytesOne_run (n : Nat) : (appendNBytesOne n).run = Asn1.appendNBytesOne n := by
  induction n with
  | zero => rfl
  | succ n ih => rw [appendNBytesOne, Prog.run_bind, Prog.run_byte, ih, Asn1.appendNBytesOne]

theorem appendNBitsOne_run (n : Nat) : (appendNBitsOne n).run = Asn1.appendNBitsOne n := by
  induction n with
  | zero => rfl
  | succ n ih => rw [appendNBitsOne, Prog.run_bind, Prog.run_bitOne, ih, Asn1.appendNBitsOne]

theorem appendNBitOne_run (n : Nat) : (appendNBitOne n).run = Asn1.appendNBitOne n := by
  rw [appendNBitOne, Prog.run_bind, appendNBytesOne_run, appendNBitsOne_run, Asn1.appendNBitOne]

theorem appendBits_run (src : List Byte) (n : Nat) : (appendBits src n).run = Asn1.appendBits src n := by
  rw [appendBits, Prog.run_bind, Prog.run_octets, Asn1.appendBits]
  congr 1
  funext _
  rw [Prog.run_ite]
  simp only [Prog.run_bind, Prog.run_tbl, Prog.run_part, Prog.run_pure]

theorem encodeNN32Bytes_run (v : U32) (neg : Bool) (k : Nat) : (encodeNN32Bytes v neg k).run = Asn1.encodeNN32Bytes v neg k := by
  induction k with
  | zero => rfl
  | succ k ih =>
    simp only [encodeNN32Bytes, Asn1.encodeNN32Bytes, Prog.run_bind, Prog.run_tbl, Prog.run_byte, ih]

theorem encodeNonNegativeInteger32Neg_run (v : U32) (neg : Bool) :
    (encodeNonNegativeInteger32Neg v neg).run = Asn1.encodeNonNegativeInteger32Neg v neg := by
  simp only [encodeNonNegativeInteger32Neg, Asn1.encodeNonNegativeInteger32Neg, Prog.run_ite, Prog.run_bind, Prog.run_pure,
    Prog.run_part, encodeNN32Bytes_run]

theorem encodeNonNegativeInteger_run (v : U64) : (encodeNonNegativeInteger v).run = Asn1.encodeNonNegativeInteger v := by
  simp only [encodeNonNegativeInteger, Asn1.encodeNonNegativeInteger, Prog.run_ite, Prog.run_bind, Prog.run_zeros,
    encodeNonNegativeInteger32Neg_run]

theorem encodeNonNegativeIntegerNeg_run (v : U64) (neg : Bool) :
    (encodeNonNegativeIntegerNeg v neg).run = Asn1.encodeNonNegativeIntegerNeg v neg := by
  simp only [encodeNonNegativeIntegerNeg, Asn1.encodeNonNegativeIntegerNeg, Prog.run_ite, Prog.run_bind, Prog.run_zeros,
    encodeNonNegativeInteger32Neg_run]

theorem negMinusOne_run (v : Int) : (negMinusOne v).run = Asn1.negMinusOne v := by
  simp only [negMinusOne, Asn1.negMinusOne, Prog.run_bind, Prog.run_chk]

theorem getLengthInBytesOfSInt_run (v : Int) : (getLengthInBytesOfSInt v).run = Asn1.getLengthInBytesOfSInt v := by
  simp only [getLengthInBytesOfSInt, Asn1.getLengthInBytesOfSInt, Prog.run_ite, Prog.run_bind, Prog.run_pure, negMinusOne_run]

theorem encodeConstraintWholeNumber_run (v lo hi : Int) :
    (encodeConstraintWholeNumber v lo hi).run = Asn1.encodeConstraintWholeNumber v lo hi := by
  simp only [encodeConstraintWholeNumber, Asn1.encodeConstraintWholeNumber, Prog.run_ite, Prog.run_bind, Prog.run_pure,
    Prog.run_assertC, Prog.run_chk, Prog.run_zeros, encodeNonNegativeInteger_run]

theorem encodeConstraintPosWholeNumber_run (v lo hi : U64) :
    (encodeConstraintPosWholeNumber v lo hi).run = Asn1.encodeConstraintPosWholeNumber v lo hi := by
  simp only [encodeConstraintPosWholeNumber, Asn1.encodeConstraintPosWholeNumber, Prog.run_ite, Prog.run_bind, Prog.run_pure,
    Prog.run_assertC, Prog.run_zeros, encodeNonNegativeInteger_run]

theorem semi_run (u : U64) (x : Int) : (do
      encodeConstraintWholeNumber (getLengthInBytesOfUInt u) 0 x
      Prog.do_ (.zeros (((getLengthInBytesOfUInt u : Nat) : Int) * 8 - getNumberOfBits u))
      encodeNonNegativeInteger u : Prog Unit).run = (do
      Asn1.encodeConstraintWholeNumber (getLengthInBytesOfUInt u) 0 x
      appendNBitZero (((getLengthInBytesOfUInt u : Nat) : Int) * 8 - getNumberOfBits u)
      Asn1.encodeNonNegativeInteger u) := by
  rw [Prog.run_bind, encodeConstraintWholeNumber_run]
  refine bindM_congr fun _ => ?_
  rw [Prog.run_bind, Prog.run_zeros]
  refine bindM_congr fun _ => ?_
  exact encodeNonNegativeInteger_run u

theorem encodeSemiConstraintWholeNumber_run (v lo : Int) :
    (encodeSemiConstraintWholeNumber v lo).run = Asn1.encodeSemiConstraintWholeNumber v lo := by
  unfold encodeSemiConstraintWholeNumber Asn1.encodeSemiConstraintWholeNumber
  rw [Prog.run_bind, Prog.run_assertC]
  refine bindM_congr fun _ => ?_
  rw [Prog.run_bind, Prog.run_chk]
  refine bindM_congr fun _ => ?_
  exact semi_run _ 255

theorem encodeSemiConstraintPosWholeNumber_run (v lo : U64) :
    (encodeSemiConstraintPosWholeNumber v lo).run = Asn1.encodeSemiConstraintPosWholeNumber v lo := by
  unfold encodeSemiConstraintPosWholeNumber Asn1.encodeSemiConstraintPosWholeNumber
  rw [Prog.run_bind, Prog.run_assertC]
  refine bindM_congr fun _ => ?_
  exact semi_run _ 255

theorem un_run (v x : Int) (k : Nat) : (do
      encodeConstraintWholeNumber k 0 x
      if v ≥ 0 then do
        Prog.do_ (.zeros ((k : Int) * 8 - getNumberOfBits (BitVec.ofInt 64 v)))
        encodeNonNegativeInteger (BitVec.ofInt 64 v)
      else do
        let w ← negMinusOne v
        appendNBitOne ((k : Int) * 8 - getNumberOfBits (BitVec.ofInt 64 w)).toNat
        encodeNonNegativeIntegerNeg (BitVec.ofInt 64 w) true : Prog Unit).run = (do
      Asn1.encodeConstraintWholeNumber k 0 x
      if v ≥ 0 then do
        appendNBitZero ((k : Int) * 8 - getNumberOfBits (BitVec.ofInt 64 v))
        Asn1.encodeNonNegativeInteger (BitVec.ofInt 64 v)
      else do
        let w ← Asn1.negMinusOne v
        Asn1.appendNBitOne ((k : Int) * 8 - getNumberOfBits (BitVec.ofInt 64 w)).toNat
        Asn1.encodeNonNegativeIntegerNeg (BitVec.ofInt 64 w) true) := by
  rw [Prog.run_bind, encodeConstraintWholeNumber_run]
  refine bindM_congr fun _ => ?_
  rw [Prog.run_ite]
  split
  · rw [Prog.run_bind, Prog.run_zeros]
    refine bindM_congr fun _ => ?_
    exact encodeNonNegativeInteger_run _
  · rw [Prog.run_bind, negMinusOne_run]
    refine bindM_congr fun _ => ?_
    rw [Prog.run_bind, appendNBitOne_run]
    refine bindM_congr fun _ => ?_
    exact encodeNonNegativeIntegerNeg_run _ _

theorem encodeUnConstraintWholeNumber_run (v : Int) :
    (encodeUnConstraintWholeNumber v).run = Asn1.encodeUnConstraintWholeNumber v := by
  unfold encodeUnConstraintWholeNumber Asn1.encodeUnConstraintWholeNumber
  rw [Prog.run_bind, getLengthInBytesOfSInt_run]
  exact bindM_congr fun k => un_run v 255 k

end Src

/-! ### Calls made by the integer encoders -/

/-- A call that works at every position with a cleared buffer of at least 8 bytes. -/
def Op.Easy : Op → Prop
  | .zeros k => 0 ≤ k ∧ k ≤ 64
  | .part v k neg => 0 < k ∧ k < 8 ∧ (neg = true ∨ v.toNat < 2 ^ k)
  | .octets _ _ => False
  | _ => True

theorem Op.Easy.legal {n : Nat} (hn : 8 ≤ n) (pos : Nat) {o : Op} (h : o.Easy) : o.LegalAt true n pos := by
  cases o with
  | zeros k =>
    refine ⟨h.1, rfl, ?_⟩
    have : pos % (8 * n) < 8 * n := Nat.mod_lt _ (by omega)
    have h1 := h.1
    have h2 := h.2
    omega
  | part v k neg => exact ⟨h.1, h.2.1, h.2.2, Or.inl rfl⟩
  | octets _ _ => exact h.elim
  | _ => trivial

theorem legalFrom_of_easy {n : Nat} (hn : 8 ≤ n) (l : List Op) : ∀ pos, (∀ o ∈ l, o.Easy) → LegalFrom true n pos l := by
  induction l with
  | nil => intro _ _; trivial
  | cons o l ih =>
    intro pos h
    exact ⟨(h o (by simp)).legal hn pos, ih _ (fun o ho => h o (by simp [ho]))⟩

/-- Every call of the program is easy. -/
def Prog.Easy {α : Type} (p : Prog α) : Prop := ∀ o ∈ p.calls, o.Easy

theorem Prog.Easy.bind {α β : Type} {p : Prog α} {f : α → Prog β} (h : p.Easy) (hf : ∀ a, p.result = .ok a → (f a).Easy) :
    (p >>= f).Easy := by
  induction p with
  | done a => exact hf a rfl
  | ub => intro o ho; cases ho
  | abort => intro o ho; cases ho
  | op o k ih =>
    intro o' ho'
    have ho' : o' ∈ o :: ((k true) >>= f).calls := ho'
    rcases List.mem_cons.1 ho' with e | e
    · subst e; exact h o' (by simp [Prog.calls])
    · exact ih true (fun o ho => h o (by simp [Prog.calls, ho])) hf o' e

theorem Prog.Easy.pure {α : Type} (a : α) : (pure a : Prog α).Easy := by intro o ho; cases ho
theorem Prog.Easy.tbl {α : Type} (t : List α) (i : Nat) : (Prog.tbl t i).Easy := by
  intro o ho; simp only [Prog.tbl] at ho; split at ho <;> cases ho
theorem Prog.Easy.assertC (c : Bool) : (Prog.assertC c).Easy := by
  intro o ho; simp only [Prog.assertC] at ho; split at ho <;> cases ho
theorem Prog.Easy.chk (x : Int) : (Prog.chk x).Easy := by
  intro o ho; simp only [Prog.chk] at ho; split at ho <;> cases ho
theorem Prog.Easy.do_ {o : Op} (h : o.Easy) : (Prog.do_ o).Easy := by
  intro o' ho'
  simp only [Prog.do_, Prog.calls, List.mem_singleton] at ho'
  subst ho'; exact h

theorem Prog.chk_result {x a : Int} (h : (Prog.chk x).result = .ok a) : a = x ∧ inS64 x = true := by
  simp only [Prog.chk] at h
  split at h
  · rename_i hx
    exact ⟨(Res.ok.inj h).symm, hx⟩
  · cases h

theorem Prog.assertC_result {c : Bool} {a : Unit} (h : (Prog.assertC c).result = .ok a) : c = true := by
  cases c
  · cases h
  · rfl

namespace Src

theorem appendNBytesOne_easy (n : Nat) : (appendNBytesOne n).Easy := by
  induction n with
  | zero => exact Prog.Easy.pure ()
  | succ n ih => exact (Prog.Easy.do_ (by trivial)).bind fun _ _ => ih

theorem appendNBitsOne_easy (n : Nat) : (appendNBitsOne n).Easy := by
  induction n with
  | zero => exact Prog.Easy.pure ()
  | succ n ih => exact (Prog.Easy.do_ (by trivial)).bind fun _ _ => ih

theorem appendNBitOne_easy (n : Nat) : (appendNBitOne n).Easy :=
  (appendNBytesOne_easy _).bind fun _ _ => appendNBitsOne_easy _

theorem encodeNN32Bytes_easy (v : U32) (neg : Bool) (k : Nat) : (encodeNN32Bytes v neg k).Easy := by
  induction k with
  | zero => exact Prog.Easy.pure ()
  | succ k ih => exact (Prog.Easy.tbl _ _).bind fun _ _ => (Prog.Easy.do_ (by trivial)).bind fun _ _ => ih

theorem encodeNonNegativeInteger32Neg_easy (v : U32) (neg : Bool) : (encodeNonNegativeInteger32Neg v neg).Easy := by
  unfold encodeNonNegativeInteger32Neg
  by_cases h0 : v = 0#32
  · rw [if_pos h0]; exact Prog.Easy.pure ()
  · rw [if_neg h0, cc_eq h0]
    have hn : bitLen v.toNat ≤ 32 := (bitLen_le_iff _ _).2 v.isLt
    have hlt := lt_two_pow_bitLen v.toNat
    generalize bitLen v.toNat = n at hn hlt ⊢
    simp only []
    refine Prog.Easy.bind ?_ fun _ _ => encodeNN32Bytes_easy _ _ _
    have hs : n - n % 8 = 8 * (n / 8) := by omega
    rw [hs]
    by_cases hp : n % 8 = 0
    · simp only [hp, ne_eq, not_true_eq_false, if_false]; exact Prog.Easy.pure ()
    · rw [if_pos hp]
      have hsm : v.toNat >>> (8 * (n / 8)) < 2 ^ (n % 8) := by
        rw [Nat.shiftRight_eq_div_pow, Nat.div_lt_iff_lt_mul (Nat.two_pow_pos _), ← Nat.pow_add]
        rw [show n % 8 + 8 * (n / 8) = n by omega]; exact hlt
      have hv : ((v >>> (8 * (n / 8))).setWidth 8).toNat = v.toNat >>> (8 * (n / 8)) := by
        rw [BitVec.toNat_setWidth, BitVec.toNat_ushiftRight, Nat.mod_eq_of_lt]
        exact Nat.lt_of_lt_of_le hsm (Nat.pow_le_pow_right (by omega) (by omega))
      exact Prog.Easy.do_ ⟨by omega, by omega, Or.inr (by rw [hv]; exact hsm)⟩

theorem zeros32_easy (lo : U32) : (Op.zeros (32 - (getNumberOfBits (lo.setWidth 64) : Int))).Easy := by
  have e : (lo.setWidth 64).toNat = lo.toNat := by
    have := lo.isLt
    rw [BitVec.toNat_setWidth, Nat.mod_eq_of_lt]; omega
  have hn : bitLen lo.toNat ≤ 32 := (bitLen_le_iff _ _).2 lo.isLt
  rw [getNumberOfBits_eq, e]
  exact ⟨by omega, by omega⟩

theorem encodeNonNegativeInteger_easy (v : U64) : (encodeNonNegativeInteger v).Easy := by
  unfold encodeNonNegativeInteger
  split
  · exact encodeNonNegativeInteger32Neg_easy _ _
  · exact (encodeNonNegativeInteger32Neg_easy _ _).bind fun _ _ => (Prog.Easy.do_ (zeros32_easy _)).bind fun _ _ =>
      encodeNonNegativeInteger32Neg_easy _ _

theorem encodeNonNegativeIntegerNeg_easy (v : U64) (neg : Bool) : (encodeNonNegativeIntegerNeg v neg).Easy := by
  unfold encodeNonNegativeIntegerNeg
  split
  · exact encodeNonNegativeInteger32Neg_easy _ _
  · exact (encodeNonNegativeInteger32Neg_easy _ _).bind fun _ _ => (Prog.Easy.do_ (zeros32_easy _)).bind fun _ _ =>
      encodeNonNegativeInteger32Neg_easy _ _

theorem padded_easy {n : Nat} {v : U64} (h : v.toNat < 2 ^ n) (hn : n ≤ 64) :
    (do Prog.do_ (.zeros ((n : Int) - getNumberOfBits v)); encodeNonNegativeInteger v : Prog Unit).Easy := by
  have hle := (bitLen_le_iff v.toNat n).2 h
  refine (Prog.Easy.do_ ?_).bind fun _ _ => encodeNonNegativeInteger_easy _
  rw [getNumberOfBits_eq]
  exact ⟨by omega, by omega⟩

theorem encodeConstraintWholeNumber_easy {v lo hi : Int} (h1 : lo ≤ v) (h2 : v ≤ hi) : (encodeConstraintWholeNumber v lo hi).Easy := by
  unfold encodeConstraintWholeNumber
  refine (Prog.Easy.assertC _).bind fun _ _ => (Prog.Easy.chk _).bind fun d hd => ?_
  obtain ⟨rfl, hin⟩ := Prog.chk_result hd
  simp only [inS64, decide_eq_true_eq] at hin
  dsimp only
  split
  · exact Prog.Easy.pure ()
  · refine (Prog.Easy.chk _).bind fun e he => ?_
    obtain ⟨rfl, _⟩ := Prog.chk_result he
    have hR := ofInt_toNat (x := hi - lo) (by omega) (by omega)
    have hV := ofInt_toNat (x := v - lo) (by omega) (by omega)
    refine padded_easy ?_ (by rw [getNumberOfBits_eq]; exact bitLen_le_64 _)
    rw [getNumberOfBits_eq, hV, hR]
    exact Nat.lt_of_le_of_lt (by omega) (lt_two_pow_bitLen (hi - lo).toNat)

theorem encodeConstraintPosWholeNumber_easy {v lo hi : U64} : (encodeConstraintPosWholeNumber v lo hi).Easy := by
  unfold encodeConstraintPosWholeNumber
  refine (Prog.Easy.assertC _).bind fun _ h1 => (Prog.Easy.assertC _).bind fun _ h2 => ?_
  have h1 := Prog.assertC_result h1
  have h2 := Prog.assertC_result h2
  simp only [decide_eq_true_eq, BitVec.le_def] at h1 h2
  simp only []
  split
  · exact Prog.Easy.pure ()
  · refine padded_easy ?_ (by rw [getNumberOfBits_eq]; exact bitLen_le_64 _)
    rw [getNumberOfBits_eq]
    refine Nat.lt_of_le_of_lt ?_ (lt_two_pow_bitLen (hi - lo).toNat)
    rw [BitVec.toNat_sub_of_le (by rw [BitVec.le_def]; omega), BitVec.toNat_sub_of_le (by rw [BitVec.le_def]; omega)]
    omega

theorem semi_easy (u : U64) : (do
      encodeConstraintWholeNumber (getLengthInBytesOfUInt u) 0 255
      Prog.do_ (.zeros (((getLengthInBytesOfUInt u : Nat) : Int) * 8 - getNumberOfBits u))
      encodeNonNegativeInteger u : Prog Unit).Easy := by
  rw [getLengthInBytesOfUInt_eq]
  have h8 := octetsNat_le8 u
  refine (encodeConstraintWholeNumber_easy (by omega) (by omega)).bind fun _ _ => ?_
  rw [show ((octetsNat u.toNat : Int) * 8) = ((8 * octetsNat u.toNat : Nat) : Int) by omega]
  exact padded_easy (lt_octetsNat _) (by omega)

theorem encodeSemiConstraintWholeNumber_easy (v lo : Int) : (encodeSemiConstraintWholeNumber v lo).Easy := by
  unfold encodeSemiConstraintWholeNumber
  exact (Prog.Easy.assertC _).bind fun _ _ => (Prog.Easy.chk _).bind fun _ _ => semi_easy _

theorem encodeSemiConstraintPosWholeNumber_easy (v lo : U64) : (encodeSemiConstraintPosWholeNumber v lo).Easy := by
  unfold encodeSemiConstraintPosWholeNumber
  exact (Prog.Easy.assertC _).bind fun _ _ => semi_easy _

theorem getLengthSIntHelper_le (v : U64) : getLengthSIntHelper v ≤ 8 := by
  unfold getLengthSIntHelper
  dsimp only
  repeat' split
  all_goals omega

theorem negMinusOne_easy (v : Int) : (negMinusOne v).Easy := (Prog.Easy.chk _).bind fun _ _ => Prog.Easy.chk _

theorem getLengthInBytesOfSInt_easy (v : Int) : (getLengthInBytesOfSInt v).Easy := by
  unfold getLengthInBytesOfSInt
  split
  · exact Prog.Easy.pure _
  · exact (negMinusOne_easy v).bind fun _ _ => Prog.Easy.pure _

theorem getLengthInBytesOfSInt_result {v : Int} {k : Nat} (h : (getLengthInBytesOfSInt v).result = .ok k) :
    k ≤ 8 ∧ (0 ≤ v → k = getLengthSIntHelper (BitVec.ofInt 64 v)) := by
  unfold getLengthInBytesOfSInt negMinusOne at h
  by_cases hv : v ≥ 0
  · rw [if_pos hv] at h
    cases h
    exact ⟨getLengthSIntHelper_le _, fun _ => rfl⟩
  · rw [if_neg hv] at h
    refine ⟨?_, fun h => absurd h hv⟩
    simp only [Prog.chk] at h
    split at h
    · change ((if inS64 (-v - 1) = true then Prog.done (-v - 1) else Prog.ub) >>= _ : Prog Nat).result = _ at h
      split at h
      · cases h; exact getLengthSIntHelper_le _
      · cases h
    · cases h

theorem encodeUnConstraintWholeNumber_easy {v : Int} (h : v < 2 ^ 63) : (encodeUnConstraintWholeNumber v).Easy := by
  unfold encodeUnConstraintWholeNumber
  refine (getLengthInBytesOfSInt_easy v).bind fun k hk => ?_
  obtain ⟨h8, he⟩ := getLengthInBytesOfSInt_result hk
  refine (encodeConstraintWholeNumber_easy (by omega) (by omega)).bind fun _ _ => ?_
  split
  · rename_i h0
    have e := ofInt_toNat (x := v) h0 (by omega)
    have he := he h0
    rw [getLengthSIntHelper_eq (by omega)] at he
    rw [show ((k : Int) * 8) = ((8 * k : Nat) : Int) by omega]
    refine padded_easy ?_ (by omega)
    refine Nat.lt_of_lt_of_le (lt_two_pow_bitLen _) (Nat.pow_le_pow_right (by omega) (by omega))
  · exact (negMinusOne_easy v).bind fun _ _ => (appendNBitOne_easy _).bind fun _ _ => encodeNonNegativeIntegerNeg_easy _ _

end Src

/-- What a program asks for is what it appends. -/
theorem Prog.appends_requested {α : Type} {p : Prog α} {a : α} {w : List Bool} (h : p.Easy) (ha : Appends p.run a w) :
    p.result = .ok a ∧ p.requested = w := by
  obtain ⟨t, ht, he, hc, _⟩ := init_encSt (buf := List.replicate (p.requested.length + w.length) 0#8)
    (count := p.requested.length + w.length) (by rw [List.length_replicate]; omega)
  obtain ⟨s', hr, hs', _⟩ := ha t [] he (by rw [hc, List.length_nil]; omega)
  obtain ⟨h1, h2, h3⟩ := p.run_result (z := true) (n := 8) t [] 0 he (legalFrom_of_easy (by omega) _ _ h)
    (by rw [hc, List.length_nil]; omega)
  cases hres : p.result with
  | ok b =>
    obtain ⟨s2, hr2, hs2⟩ := h1 b hres
    rw [hr] at hr2
    cases hr2
    have e1 := hs'.take_bits
    have e2 := hs2.take_bits
    rw [List.nil_append] at e1 e2
    exact ⟨rfl, e2.symm.trans e1⟩
  | ub => have := h2 hres; rw [hr] at this; cases this
  | abort => have := h3 hres; rw [hr] at this; cases this

end Asn1
