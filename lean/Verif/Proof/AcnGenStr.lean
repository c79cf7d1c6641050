import Verif.Proof.AcnGenLeaf
import Verif.Proof.AcnStrings
import Verif.Proof.BitStrings
import Verif.Proof.GenStr
/-! Strings, octets and bits with external lengths, reals: the ACN templates. -/
namespace Asn1

theorem strObj_ok {hi : Nat} {chars : List Byte} (h : chars.length ≤ hi) :
    strObj hi chars = pure (chars ++ List.replicate (hi + 1 - chars.length) 0#8) := by rw [strObj, if_pos h]

theorem strObj_holds {hi : Nat} {chars : List Byte} (h : chars.length ≤ hi) (hz : ∀ c ∈ chars, c ≠ 0#8) :
    HoldsString (chars ++ List.replicate (hi + 1 - chars.length) 0#8) chars := by
  refine ⟨?_, fun hm => hz _ hm rfl⟩
  rw [List.prefix_append_right_inj, show hi + 1 - chars.length = (hi - chars.length) + 1 by omega, List.replicate_succ]
  exact ⟨_, rfl⟩

theorem takeWhile_filled {hi : Nat} {chars : List Byte} (h : chars.length ≤ hi) (hz : ∀ c ∈ chars, c ≠ 0#8) :
    (filled hi chars (List.replicate (hi + 1) 0#8)).takeWhile (fun c => decide (c ≠ 0#8)) = chars := by
  have e : filled hi chars (List.replicate (hi + 1) 0#8) = chars ++ 0#8 :: List.replicate (hi - chars.length) 0#8 := by
    simp only [filled, List.drop_replicate, Nat.sub_self, List.replicate_zero, List.append_nil]
    rw [show hi + 1 - chars.length = (hi - chars.length) + 1 by omega, List.replicate_succ]
  rw [e, List.takeWhile_append_of_pos (by intro c hc; simpa using hz c hc)]
  simp

theorem appends_flag {f : M Unit} {w : List Bool} (h : Appends f () w) : Appends (do f; pure true) true w := by
  have := h.bind (g := fun _ => (pure true : M Bool)) (Appends.pure _)
  rwa [List.append_nil] at this

/-- The characters of the destination. -/
theorem chars_reads {hi : Nat} {chars : List Byte} (h : chars.length ≤ hi) (hz : ∀ c ∈ chars, c ≠ 0#8) {f : M (Bool × List Byte)}
    {w : List Bool} (r : Reads f (true, filled hi chars (List.replicate (hi + 1) 0#8)) w ∧ Short f w) :
    Reads (do let p ← f; pure (p.1, p.2.takeWhile (· ≠ 0#8))) (true, chars) w ∧
    Short (do let p ← f; pure (p.1, p.2.takeWhile (· ≠ 0#8))) w := by
  refine ⟨?_, r.2.map (fun p hp => hp)⟩
  have := r.1.map (h := fun p : Bool × List Byte => (p.1, p.2.takeWhile (· ≠ 0#8)))
  simp only [takeWhile_filled h hz] at this
  exact this

theorem clip_nat {n max : Nat} (h : n ≤ max) : clip (n : Int) max = n := by rw [clip, if_pos (by omega)]

theorem fixLoop_appends {hi : Nat} {chars : List Byte} (h : chars.length = hi) :
    Appends (acnEncStrAsciiFixSize hi (chars ++ List.replicate (hi + 1 - chars.length) 0#8)) () (bytesBits chars) := by
  have := encAsciiFixLoop_appends (chars ++ List.replicate (hi + 1 - chars.length) 0#8) chars 0 (by rw [List.drop_zero]; exact ⟨_, rfl⟩)
  rw [h] at this
  rw [h]
  exact this

theorem encStrAscii_appends {alphabet : List Byte} {lo hi : Nat} {chars : List Byte} (h31 : hi < 2 ^ 31) (h : StrValid alphabet lo hi chars) :
    Appends (encStrAscii lo hi chars) true (constrainedCode lo hi chars.length ++ bytesBits chars) := by
  obtain ⟨h1, h2, h3⟩ := h
  have hz : ∀ c ∈ chars, c ≠ 0#8 := fun c hc => (h3 c hc).2
  unfold encStrAscii
  rw [strObj_ok h2, pure_bind]
  refine appends_flag ?_
  split
  · rename_i he
    rw [he, constrainedCode_self, List.nil_append]
    exact fixLoop_appends (by omega)
  · have hh := strObj_holds h2 hz
    unfold acnEncStrAsciiInternal
    rw [strLen_eq hh, pure_bind, if_pos h2]
    have a := encodeConstraintWholeNumber_appends (v := (chars.length : Int)) (lo := lo) (hi := hi) (by omega) (by omega) (by omega)
    exact a.bind (g := fun _ => _) (acnEncStrAsciiPrivate_appends hh h2)

theorem decStrAscii_reads {alphabet : List Byte} {lo hi : Nat} {chars : List Byte} (h31 : hi < 2 ^ 31) (h : StrValid alphabet lo hi chars) :
    Reads (decStrAscii lo hi) (true, chars) (constrainedCode lo hi chars.length ++ bytesBits chars) ∧
    Short (decStrAscii lo hi) (constrainedCode lo hi chars.length ++ bytesBits chars) := by
  obtain ⟨h1, h2, h3⟩ := h
  have hz : ∀ c ∈ chars, c ≠ 0#8 := fun c hc => (h3 c hc).2
  unfold decStrAscii
  refine chars_reads h2 hz ?_
  split
  · rename_i he
    rw [he, constrainedCode_self, List.nil_append]
    unfold acnDecStrAsciiFixSize
    have := acnDecStrAsciiPrivate_reads (max := hi) (dst := List.replicate (hi + 1) 0#8) (str := chars) (by simp) h2
    rw [show chars.length = hi by omega] at this
    exact this
  · unfold acnDecStrAsciiInternal
    obtain ⟨d, s⟩ := decodeConstraintWholeNumber_reads (v := (chars.length : Int)) (lo := lo) (hi := hi) (by omega) (by omega) (by omega)
      (by omega) (by omega)
    obtain ⟨d2, s2⟩ := acnDecStrAsciiPrivate_reads (max := hi) (dst := List.replicate (hi + 1) 0#8) (str := chars) (by simp) h2
    constructor
    · refine d.bind ?_
      rw [if_pos rfl, clip_nat h2]
      exact d2
    · refine s.bind d ?_ (fun a => ⟨List.replicate (hi + 1) 0#8, by rw [if_neg (by simp)]⟩)
      rw [if_pos rfl, clip_nat h2]
      exact s2

theorem bytesBits_append' (a b : List Byte) : bytesBits (a ++ b) = bytesBits a ++ bytesBits b := by
  simp [bytesBits]

theorem encStrNull_appends {alphabet nul : List Byte} {lo hi : Nat} {chars : List Byte} (h : StrValid alphabet lo hi chars) :
    Appends (encStrNull hi nul chars) true (bytesBits (chars ++ nul)) := by
  obtain ⟨h1, h2, h3⟩ := h
  have hh := strObj_holds h2 (fun c hc => (h3 c hc).2)
  unfold encStrNull
  rw [strObj_ok h2, pure_bind, bytesBits_append']
  exact appends_flag ((acnEncStrAsciiPrivate_appends hh h2).bind (g := fun _ => appendBytesF nul) (appendBytesF_appends nul))

theorem decStrNull_reads {alphabet nul : List Byte} {lo hi : Nat} {chars : List Byte} (hn : nul ≠ []) (h10 : nul.length ≤ 10)
    (h : StrValid alphabet lo hi chars) (hne : NoEarly nul chars) :
    Reads (decStrNull hi nul) (true, chars) (bytesBits (chars ++ nul)) ∧ Short (decStrNull hi nul) (bytesBits (chars ++ nul)) := by
  obtain ⟨h1, h2, h3⟩ := h
  exact chars_reads h2 (fun c hc => (h3 c hc).2) (acnDecStrAsciiNullTerminatedMult_reads hn h10 (by simp) h2 hne)

theorem encStrExt_appends {alphabet : List Byte} {lo hi : Nat} {chars : List Byte} (h : StrValid alphabet lo hi chars) :
    Appends (encStrExt hi chars) true (bytesBits chars) := by
  obtain ⟨h1, h2, h3⟩ := h
  have hh := strObj_holds h2 (fun c hc => (h3 c hc).2)
  unfold encStrExt
  rw [strObj_ok h2, pure_bind]
  exact appends_flag (acnEncStrAsciiPrivate_appends hh h2)

theorem decStrExt_reads {alphabet : List Byte} {lo hi : Nat} {chars : List Byte} (h : StrValid alphabet lo hi chars) :
    Reads (decStrExt hi (chars.length : Int)) (true, chars) (bytesBits chars) ∧ Short (decStrExt hi (chars.length : Int)) (bytesBits chars) := by
  obtain ⟨h1, h2, h3⟩ := h
  refine chars_reads h2 (fun c hc => (h3 c hc).2) ?_
  unfold acnDecStrAsciiExternal
  rw [clip_nat h2]
  exact acnDecStrAsciiPrivate_reads (by simp) h2

theorem encStrIdx_appends {alphabet : List Byte} {lo hi : Nat} {chars : List Byte} (hs : alphabet.length < 2 ^ 31)
    (h128 : alphabet.length = 128 → alphabet = (List.range 128).map (BitVec.ofNat 8)) (h : StrValid alphabet lo hi chars) :
    Appends (encStrIdx alphabet hi chars) true (indexCode alphabet chars) := by
  obtain ⟨h1, h2, h3⟩ := h
  have hh := strObj_holds h2 (fun c hc => (h3 c hc).2)
  have a := acnEncStrIndexPrivate_appends hs hh h2 (fun c hc => (h3 c hc).1)
  unfold encStrIdx
  rw [strObj_ok h2, pure_bind]
  refine appends_flag ?_
  split
  · rename_i he
    rw [he, h128 he] at a
    rw [h128 he]
    exact a
  · exact a

theorem decStrIdx_reads {alphabet : List Byte} {lo hi : Nat} {chars : List Byte} (hs : alphabet.length < 2 ^ 31)
    (h128 : alphabet.length = 128 → alphabet = (List.range 128).map (BitVec.ofNat 8)) (h : StrValid alphabet lo hi chars) :
    Reads (decStrIdx alphabet hi (chars.length : Int)) (true, chars) (indexCode alphabet chars) ∧
    Short (decStrIdx alphabet hi (chars.length : Int)) (indexCode alphabet chars) := by
  obtain ⟨h1, h2, h3⟩ := h
  refine chars_reads h2 (fun c hc => (h3 c hc).2) ?_
  have a := acnDecStrIndexPrivate_reads (max := hi) (dst := List.replicate (hi + 1) 0#8) hs (by simp) h2 (fun c hc => (h3 c hc).1)
  unfold acnDecIa5External acnDecStrIndexExternal
  rw [clip_nat h2]
  split
  · rename_i he
    rw [he, h128 he] at a
    rw [h128 he]
    exact a
  · exact a

/-! ### OCTET STRING and BIT STRING with an external length -/

theorem extCount_nat {n : Nat} (h : n < 2 ^ 31) : extCount (n : Int) = pure n := by
  have e : (BitVec.ofInt 32 (n : Int)).toInt = (n : Int) := by
    rw [BitVec.toInt_ofInt]
    exact Int.bmod_eq_of_le (by omega) (by omega)
  unfold extCount
  rw [e, if_pos (by omega), Int.toNat_natCast]

theorem extOk_nat {lo hi n : Nat} (dmax : Option Int) (h1 : lo ≤ n) (h2 : n ≤ hi) : extOk lo hi dmax (n : Int) = true := by
  unfold extOk
  simp
  omega

theorem encOctetsExt_appends {lo hi : Nat} {arr : List Byte} (h1 : lo ≤ arr.length) (h2 : arr.length ≤ hi) :
    Appends (encOctetsExt lo hi arr) true (bytesBits arr) := by
  unfold encOctetsExt
  have e : (if lo = hi then encodeOctetStringNoLength arr hi else encodeOctetStringNoLength arr arr.length) =
      encodeOctetStringNoLength arr arr.length := by
    split
    · rw [show hi = arr.length by omega]
    · rfl
  rw [e]
  have := encodeOctetStringNoLength_appends (arr := arr) (n := arr.length) (Nat.le_refl _)
  rwa [List.take_length] at this

theorem ext_cond {lo hi n : Nat} (h1 : lo ≤ n) (h2 : n ≤ hi) :
    ((decide (lo = 0) || decide ((lo : Int) ≤ (n : Int))) && decide ((n : Int) ≤ (hi : Int))) = true := by
  simp; omega

theorem decOctetsExt_reads {lo hi : Nat} (dmax : Option Int) {arr : List Byte} (h31 : hi < 2 ^ 31) (h1 : lo ≤ arr.length) (h2 : arr.length ≤ hi) :
    Reads (decOctetsExt lo hi dmax (arr.length : Int)) (true, arr) (bytesBits arr) ∧
    Short (decOctetsExt lo hi dmax (arr.length : Int)) (bytesBits arr) := by
  have d := decodeOctetStringNoLength_reads arr
  have s : Short (decodeOctetStringNoLength arr.length) (bytesBits arr) := (decodeOctetStringNoLength_needs arr.length).short (by simp)
  unfold decOctetsExt
  split
  · rw [if_pos (ext_cond h1 h2), show hi = arr.length by omega]
    exact ⟨d, s⟩
  · rw [if_pos (extOk_nat dmax h1 h2), extCount_nat (by omega), pure_bind]
    have e : (do
        let p ← decodeOctetStringNoLength arr.length
        if p.1 && decide (hi < arr.length) then mUb else pure p) = decodeOctetStringNoLength arr.length := by
      simp [show ¬ hi < arr.length by omega]
    rw [e]
    exact ⟨d, s⟩

theorem encBitsExt_appends {lo hi : Nat} {w : List Bool} {arr : List Byte} (h1 : lo ≤ w.length) (h2 : w.length ≤ hi) (hp : Packed w arr) :
    Appends (encBitsExt lo hi w.length arr) true ((bytesBits arr).take w.length) := by
  unfold encBitsExt
  have e : (if lo = hi then hi else w.length) = w.length := by split <;> omega
  rw [e]
  have hl := hp.1
  exact appends_flag (appendBits_appends (by rw [hl]; omega))

theorem decBitsExt_reads {lo hi : Nat} (dmax : Option Int) {w : List Bool} {arr : List Byte} (h31 : hi < 2 ^ 31) (h1 : lo ≤ w.length)
    (h2 : w.length ≤ hi) (hp : Packed w arr) :
    Reads (decBitsExt lo hi dmax (w.length : Int)) (true, (w.length, arr)) ((bytesBits arr).take w.length) ∧
    Short (decBitsExt lo hi dmax (w.length : Int)) ((bytesBits arr).take w.length) := by
  rw [packed_take hp]
  have d := readBits_reads hp
  have s : Short (readBits w.length) w := (readBits_needs w.length).short rfl
  have d' := d.map (h := fun p : Bool × List Byte => (p.1, (w.length, p.2)))
  have s' := s.map (h := fun p : Bool × List Byte => (p.1, (w.length, p.2))) (fun p hp => hp)
  unfold decBitsExt
  split
  · rw [if_pos (ext_cond h1 h2), show hi = w.length by omega]
    exact ⟨d', s'⟩
  · rw [if_pos (extOk_nat dmax h1 h2), extCount_nat (by omega), pure_bind, if_neg (by omega)]
    exact ⟨d', s'⟩

end Asn1
