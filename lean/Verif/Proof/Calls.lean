import Verif.Spec.Calls
import Verif.Proof.AppendArr
import Verif.Proof.DecRules
import Verif.Proof.Int1
/-! One lemma per call of the bit stream API, and induction over call sequences. -/
namespace Asn1

theorem appendByteArray_appends {arr : List Byte} {n : Nat} (hn : n ≤ arr.length) (h1 : n ≠ 1) :
    Appends (appendByteArray arr n) true (bytesBits (arr.take n)) := by
  intro s bs hs hroom
  have l2 : (arr.take n).length = n := by simp; omega
  rw [bytesBits_length, l2] at hroom
  exact appendByteArray_run hs (Or.inr (Or.inl h1)) hn hroom

theorem Appends.thenTrue {f : M Unit} {w : List Bool} (h : Appends f () w) :
    Appends (do f; Pure.pure true) true w := by
  have := h.bind (g := fun _ => (Pure.pure true : M Bool)) (Appends.pure true)
  rwa [List.append_nil] at this

theorem AppendCall.appends (c : AppendCall) (h : c.legal) : Appends c.run true c.requested := by
  cases c with
  | bit v => exact (appendBit_writes v).appends.thenTrue
  | bitOne => exact appendBitOne_writes.appends.thenTrue
  | bitZero => exact appendBitZero_writes.appends.thenTrue
  | nBitZero n => exact (appendNBitZero_appends n).thenTrue
  | nBitOne n => exact (appendNBitOne_appends n).thenTrue
  | bits src n => exact (appendBits_appends h).thenTrue
  | byte v neg =>
    have := (appendByte_writes v neg).appends.thenTrue
    rw [byteBits_negB] at this
    exact this
  | byte0 v => exact (appendByte0_writes v).appends
  | partialByte v n neg =>
    obtain ⟨h1, h2, h3⟩ := h
    have := (appendPartialByte_appends h2 h1 h3).thenTrue
    rw [bitsMsb_negP (by omega)] at this
    exact this
  | byteArray arr n => exact appendByteArray_appends h.1 h.2
  | octets arr n => exact encodeOctetStringNoLength_appends h

theorem runAppends_appends (cs : List AppendCall) (h : ∀ c ∈ cs, c.legal) :
    Appends (runAppends cs) true (requestedBits cs) := by
  induction cs with
  | nil => exact Appends.pure true
  | cons c cs ih =>
    have := (c.appends (h c (by simp))).bind (g := fun ok => if ok = true then runAppends cs else Pure.pure false)
      (ih (fun c hc => h c (by simp [hc])))
    simpa [requestedBits, runAppends] using this

theorem init_encSt {buf : List Byte} {count : Nat} (h : count ≤ buf.length) :
    ∃ s, bitStreamInit buf count = .ok s ∧ EncSt s [] ∧ s.count = count ∧ s.buf.length = buf.length ∧
      s.buf.drop count = buf.drop count := by
  refine ⟨_, by rw [bitStreamInit, if_pos h], ⟨⟨by simp, by simp⟩, rfl, by simp, ?_⟩, rfl, by simp; omega, by simp⟩
  intro i hi
  simp only [] at hi
  simp only [bitAt, List.getD_eq_getElem?_getD]
  rw [List.getElem?_append_left (by simp; omega), List.getElem?_replicate, if_pos (by omega)]
  simp

theorem packed_exists (w : List Bool) : ∃ r, Packed w r := by
  obtain ⟨r, hr, hb⟩ := exists_bytes ((w.length + 7) / 8) (fun i => w[i]?.getD false)
  refine ⟨r, hr, ?_⟩
  apply List.ext_getElem?
  intro i
  by_cases hi : i < 8 * r.length
  · have := hb i (by rw [← hr]; exact hi)
    have l1 : i < (bytesBits r).length := by simpa using hi
    rw [List.getElem?_eq_getElem l1] at this ⊢
    rw [List.getElem?_append]
    split
    · rename_i h; rw [List.getElem?_eq_getElem h] at this ⊢; simpa using this
    · rename_i h
      rw [List.getElem?_eq_none (by omega)] at this
      rw [List.getElem?_replicate, if_pos (by omega)]; simpa using this
  · rw [List.getElem?_eq_none (by simpa using hi), List.getElem?_eq_none (by simp; omega)]

theorem byteBits_small {v : Byte} {n : Nat} (hn : n ≤ 8) (h : v.toNat < 2 ^ n) :
    byteBits v = List.replicate (8 - n) false ++ bitsMsb n v.toNat := by
  rw [← bitsMsb_pad _ _ _ h, byteBits]; congr 1; omega

theorem ReadCall.reads (c : ReadCall) (h : c.legal) {w : List Bool} (hw : w.length = c.size) :
    Reads c.run (true, c.expected w) w := by
  cases c with
  | bit =>
    match w, hw with
    | [b], _ => exact (readBit_reads b).map (h := fun r : Bool × Bool => (r.1, [r.2]))
  | bits n =>
    obtain ⟨r, hr⟩ := packed_exists w
    have := (readBits_reads hr).map (h := fun r : Bool × List Byte => (r.1, bytesBits r.2))
    simp only [ReadCall.size] at hw
    rw [hw, hr.2, hr.1, hw] at this
    exact this
  | byte =>
    obtain ⟨b, hb⟩ := exists_byte (fun i => w[i]?.getD false)
    simp only [ReadCall.size] at hw
    have e : w = byteBits b := by
      apply List.ext_getElem?
      intro i
      by_cases hi : i < 8
      · rw [byteBits_getElem? _ _ hi, hb i hi, List.getElem?_eq_getElem (by omega)]; rfl
      · rw [List.getElem?_eq_none (by omega), List.getElem?_eq_none (by simp; omega)]
    subst e
    exact (readByte_reads b).map (h := fun r : Bool × Byte => (r.1, byteBits r.2))
  | partialByte n =>
    obtain ⟨h1, h2⟩ := h
    simp only [ReadCall.size] at hw
    have hlt := natOfBits_lt w
    rw [hw] at hlt
    have hlt8 : natOfBits w < 2 ^ 8 := Nat.lt_of_lt_of_le hlt (Nat.pow_le_pow_right (by omega) (by omega))
    have hv : (BitVec.ofNat 8 (natOfBits w)).toNat = natOfBits w := by rw [BitVec.toNat_ofNat]; omega
    have := (readPartialByte_reads (v := BitVec.ofNat 8 (natOfBits w)) h1 h2 (by rw [hv]; exact hlt)).map
      (h := fun r : Bool × Byte => (r.1, byteBits r.2))
    have e := bitsMsb_natOfBits w
    rw [hw] at e
    simp only [] at this
    rw [byteBits_small (n := n) (by omega) (by rw [hv]; exact hlt), hv, e] at this
    exact this
  | octets n =>
    simp only [ReadCall.size] at hw
    obtain ⟨r, hr⟩ := packed_exists w
    have hl : r.length = n := by have := hr.1; omega
    have hb : bytesBits r = w := by
      have := hr.2
      rw [show 8 * r.length - w.length = 0 by omega] at this
      simpa using this
    have := (decodeOctetStringNoLength_reads r).map (h := fun r : Bool × List Byte => (r.1, bytesBits r.2))
    rw [hl, hb] at this
    exact this

theorem runReads_reads (rs : List ReadCall) : (∀ c ∈ rs, c.legal) → ∀ w : List Bool, w.length = readSize rs →
    Reads (runReads rs) (true, expectedReads rs w) w := by
  induction rs with
  | nil =>
    intro _ w hw
    have : w = [] := List.length_eq_zero_iff.1 (by simpa [readSize] using hw)
    subst this
    exact Reads.pure _
  | cons c rs ih =>
    intro hl w hw
    simp only [readSize, List.map_cons, List.sum_cons] at hw
    have h1 := c.reads (hl c (by simp)) (w := w.take c.size) (by simp; omega)
    have h2 := ih (fun c hc => hl c (by simp [hc])) (w.drop c.size) (by simp [readSize]; omega)
    have := h1.bind (g := fun r => if r.1 = true then (do
        let rs ← runReads rs
        Pure.pure (rs.1, r.2 :: rs.2)) else Pure.pure (false, [])) (b := (true, expectedReads (c :: rs) w)) (w2 := w.drop c.size)
      (by
        rw [if_pos rfl]
        exact h2.map (h := fun x : Bool × List (List Bool) => (x.1, c.expected (w.take c.size) :: x.2)))
    rw [List.take_append_drop] at this
    exact this

theorem readBits_safe (n : Nat) : Safe (readBits n) := by
  unfold readBits
  refine (decodeOctetStringNoLength_safe _).bind (fun a => ?_) (fun a => ⟨a, by simp⟩)
  by_cases h : n % 8 > 0
  · simp only [true_and, h, if_true]
    refine (readPartialByte_safe (by omega)).bind (fun b => ?_) (fun b => ⟨a, by simp⟩)
    simp only [if_true]
    exact Safe.pure _ _
  · simp only [h, and_false, if_false]
    exact Safe.pure _ _

theorem ReadCall.safe (c : ReadCall) (h : c.legal) : Safe c.run := by
  cases c with
  | bit => exact readBit_safe.map (h := fun r : Bool × Bool => (r.1, [r.2])) (fun _ h => h)
  | bits n => exact (readBits_safe n).map (h := fun r : Bool × List Byte => (r.1, bytesBits r.2)) (fun _ h => h)
  | byte => exact readByte_safe.map (h := fun r : Bool × Byte => (r.1, byteBits r.2)) (fun _ h => h)
  | partialByte n =>
    exact (readPartialByte_safe h.2).map (h := fun r : Bool × Byte => (r.1, byteBits r.2)) (fun _ h => h)
  | octets n =>
    exact (decodeOctetStringNoLength_safe n).map (h := fun r : Bool × List Byte => (r.1, bytesBits r.2)) (fun _ h => h)

theorem runReads_safe (rs : List ReadCall) : (∀ c ∈ rs, c.legal) → Safe (runReads rs) := by
  induction rs with
  | nil => intro _; exact Safe.pure _ _
  | cons c rs ih =>
    intro hl
    simp only [runReads]
    refine (c.safe (hl c (by simp))).bind (fun a => ?_) (fun a => ⟨[], by simp⟩)
    rw [if_pos rfl]
    exact (ih (fun c hc => hl c (by simp [hc]))).map (h := fun x : Bool × List (List Bool) => (x.1, a :: x.2)) (fun _ h => h)

end Asn1
