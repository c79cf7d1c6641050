import Verif.Proof.Oid
import Verif.Proof.RoundTrip
/-!
# C18: object identifiers

`o.values` is the 20-element array of the structure, of which the first `o.nCount` are the components.
-/
namespace Asn1

/-- `ObjectIdentifier_isValid` says: at least two components, the first at most 2, the second at most 39. -/
theorem C18_isValid (o : Oid) (h20 : o.values.length = 20) (s : BitStream) :
    oidIsValid o s = .ok (decide (2 ≤ o.nCount ∧ o.values[0].toNat ≤ 2 ∧ o.values[1].toNat ≤ 39), s) := by
  unfold oidIsValid
  by_cases h : o.nCount ≥ 2
  · rw [if_pos h, tblGet_pure (by omega), pure_bind, tblGet_pure (by omega), pure_bind, pure_run]
    congr 2
    simp only [BitVec.le_def, BitVec.toNat_ofNat, Nat.reduceMod, Nat.reducePow, Bool.decide_and]
    simp [show 2 ≤ o.nCount from h]
  · rw [if_neg h, pure_run]
    simp [show ¬ 2 ≤ o.nCount from h]

/-- C18: the encoder of object identifiers writes the length and the subidentifiers of X.690. -/
theorem C18_oid_encoding (o : Oid) (h20 : o.values.length = 20) (h2 : 2 ≤ o.nCount) (hn : o.nCount ≤ 20)
    (ha : o.values[0].toNat ≤ 2) (hb : o.values[1].toNat ≤ 39) :
    Appends (oidEncode o) () (oidCode (oidOctets (oidSubids ((o.values.take o.nCount).map BitVec.toNat)))) :=
  oidEncode_appends h20 h2 hn ha hb

/-- C18: every valid object identifier survives encoding and decoding: same number of components, same components,
the unused places 0. -/
theorem C18_oid_roundtrip (o : Oid) (h20 : o.values.length = 20) (h2 : 2 ≤ o.nCount) (hn : o.nCount ≤ 20)
    (ha : o.values[0].toNat ≤ 2) (hb : o.values[1].toNat ≤ 39) :
    RoundTrip (oidEncode o) () oidDecode ⟨o.nCount, o.values.take o.nCount ++ List.replicate (20 - o.nCount) 0#64⟩
      (oidCode (oidOctets (oidSubids ((o.values.take o.nCount).map BitVec.toNat)))).length ∧
    RejectsTruncated (oidEncode o) () oidDecode
      (oidCode (oidOctets (oidSubids ((o.values.take o.nCount).map BitVec.toNat)))).length := by
  refine ⟨?_, rejectsTruncated_of (oidEncode_appends h20 h2 hn ha hb) ?_⟩
  · have := roundTrip_of (oidEncode_appends h20 h2 hn ha hb) (dec := oidDecode)
      (v := ⟨o.nCount, o.values.take o.nCount ++ List.replicate (20 - o.nCount) 0#64⟩) ?_
    · exact this
    · obtain ⟨n, vs⟩ := o
      match vs, n, h2 with
      | a :: b :: t, n + 2, _ =>
        have := (oidDecode_reads (a := a) (b := b) (l := t.take n) ha hb (by simp only [List.length_cons] at h20; simp; omega)).1
        have hl : (t.take n).length = n := by simp only [List.length_cons] at h20 hn; simp; omega
        simp only [padOid, List.length_cons, hl] at this
        exact this
      | [], _, _ => simp at h20
      | [a], _, _ => simp at h20
  · obtain ⟨n, vs⟩ := o
    match vs, n, h2 with
    | a :: b :: t, n + 2, _ =>
      exact (oidDecode_reads (a := a) (b := b) (l := t.take n) ha hb (by simp only [List.length_cons] at h20; simp; omega)).2
    | [], _, _ => simp at h20
    | [a], _, _ => simp at h20

/-- The hypotheses are met by 1.3.6.1.18446744073709551615. -/
example : ∃ o : Oid, ∃ h20 : o.values.length = 20, 2 ≤ o.nCount ∧ o.nCount ≤ 20 ∧ o.values[0].toNat ≤ 2 ∧ o.values[1].toNat ≤ 39 ∧
    o.nCount = 5 ∧ o.values[4].toNat = 2 ^ 64 - 1 :=
  ⟨⟨5, [1#64, 3#64, 6#64, 1#64, 0xFFFFFFFFFFFFFFFF#64] ++ List.replicate 15 0#64⟩, rfl, by decide, by decide, by decide, by decide, rfl, rfl⟩

/-- C18: the encoder of relative object identifiers writes the length and the subidentifiers of X.690. -/
theorem C18_reloid_encoding (o : Oid) (h20 : o.values.length = 20) (hn : o.nCount ≤ 20) :
    Appends (relOidEncode o) () (oidCode (oidOctets ((o.values.take o.nCount).map BitVec.toNat))) :=
  relOidEncode_appends h20 hn

/-- C18: every relative object identifier survives encoding and decoding. -/
theorem C18_reloid_roundtrip (o : Oid) (h20 : o.values.length = 20) (hn : o.nCount ≤ 20) :
    RoundTrip (relOidEncode o) () relOidDecode ⟨o.nCount, o.values.take o.nCount ++ List.replicate (20 - o.nCount) 0#64⟩
      (oidCode (oidOctets ((o.values.take o.nCount).map BitVec.toNat))).length ∧
    RejectsTruncated (relOidEncode o) () relOidDecode
      (oidCode (oidOctets ((o.values.take o.nCount).map BitVec.toNat))).length := by
  have hl : (o.values.take o.nCount).length = o.nCount := by simp; omega
  obtain ⟨r, s⟩ := relOidDecode_reads (l := o.values.take o.nCount) (by omega)
  rw [padOid, hl] at r
  exact ⟨roundTrip_of (relOidEncode_appends h20 hn) r, rejectsTruncated_of (relOidEncode_appends h20 hn) s⟩

example : ∃ o : Oid, o.values.length = 20 ∧ o.nCount ≤ 20 ∧ o.nCount = 20 := ⟨⟨20, List.replicate 20 0xFFFFFFFFFFFFFFFF#64⟩, rfl, by decide, rfl⟩

/-- What the standard asks for, on a known case: 1.2.840 is sent as 2A 86 48. -/
example : oidOctets (oidSubids [1, 2, 840]) = [0x2A, 0x86, 0x48] := by
  simp [oidSubids, oidOctets, subidOctets, subidLead]

/-- C05 for object identifiers: the decoders are safe on every input, and what they accept has at most 20
components (so the array of the structure is never exceeded). -/
theorem C05_oid_decoders_safe :
    Safe oidDecode ∧ Post oidDecode (fun o => 2 ≤ o.nCount ∧ o.nCount ≤ 20 ∧ o.values.length = 20) ∧
    Safe relOidDecode ∧ Post relOidDecode (fun o => o.nCount ≤ 20 ∧ o.values.length = 20) := by
  have k2 : ∀ v rem, _ := fun v rem => oidDecodeLoop_safe (oidMaxLength + 1) rem
    ⟨2, (oidInit.values.set 0 (v / 40#64)).set 1 (v % 40#64)⟩ (by show 18 < 21; omega) ⟨by simp, by simp [oidInit, oidMaxLength]⟩
  have k0 : ∀ rem, _ := fun rem => oidDecodeLoop_safe (oidMaxLength + 1) rem oidInit (by decide) ⟨by simp [oidInit], by simp [oidInit, oidMaxLength]⟩
  refine ⟨?_, ?_, ?_, ?_⟩
  · refine oidDecodeLength_safe.bind (fun a => ?_) (fun a => ⟨_, by rw [if_neg (by simp)]⟩)
    rw [if_pos rfl]
    refine (subidDecode_safe _ _).bind (fun a => ?_) (fun a => ⟨_, by rw [if_neg (by simp)]⟩)
    rw [if_pos rfl]
    refine (k2 _ _).1.bind (fun a => ?_) (fun a => ⟨_, by rw [if_neg (by simp)]⟩)
    rw [if_pos rfl]
    exact Safe.pure _ _
  · refine Post.bind (fun p => Post.ite (fun _ => ?_) (fun _ => Post.false))
    refine Post.bind (fun p => Post.ite (fun _ => ?_) (fun _ => Post.false))
    refine (k2 _ _).2.bind' (fun a ha => ?_) (fun a => by rw [if_neg (by simp)]; exact Post.false)
    rw [if_pos rfl]
    exact Post.pure (fun _ => ⟨ha.2, ha.1.1, ha.1.2⟩)
  · refine oidDecodeLength_safe.bind (fun a => ?_) (fun a => ⟨_, by rw [if_neg (by simp)]⟩)
    rw [if_pos rfl]
    refine (k0 _).1.bind (fun a => ?_) (fun a => ⟨_, by rw [if_neg (by simp)]⟩)
    rw [if_pos rfl]
    exact Safe.pure _ _
  · refine Post.bind (fun p => Post.ite (fun _ => ?_) (fun _ => Post.false))
    refine (k0 _).2.bind' (fun a ha => ?_) (fun a => by rw [if_neg (by simp)]; exact Post.false)
    rw [if_pos rfl]
    exact Post.pure (fun _ => ⟨ha.1.1, ha.1.2⟩)

/-! ## C43: what the object identifier decoder accepts is a valid object identifier -/

/-- A reader positioned at the start of the given bytes. -/
def readerOf (l : List Byte) : BitStream := ⟨l, l.length, 0, 0⟩

/-- The code violates C43: the octets `02 88 37`, which X.690 assigns to 2.999, decode to the components 26.39,
which `ObjectIdentifier_isValid` rejects. (X.690 allows any second component below 2; the decoder splits every
first subidentifier by 40.) -/
theorem C43_violation_invalid_accepted : ∃ o s,
    oidDecode (readerOf [0x02#8, 0x88#8, 0x37#8]) = .ok ((true, o), s) ∧
    o.values.take o.nCount = [26#64, 39#64] ∧ oidIsValid o s = .ok (false, s) ∧
    oidOctets (oidSubids [2, 999]) = [0x88, 0x37] := by
  refine ⟨⟨2, 26#64 :: 39#64 :: List.replicate 18 0#64⟩, ⟨[0x02#8, 0x88#8, 0x37#8], 3, 3, 0⟩, rfl, rfl, rfl, ?_⟩
  simp [oidSubids, oidOctets, subidOctets, subidLead]

/-- The code violates C43 in a second way: the message `01 86`, whose only subidentifier is not finished (the
continuation bit is set in its last octet), is accepted. -/
theorem C43_violation_unfinished_accepted : ∃ o s,
    oidDecode (readerOf [0x01#8, 0x86#8]) = .ok ((true, o), s) ∧ o.values.take o.nCount = [0#64, 6#64] :=
  ⟨⟨2, 0#64 :: 6#64 :: List.replicate 18 0#64⟩, ⟨[0x01#8, 0x86#8], 2, 2, 0⟩, rfl, rfl⟩

/-- C43, the part that holds: an accepted object identifier has 2 to 20 components and the second is at most 39.
Missing: the bound 2 on the first component, see `C43_violation_invalid_accepted`. -/
theorem C43_oid_accepted_partial :
    Post oidDecode (fun o => 2 ≤ o.nCount ∧ o.nCount ≤ 20 ∧ ∃ h : o.values.length = 20, o.values[1].toNat ≤ 39) := by
  have hset : ∀ (vs : List U64) (n : Nat) (v : U64), 2 ≤ n → vs.length = 20 → (∃ h : vs.length = 20, vs[1].toNat ≤ 39) →
      ∃ h : (vs.set n v).length = 20, (vs.set n v)[1].toNat ≤ 39 := by
    intro vs n v hn h ⟨h', hv⟩
    refine ⟨by simpa using h, ?_⟩
    rw [List.getElem_set_ne (by omega)]; exact hv
  have loop : ∀ (fuel rem : Nat) (o : Oid), 2 ≤ o.nCount → o.nCount ≤ 20 → (∃ h : o.values.length = 20, o.values[1].toNat ≤ 39) →
      Post (oidDecodeLoop fuel rem o) (fun r => 2 ≤ r.2.nCount ∧ r.2.nCount ≤ 20 ∧ ∃ h : r.2.values.length = 20, r.2.values[1].toNat ≤ 39) := by
    intro fuel
    induction fuel with
    | zero => intro rem o _ _ _ s a s' h; simp [oidDecodeLoop, mUb] at h
    | succ fuel ih =>
      intro rem o h2 h20 hv
      simp only [oidDecodeLoop]
      refine Post.ite (fun h => ?_) (fun _ => Post.pure (fun _ => ⟨h2, h20, hv⟩))
      refine Post.bind (fun p => Post.ite (fun _ => ?_) (fun _ => Post.false))
      have hlt : o.nCount < 20 := h.2
      rw [oidPush_ok hlt hv.1, pure_bind]
      exact ih _ _ (by show 2 ≤ o.nCount + 1; omega) (by show o.nCount + 1 ≤ 20; omega) (hset _ _ _ h2 hv.1 hv)
  refine Post.bind (fun p => Post.ite (fun _ => ?_) (fun _ => Post.false))
  refine Post.bind (fun q => Post.ite (fun _ => ?_) (fun _ => Post.false))
  refine (loop _ _ _ (by simp) (by simp) ⟨by simp [oidInit, oidMaxLength], ?_⟩).bind' (fun a ha => ?_) (fun a => by rw [if_neg (by simp)]; exact Post.false)
  · simp only [List.getElem_set_self, BitVec.toNat_umod]
    rw [show (40#64).toNat = 40 from rfl]
    omega
  · rw [if_pos rfl]
    exact Post.pure (fun _ => ha)

end Asn1
