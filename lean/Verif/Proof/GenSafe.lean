import Verif.Proof.GenTy
/-! Generated decoders on arbitrary input. -/
namespace Asn1

theorem decU_safe {w : Nat} {f : M (Bool × BitVec w)} (h : Safe f) : Safe (decU f) :=
  h.map (h := fun r : Bool × BitVec w => (r.1, (r.2.toNat : Int))) (fun _ h => h)

theorem decodeSemiConstraintWholeNumber_safe0 : Safe (decodeSemiConstraintWholeNumber 0) := by
  unfold decodeSemiConstraintWholeNumber
  refine lengthOctet_safe.bind (fun a => ?_) (fun a => ⟨0, by rw [if_neg (by simp)]⟩)
  rw [if_pos rfl]
  refine Safe.ite (fun _ => Safe.pure _ _) (fun _ => ?_)
  refine (decodeBytesLoop_safe _ _).bind (fun a => ?_) (fun a => ⟨_, by rw [if_neg (by simp)]⟩)
  rw [if_pos rfl]
  rw [chk_ok (by have h1 := a.toInt_lt; have h2 := a.le_toInt; simp only at *; omega), pure_bind]
  exact Safe.pure _ _

theorem decInt_safe {w : Nat} {r : Rng} {ext : Bool} (hok : r.ok w ext) (hg : ∀ a, r = .posInf a → if ext then a = 0 else 0 ≤ a) :
    Safe (decInt w r ext) := by
  cases r with
  | full => exact decodeUnConstraintWholeNumber_safe
  | negInf b => exact decodeUnConstraintWholeNumber_safe
  | posInf a =>
    simp only [decInt]
    have := hg a rfl
    cases ext with
    | true =>
      rw [if_pos rfl] at this
      subst this
      simp only [Bool.not_true, Bool.and_false, Bool.false_eq_true, if_false]
      exact decodeSemiConstraintWholeNumber_safe0
    | false =>
      rw [if_neg (by simp)] at this
      rw [if_pos (by simp [this])]
      exact decU_safe (decodeSemiConstraintPosWholeNumber_safe _)
  | concrete a b =>
    simp only [decInt]
    simp only [Rng.ok] at hok
    refine Safe.ite (fun _ => Safe.pure _ _) (fun hab => ?_)
    by_cases h : 0 ≤ a ∧ ext = false
    · rw [if_pos h] at hok
      rw [if_pos (by simp [Rng.unsigned, h.1, h.2])]
      have hw : w ≤ 64 := by omega
      have hb : b < 2 ^ 64 := by
        rcases hok.2.1 with h | h | h | h <;> subst h <;> omega
      have e1 := ofInt_toNat (x := a) (by omega) (by omega)
      have e2 := ofInt_toNat (x := b) (by omega) (by omega)
      have hle : BitVec.ofInt 64 a ≤ BitVec.ofInt 64 b := by rw [BitVec.le_def, e1, e2]; omega
      refine Safe.ite (fun _ => decU_safe (decodeConstraintPosWholeNumber_safe hle)) (fun _ => ?_)
      unfold decodeConstraintPosWholeNumberNarrow
      rw [setWidth_ofInt hw h.1 (by omega), setWidth_ofInt hw (by omega) hok.2.2]
      exact decU_safe ((decodeConstraintPosWholeNumber_safe hle).map (h := fun r : Bool × U64 => (r.1, r.2.setWidth w)) (fun _ h => h))
    · rw [if_neg h] at hok
      rw [if_neg (by simpa [Rng.unsigned] using h)]
      obtain ⟨k1, k2, k3, k4, k5⟩ := hok
      have hr : -(2 ^ 63) ≤ a ∧ b < 2 ^ 63 := by
        rcases k2 with h | h | h | h <;> subst h <;> omega
      have := decodeConstraintWholeNumber_safe k1 k5 hr.1 hr.2
      refine Safe.ite (fun _ => this) (fun _ => ?_)
      exact this.map (h := fun r : Bool × Int => (r.1, (BitVec.ofInt w r.2).toInt)) (fun _ h => h)

theorem decIntExt_safe {root : Rng} (hok : root.ok 64 true) (hg : ∀ a, root = .posInf a → a = 0) : Safe (decIntExt root) := by
  unfold decIntExt
  refine readBit_safe.bind (fun a => ?_) (fun a => ⟨0, by rw [if_neg (by simp)]⟩)
  rw [if_pos rfl]
  exact Safe.ite (fun _ => decodeUnConstraintWholeNumber_safe) (fun _ => decInt_safe hok (fun a h => by simpa using hg a h))

theorem decEnum_safe {items valid : List Int} {table : Option (List Int)} (hok : Ok (.enum items valid table)) (h1 : 1 ≤ items.length) :
    Safe (decEnum items table) := by
  simp only [Ok] at hok
  obtain ⟨hn, hlt, hsub, ht⟩ := hok
  unfold decEnum
  have hs := decodeConstraintWholeNumber_safe (lo := 0) (hi := (items.length : Int) - 1) (by omega) (by omega) (by omega) (by omega)
  cases table with
  | none =>
    refine hs.bind (fun a => ?_) (fun a => ⟨items.headD 0, by simp⟩)
    simp only [if_true]
    cases items[a.toNat]? <;> exact Safe.pure _ _
  | some allowed =>
    refine hs.bind (fun a => ?_) (fun a => ⟨items.headD 0, by simp⟩)
    simp only
    refine Safe.ite (fun h => ?_) (fun _ => Safe.pure _ _)
    have hl : (enumTable allowed).length = items.length := by
      unfold enumTable
      rw [List.length_mergeSort]
      exact (ht allowed rfl).length_eq
    have hb := h.2
    rw [tblGet_ok (List.getElem?_eq_getElem (by rw [hl]; omega)), pure_bind]
    exact Safe.pure _ _

theorem fragAnyDecode_safe {σ : Type} {blkF blkV : (off n : Nat) → σ → M (Bool × σ)} {lo hi : Nat} {st : σ}
    (hF : lo = hi → Safe (fixFragDecode blkF lo st)) (hV : ∀ off n st, Safe (blkV off n st)) : Safe (fragAnyDecode blkF blkV lo hi st) := by
  unfold fragAnyDecode
  refine Safe.ite hF (fun _ => ?_)
  exact (genFragDecode_safe (I := fun _ _ => True) (fun off n st _ _ _ => ⟨hV off n st, fun _ _ _ _ => trivial⟩) trivial).1

/-! fixed sizes, when the blocks are safe -/

theorem fix64Decode_safe {σ : Type} {blk : (off n : Nat) → σ → M (Bool × σ)} (hb : ∀ off n st, Safe (blk off n st)) (k : Nat) :
    ∀ off st, Safe (fix64Decode blk k off st) := by
  induction k with
  | zero => intro off st; exact Safe.pure _ _
  | succ k ih =>
    intro off st
    simp only [fix64Decode]
    refine lengthOctet_safe.bind (fun q => ?_) (fun q => ⟨(off, st), by rw [if_neg (by simp)]⟩)
    refine Safe.ite (fun _ => ?_) (fun _ => Safe.pure _ _)
    refine (hb _ _ _).bind (fun p => ?_) (fun p => ⟨_, by rw [if_neg (by simp)]⟩)
    rw [if_pos rfl]
    exact ih _ _

theorem fixRemDecode_safe {σ : Type} {blk : (off n : Nat) → σ → M (Bool × σ)} (hb : ∀ off n st, Safe (blk off n st)) (rem off : Nat) (st : σ) :
    Safe (fixRemDecode blk rem off st) := by
  unfold fixRemDecode
  by_cases h : rem ≤ 127
  · rw [if_pos h, bind_assoc]
    refine lengthOctet_safe.bind (fun q => ?_) (fun q => ⟨st, by simp⟩)
    rw [pure_bind]
    exact Safe.ite (fun _ => hb _ _ _) (fun _ => Safe.pure _ _)
  · rw [if_neg h, bind_assoc]
    refine (decodeConstraintWholeNumber_safe (lo := 0) (hi := 0xFFFF) (by omega) (by omega) (by omega) (by omega)).bind
      (fun q => ?_) (fun q => ⟨st, by simp⟩)
    rw [pure_bind]
    exact Safe.ite (fun _ => hb _ _ _) (fun _ => Safe.pure _ _)

theorem fixRestDecode_safe {σ : Type} {blk : (off n : Nat) → σ → M (Bool × σ)} (hb : ∀ off n st, Safe (blk off n st)) (rem : Nat)
    (parts : List (Nat × Int)) : ∀ off st, Safe (fixRestDecode blk rem parts off st) := by
  induction parts with
  | nil =>
    intro off st
    simp only [fixRestDecode]
    exact Safe.ite (fun _ => fixRemDecode_safe hb _ _ _) (fun _ => Safe.pure _ _)
  | cons p parts ih =>
    intro off st
    obtain ⟨sz, id⟩ := p
    simp only [fixRestDecode]
    refine lengthOctet_safe.bind (fun q => ?_) (fun q => ⟨st, by rw [if_neg (by simp)]⟩)
    refine Safe.ite (fun _ => ?_) (fun _ => Safe.pure _ _)
    refine (hb _ _ _).bind (fun p => ?_) (fun p => ⟨_, by rw [if_neg (by simp)]⟩)
    rw [if_pos rfl]
    exact ih _ _

theorem fixFragDecode_safe {σ : Type} {blk : (off n : Nat) → σ → M (Bool × σ)} (hb : ∀ off n st, Safe (blk off n st)) (size : Nat) (st : σ) :
    Safe (fixFragDecode blk size st) := by
  unfold fixFragDecode
  refine (fix64Decode_safe hb _ _ _).bind (fun p => ?_) (fun p => ⟨_, by rw [if_neg (by simp)]⟩)
  rw [if_pos rfl]
  exact fixRestDecode_safe hb _ _ _ _

theorem decOctets_safe {lo hi : Nat} (h : lo ≤ hi) : Safe (decOctets lo hi) := by
  unfold decOctets
  refine Safe.ite (fun hs => Safe.ite (fun _ => decodeOctetStringNoLength_safe lo) (fun _ => octVar_safe h hs)) (fun _ => ?_)
  exact fragAnyDecode_safe (fun _ => fixFragDecode_safe (fun _ n acc => readByteLoop_safe n acc) _ _)
    (fun _ n acc => decLoop_safe readByte_safe n acc)

theorem decBits_safe {lo hi : Nat} (h : lo ≤ hi) : Safe (decBits lo hi) := by
  unfold decBits
  refine Safe.ite (fun hs => Safe.ite (fun _ => ?_) (fun _ => ?_)) (fun _ => ?_)
  · exact (readBits_safe lo).map (h := fun p : Bool × List Byte => (p.1, (lo, p.2))) (fun _ h => h)
  · refine (decodeConstraintWholeNumber_safe (lo := (lo : Int)) (hi := (hi : Int)) (by omega) (by omega) (by omega) (by omega)).bind
      (fun q => ?_) (fun q => ⟨(0, []), by rw [if_neg (by simp)]⟩)
    rw [if_pos rfl]
    exact (readBits_safe _).map (h := fun p : Bool × List Byte => (p.1, (q.toNat, p.2))) (fun _ h => h)
  · have hb : ∀ (off n : Nat) (st : Nat × List Byte), Safe ((fun (_ n : Nat) (st : Nat × List Byte) => do
        let p ← readBits n
        pure (p.1, (st.1 + n, st.2 ++ p.2))) off n st) := fun off n st =>
      (readBits_safe n).map (h := fun p : Bool × List Byte => (p.1, (st.1 + n, st.2 ++ p.2))) (fun _ h => h)
    exact fragAnyDecode_safe (fun _ => fixFragDecode_safe hb _ _) hb

theorem decSeqOf_safe {α : Type} {item : M (Bool × α)} {lo hi : Nat} (hs : Safe item) (h : lo ≤ hi) (hg : ¬ (lo = hi ∧ 65536 ≤ hi)) :
    Safe (decSeqOf item lo hi) := by
  unfold decSeqOf
  refine Safe.ite (fun hlt => Safe.ite (fun _ => decLoop_safe hs _ _) (fun _ => ?_)) (fun hlt => ?_)
  · refine (decodeConstraintWholeNumber_safe (lo := (lo : Int)) (hi := (hi : Int)) (by omega) (by omega) (by omega) (by omega)).bind
      (fun q => ?_) (fun q => ⟨[], by rw [if_neg (by simp)]⟩)
    rw [if_pos rfl]
    exact decLoop_safe hs _ _
  · exact fragAnyDecode_safe (fun e => absurd ⟨e, by omega⟩ hg) (fun _ n acc => decLoop_safe hs n acc)

theorem decStr_safe {alphabet : List Byte} {lo hi : Nat} (hok : Ok (.str alphabet lo hi)) (hg : ¬ (lo = hi ∧ 65536 ≤ hi)) :
    Safe (decStr alphabet lo hi) := by
  simp only [Ok] at hok
  rw [decStr_eq]
  exact (decSeqOf_safe (decChar_safe hok.2.1 (by omega)) hok.1 hg).map
    (h := fun p : Bool × List Byte => (p.1, p.2.takeWhile (· ≠ 0#8))) (fun _ h => h)

theorem oidDecode_safe : Safe oidDecode := by
  have k2 : ∀ v rem, _ := fun v rem => oidDecodeLoop_safe (oidMaxLength + 1) rem
    ⟨2, (oidInit.values.set 0 (v / 40#64)).set 1 (v % 40#64)⟩ (by show 18 < 21; omega) ⟨by simp, by simp [oidInit, oidMaxLength]⟩
  refine oidDecodeLength_safe.bind (fun a => ?_) (fun a => ⟨_, by rw [if_neg (by simp)]⟩)
  rw [if_pos rfl]
  refine (subidDecode_safe _ _).bind (fun a => ?_) (fun a => ⟨_, by rw [if_neg (by simp)]⟩)
  rw [if_pos rfl]
  refine (k2 _ _).1.bind (fun a => ?_) (fun a => ⟨_, by rw [if_neg (by simp)]⟩)
  rw [if_pos rfl]
  exact Safe.pure _ _

theorem relOidDecode_safe : Safe relOidDecode := by
  have k0 : ∀ rem, _ := fun rem => oidDecodeLoop_safe (oidMaxLength + 1) rem oidInit (by decide) ⟨by simp [oidInit], by simp [oidInit, oidMaxLength]⟩
  refine oidDecodeLength_safe.bind (fun a => ?_) (fun a => ⟨_, by rw [if_neg (by simp)]⟩)
  rw [if_pos rfl]
  refine (k0 _).1.bind (fun a => ?_) (fun a => ⟨_, by rw [if_neg (by simp)]⟩)
  rw [if_pos rfl]
  exact Safe.pure _ _

/-- Number of components. -/
def Fields.length : Fields → Nat
  | .nil => 0
  | .cons _ _ r => r.length + 1

theorem decPresence_safe : ∀ fs : Fields, Safe (decPresence fs) ∧ Post (decPresence fs) (fun es => es.length = fs.length)
  | .nil => ⟨Safe.pure _ _, Post.pure (fun _ => rfl)⟩
  | .cons o t rest => by
    obtain ⟨s, p⟩ := decPresence_safe rest
    have hs : Safe (do
        let b ← readBit
        if b.1 then do
          let p ← decPresence rest
          pure (p.1, b.2 :: p.2)
        else pure (false, [])) := by
      refine readBit_safe.bind (fun b => ?_) (fun b => ⟨[], by rw [if_neg (by simp)]⟩)
      rw [if_pos rfl]
      exact s.map (h := fun p : Bool × List Bool => (p.1, b :: p.2)) (fun _ h => h)
    have hp : ∀ (f : M (Bool × Bool)), Post (f >>= fun b => if b.1 then do
          let p ← decPresence rest
          pure (p.1, b.2 :: p.2)
        else pure (false, [])) (fun es => es.length = rest.length + 1) := by
      intro f
      refine Post.bind (fun b => Post.ite (fun _ => ?_) (fun _ => Post.false))
      refine p.bind' (fun a ha => Post.pure (fun _ => by simp [ha])) (fun _ => Post.false)
    cases o <;> simp only [decPresence, Fields.length]
    · refine ⟨?_, hp _⟩
      rw [pure_bind, if_pos rfl]
      exact s.map (h := fun p : Bool × List Bool => (p.1, true :: p.2)) (fun _ h => h)
    all_goals exact ⟨hs, hp _⟩

mutual
theorem decTy_safe : ∀ t : Ty, Ok t → Guarded t → Safe (decTy t)
  | .int w r, hok, hg => by
    simp only [Ok, Guarded] at hok hg
    simp only [decTy]
    exact (decInt_safe hok (fun a h => by simpa using hg a h)).map (h := fun p : Bool × Int => (p.1, Val.int p.2)) (fun _ h => h)
  | .intExt root _ _, hok, hg => by
    simp only [Ok, Guarded] at hok hg
    simp only [decTy]
    exact (decIntExt_safe hok.1 hg).map (h := fun p : Bool × Int => (p.1, Val.int p.2)) (fun _ h => h)
  | .bool, _, _ => by
    simp only [decTy]
    exact readBit_safe.map (h := fun p : Bool × Bool => (p.1, Val.bool p.2)) (fun _ h => h)
  | .null, _, _ => by simp only [decTy]; exact Safe.pure _ _
  | .enum _ _ _, hok, hg => by
    simp only [Guarded] at hg
    simp only [decTy]
    exact (decEnum_safe hok hg).map (h := fun p : Bool × Int => (p.1, Val.enum p.2)) (fun _ h => h)
  | .octets _ _, hok, _ => by
    simp only [Ok] at hok
    simp only [decTy]
    exact (decOctets_safe hok).map (h := fun p : Bool × List Byte => (p.1, Val.octets p.2)) (fun _ h => h)
  | .bits _ _ _ _, hok, _ => by
    simp only [Ok] at hok
    simp only [decTy]
    exact (decBits_safe hok).map (h := fun p : Bool × (Nat × List Byte) => (p.1, Val.bits p.2.1 p.2.2)) (fun _ h => h)
  | .str _ _ _, hok, hg => by
    simp only [Guarded] at hg
    simp only [decTy]
    exact (decStr_safe hok hg).map (h := fun p : Bool × List Byte => (p.1, Val.str p.2)) (fun _ h => h)
  | .oid, _, _ => by
    simp only [decTy]
    exact oidDecode_safe.map (h := fun p : Bool × Oid => (p.1, Val.oid p.2)) (fun _ h => h)
  | .relOid, _, _ => by
    simp only [decTy]
    exact relOidDecode_safe.map (h := fun p : Bool × Oid => (p.1, Val.oid p.2)) (fun _ h => h)
  | .real _, _, hg => by simp only [Guarded] at hg
  | .seq fs, hok, hg => by
    simp only [Ok, Guarded] at hok hg
    simp only [decTy]
    obtain ⟨s, p⟩ := decPresence_safe fs
    refine s.bindP p (fun es hes => ?_) (fun b => ⟨.seq [], by rw [if_neg (by simp)]⟩)
    rw [if_pos rfl]
    exact (decFields_safe fs es hes hok hg).map (h := fun p : Bool × List (Bool × Val) => (p.1, Val.seq p.2)) (fun _ h => h)
  | .seqOf _ _ t, hok, hg => by
    simp only [Ok, Guarded] at hok hg
    simp only [decTy]
    exact (decSeqOf_safe (decTy_safe t hok.2 hg.2) hok.1 hg.1).map (h := fun p : Bool × List Val => (p.1, Val.seqOf p.2)) (fun _ h => h)
  | .choice alts, hok, hg => by
    simp only [Ok, Guarded] at hok hg
    simp only [decTy]
    refine (decodeConstraintWholeNumber_safe (lo := 0) (hi := (alts.length : Int) - 1) (by omega) (by omega) (by omega) (by omega)).bind
      (fun q => ?_) (fun q => ⟨.choice 0 .null, by rw [if_neg (by simp)]⟩)
    rw [if_pos rfl]
    exact (decAlt_safe alts q.toNat hok.2.2 hg).map (h := fun p : Bool × Val => (p.1, Val.choice q.toNat p.2)) (fun _ h => h)
  | .ref t, hok, hg => by
    simp only [Ok, Guarded] at hok hg
    simp only [decTy]
    exact (decTy_safe t hok hg).map (h := fun p : Bool × Val => (p.1 && isValid t p.2, p.2)) (fun p h => by simp at h; exact h.1)
theorem decFields_safe : ∀ (fs : Fields) (es : List Bool), es.length = fs.length → OkFields fs → GuardedFields fs → Safe (decFields fs es)
  | .nil, _, _, _, _ => by simp only [decFields]; exact Safe.pure _ _
  | .cons _ _ _, [], h, _, _ => by simp [Fields.length] at h
  | .cons o t rest, e :: es, h, hok, hg => by
    simp only [OkFields, GuardedFields] at hok hg
    simp only [Fields.length, List.length_cons] at h
    have hr := decFields_safe rest es (by omega) hok.2 hg.2
    have ht := decTy_safe t hok.1 hg.1
    simp only [decFields]
    refine Safe.bind ?_ (fun a => ?_) (fun a => ⟨[], by rw [if_neg (by simp)]⟩)
    · refine Safe.ite (fun _ => ht) (fun _ => ?_)
      cases o <;> exact Safe.pure _ _
    · rw [if_pos rfl]
      exact hr.map (h := fun q : Bool × List (Bool × Val) => (q.1, (e, a) :: q.2)) (fun _ h => h)
theorem decAlt_safe : ∀ (alts : Alts) (i : Nat), OkAlts alts → GuardedAlts alts → Safe (decAlt alts i)
  | .nil, _, _, _ => by simp only [decAlt]; exact Safe.pure _ _
  | .cons t _, 0, hok, hg => by
    simp only [OkAlts, GuardedAlts] at hok hg
    simp only [decAlt]; exact decTy_safe t hok.1 hg.1
  | .cons _ rest, i + 1, hok, hg => by
    simp only [OkAlts, GuardedAlts] at hok hg
    simp only [decAlt]; exact decAlt_safe rest i hok.2 hg.2
end

end Asn1
