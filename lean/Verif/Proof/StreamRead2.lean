import Verif.Proof.StreamRead
import Verif.Proof.Int4
/-! The integer decoders in the streaming build. -/
namespace Asn1

theorem RProg.run_bind {α β : Type} (p : RProg α) (f : α → RProg β) : (p >>= f).run = p.run >>= fun a => (f a).run := by
  induction p with
  | done a => rfl
  | ub => rfl
  | abort => rfl
  | op o k ih =>
    show (RProg.op o fun b => (k b).bind f).run = _
    simp only [RProg.run, bind_assoc]
    exact congrArg (o.run >>= ·) (funext fun b => ih b)

theorem RProg.run_pure {α : Type} (a : α) : (pure a : RProg α).run = pure a := rfl
theorem RProg.run_ub {α : Type} : (RProg.ub : RProg α).run = mUb := rfl

theorem RProg.run_ite {α : Type} {c : Prop} [Decidable c] (p q : RProg α) : (if c then p else q).run = if c then p.run else q.run := by
  split <;> rfl

theorem RProg.byte_run : RProg.byte.run = readByte := by
  unfold RProg.byte; simp only [RProg.run, ROp.run]; exact bind_pure _
theorem RProg.bit_run : RProg.bit.run = readBit := by
  unfold RProg.bit; simp only [RProg.run, ROp.run]; exact bind_pure _
theorem RProg.peek_run : RProg.peek.run = peekBit := by
  unfold RProg.peek; simp only [RProg.run, ROp.run]; exact bind_pure _
theorem RProg.part_run (n : Nat) : (RProg.part n).run = readPartialByte n := by
  unfold RProg.part; simp only [RProg.run, ROp.run]; exact bind_pure _
theorem RProg.octets_run (n : Nat) : (RProg.octets n).run = decodeOctetStringNoLength n := by
  unfold RProg.octets; simp only [RProg.run, ROp.run]; exact bind_pure _
theorem RProg.assertC_run (c : Bool) : (RProg.assertC c).run = Asn1.assertC c := by
  cases c <;> rfl
theorem RProg.chk_run (x : Int) : (RProg.chk x).run = Asn1.chk x := by
  unfold RProg.chk Asn1.chk; split <;> rfl

namespace Src

theorem decodeNN32Bytes_run (k : Nat) : ∀ v, (decodeNN32Bytes k v).run = Asn1.decodeNN32Bytes k v := by
  induction k with
  | zero => intro v; rfl
  | succ k ih =>
    intro v
    simp only [decodeNN32Bytes, Asn1.decodeNN32Bytes, RProg.run_bind, RProg.byte_run, RProg.run_ite, RProg.run_pure, ih]

theorem decodeNonNegativeInteger32Neg_run (n : Nat) :
    (decodeNonNegativeInteger32Neg n).run = Asn1.decodeNonNegativeInteger32Neg n := by
  simp only [decodeNonNegativeInteger32Neg, Asn1.decodeNonNegativeInteger32Neg, RProg.run_bind, RProg.part_run, RProg.run_ite,
    RProg.run_pure, decodeNN32Bytes_run]

theorem decodeNonNegativeInteger_run (n : Nat) : (decodeNonNegativeInteger n).run = Asn1.decodeNonNegativeInteger n := by
  simp only [decodeNonNegativeInteger, Asn1.decodeNonNegativeInteger, RProg.run_bind, RProg.run_ite,
    RProg.run_pure, RProg.run_ub, decodeNonNegativeInteger32Neg_run]

theorem decodeConstraintWholeNumber_run (lo hi : Int) :
    (decodeConstraintWholeNumber lo hi).run = Asn1.decodeConstraintWholeNumber lo hi := by
  simp only [decodeConstraintWholeNumber, Asn1.decodeConstraintWholeNumber, RProg.run_bind, RProg.run_ite,
    RProg.run_pure, RProg.chk_run, RProg.assertC_run, decodeNonNegativeInteger_run]

theorem decodeConstraintPosWholeNumber_run (lo hi : U64) :
    (decodeConstraintPosWholeNumber lo hi).run = Asn1.decodeConstraintPosWholeNumber lo hi := by
  simp only [decodeConstraintPosWholeNumber, Asn1.decodeConstraintPosWholeNumber, RProg.run_bind, RProg.run_ite,
    RProg.run_pure, RProg.assertC_run, decodeNonNegativeInteger_run]

theorem decodeBytesLoop_run (k : Nat) : ∀ v, (decodeBytesLoop k v).run = Asn1.decodeBytesLoop k v := by
  induction k with
  | zero => intro v; rfl
  | succ k ih =>
    intro v
    simp only [decodeBytesLoop, Asn1.decodeBytesLoop, RProg.run_bind, RProg.byte_run, RProg.run_ite, RProg.run_pure, ih]

theorem decodeSemiConstraintWholeNumber_run (lo : Int) :
    (decodeSemiConstraintWholeNumber lo).run = Asn1.decodeSemiConstraintWholeNumber lo := by
  simp only [decodeSemiConstraintWholeNumber, Asn1.decodeSemiConstraintWholeNumber, RProg.run_bind, RProg.run_ite,
    RProg.run_pure, RProg.chk_run, decodeConstraintWholeNumber_run, decodeBytesLoop_run]

theorem decodeSemiConstraintPosWholeNumber_run (lo : U64) :
    (decodeSemiConstraintPosWholeNumber lo).run = Asn1.decodeSemiConstraintPosWholeNumber lo := by
  simp only [decodeSemiConstraintPosWholeNumber, Asn1.decodeSemiConstraintPosWholeNumber, RProg.run_bind, RProg.run_ite,
    RProg.run_pure, decodeConstraintWholeNumber_run, decodeBytesLoop_run]

theorem decodeUnConstraintWholeNumber_run : decodeUnConstraintWholeNumber.run = Asn1.decodeUnConstraintWholeNumber := by
  simp only [decodeUnConstraintWholeNumber, Asn1.decodeUnConstraintWholeNumber, RProg.run_bind, RProg.run_ite,
    RProg.run_pure, RProg.peek_run, decodeConstraintWholeNumber_run, decodeBytesLoop_run]

end Src

/-! ### Decoders that start at a byte boundary -/

theorem RProg.legal_bind {α β : Type} {n : Nat} (p : RProg α) (f : α → RProg β) : ∀ t, p.LegalOn n t →
    (∀ a t', p.run t = .ok (a, t') → (f a).LegalOn n t') → (p >>= f).LegalOn n t := by
  induction p with
  | done a => intro t _ h; exact h a t rfl
  | ub => intro t _ _; trivial
  | abort => intro t _ _; trivial
  | op o k ih =>
    intro t hl h
    show (RProg.op o fun b => (k b).bind f).LegalOn n t
    unfold RProg.LegalOn at hl ⊢
    refine ⟨hl.1, hl.2.1, ?_⟩
    cases hr : o.run t with
    | ok x =>
      obtain ⟨b, t'⟩ := x
      rw [hr] at hl
      refine ih b t' hl.2.2 fun a t'' ha => h a t'' ?_
      simp only [RProg.run]
      rw [bind_ok hr, ha]
    | ub => trivial
    | abort => trivial

theorem bind_ok_inv {α β : Type} {x : M α} {f : α → M β} {s : BitStream} {b : β} {s' : BitStream} (h : (x >>= f) s = .ok (b, s')) :
    ∃ a s1, x s = .ok (a, s1) ∧ f a s1 = .ok (b, s') := by
  rw [bind_def] at h
  cases hx : x s with
  | ok p => rw [hx] at h; exact ⟨p.1, p.2, rfl, h⟩
  | ub => rw [hx] at h; cases h
  | abort => rw [hx] at h; cases h

/-- At a byte boundary inside the message. -/
structure AtByte (t : BitStream) : Prop where
  bit : t.currentBit = 0
  cap : t.count ≤ t.buf.length
  le : t.currentByte ≤ t.count

/-- Started at a byte boundary, a successful run makes only legal calls; `b`: it ends at a byte boundary. -/
def Fine {α : Type} (n : Nat) (b : Bool) (p : RProg (Bool × α)) : Prop :=
  ∀ t r t', AtByte t → p.run t = .ok (r, t') → r.1 = true → p.LegalOn n t ∧ (b = true → AtByte t')

theorem Fine.pure {α : Type} (n : Nat) (b : Bool) (x : Bool × α) : Fine n b (pure x : RProg (Bool × α)) := by
  intro t r t' ht hr _
  have : t = t' := by cases hr; rfl
  exact ⟨trivial, fun _ => this ▸ ht⟩

theorem Fine.ub {α : Type} (n : Nat) (b : Bool) : Fine n b (RProg.ub : RProg (Bool × α)) := fun t r t' _ hr _ => by cases hr

theorem Fine.ite {α : Type} {n : Nat} {b : Bool} {c : Prop} [Decidable c] {p q : RProg (Bool × α)} (hp : c → Fine n b p)
    (hq : ¬ c → Fine n b q) : Fine n b (if c then p else q) := by
  split
  · exact hp ‹_›
  · exact hq ‹_›

theorem legal_op {n : Nat} {o : ROp} {t : BitStream} (h1 : o.LegalAt n t.pos) (h2 : t.pos + o.size ≤ 8 * t.count) :
    (RProg.op o .done).LegalOn n t := by
  unfold RProg.LegalOn
  refine ⟨h1, h2, ?_⟩
  cases o.run t with
  | ok x => unfold RProg.LegalOn; trivial
  | ub => trivial
  | abort => trivial

theorem Fine.byte (n : Nat) (b : Bool) : Fine n b RProg.byte := by
  intro t r t' ht hr h1
  rw [RProg.byte_run] at hr
  unfold readByte at hr
  rw [getS_bind] at hr
  have h0 := ht.bit
  rw [h0, if_neg (Nat.lt_irrefl 0)] at hr
  by_cases hc : t.currentByte < t.count
  · refine ⟨legal_op (Or.inl (by unfold BitStream.pos; omega)) (by show t.pos + 8 ≤ _; unfold BitStream.pos; omega), fun _ => ?_⟩
    rw [if_neg (by omega), bufGet_bind (by have := ht.cap; omega)] at hr
    have : t' = { t with currentByte := t.currentByte + 1 } := by cases hr; rfl
    subst this
    exact ⟨h0, ht.cap, hc⟩
  · rw [if_pos (by omega), pure_run] at hr
    cases hr
    cases h1

theorem Fine.part (n : Nat) {k : Nat} (h0 : 0 < k) (h8 : k < 8) : Fine n false (RProg.part k) := by
  intro t r t' ht hr h1
  rw [RProg.part_run] at hr
  refine ⟨legal_op ⟨h0, h8⟩ ?_, fun h => by cases h⟩
  obtain ⟨m, hm⟩ := masksb_some (b := k) (by omega)
  unfold readPartialByte at hr
  rw [getS_bind, ht.bit, if_pos (by omega)] at hr
  obtain ⟨b, s1, e1, hr2⟩ := bind_ok_inv hr
  clear hr
  have : s1 = t := by
    unfold bufGet at e1
    split at e1
    · cases e1; rfl
    · cases e1
  subst this
  rw [bind_ok (hm _), modS_bind, getS_bind, ht.bit, if_neg (by omega), pure_run] at hr2
  cases hr2
  have := of_decide_eq_true h1
  dsimp only at this
  show s1.pos + k ≤ _
  unfold BitStream.pos
  have := ht.bit
  omega

theorem Fine.bind {α β : Type} {n : Nat} {b : Bool} {p : RProg (Bool × α)} {f : Bool × α → RProg (Bool × β)} (hp : Fine n true p)
    (hf : ∀ a, Fine n b (f (true, a))) (hff : ∀ a t r t', (f (false, a)).run t = .ok (r, t') → r.1 = false) :
    Fine n b (p >>= f) := by
  intro t r t' ht hr h1
  rw [RProg.run_bind] at hr
  obtain ⟨x, t1, e1, e2⟩ := bind_ok_inv hr
  obtain ⟨x1, x2⟩ := x
  cases x1 with
  | false => rw [hff _ _ _ _ e2] at h1; cases h1
  | true =>
    obtain ⟨l1, l2⟩ := hp t _ _ ht e1 rfl
    obtain ⟨m1, m2⟩ := hf x2 t1 r t' (l2 rfl) e2 h1
    refine ⟨p.legal_bind f t l1 fun a t'' ha => ?_, m2⟩
    rw [e1] at ha
    cases ha
    exact m1

/-- A pure last step. -/
theorem Fine.last {α β : Type} {n : Nat} {b : Bool} {p : RProg (Bool × α)} {f : Bool × α → RProg (Bool × β)} (hp : Fine n b p)
    (hf : ∀ a t, (f (true, a)).LegalOn n t ∧ ∀ r t', (f (true, a)).run t = .ok (r, t') → t' = t)
    (hff : ∀ a t r t', (f (false, a)).run t = .ok (r, t') → r.1 = false) :
    Fine n b (p >>= f) := by
  intro t r t' ht hr h1
  rw [RProg.run_bind] at hr
  obtain ⟨x, t1, e1, e2⟩ := bind_ok_inv hr
  obtain ⟨x1, x2⟩ := x
  cases x1 with
  | false => rw [hff _ _ _ _ e2] at h1; cases h1
  | true =>
    obtain ⟨l1, l2⟩ := hp t _ _ ht e1 rfl
    refine ⟨p.legal_bind f t l1 fun a t'' ha => ?_, fun hb => ?_⟩
    · rw [e1] at ha
      cases ha
      exact (hf _ _).1
    · rw [(hf _ _).2 _ _ e2]; exact l2 hb

namespace Src

theorem pure_false {α : Type} {e : α} {t : BitStream} {r : Bool × α} {t' : BitStream}
    (h : (pure (false, e) : RProg (Bool × α)).run t = .ok (r, t')) : r.1 = false := by cases h; rfl

theorem decodeNN32Bytes_fine (n : Nat) (b : Bool) (k : Nat) : ∀ v, Fine n b (decodeNN32Bytes k v) := by
  induction k with
  | zero => intro v; exact Fine.pure _ _ _
  | succ k ih => intro v; exact (Fine.byte n true).bind (fun a => ih _) (fun a t r t' h => pure_false h)

theorem decodeBytesLoop_fine (n : Nat) (b : Bool) (k : Nat) : ∀ v, Fine n b (decodeBytesLoop k v) := by
  induction k with
  | zero => intro v; exact Fine.pure _ _ _
  | succ k ih => intro v; exact (Fine.byte n true).bind (fun a => ih _) (fun a t r t' h => pure_false h)

theorem decodeNonNegativeInteger32Neg_fine (n k : Nat) : Fine n (decide (k % 8 = 0)) (decodeNonNegativeInteger32Neg k) := by
  refine (decodeNN32Bytes_fine n true _ _).bind (fun a => ?_) (fun a t r t' h => pure_false h)
  show Fine n _ (if k % 8 ≠ 0 then _ else _)
  by_cases hk : k % 8 = 0
  · rw [if_neg (by omega)]; exact Fine.pure _ _ _
  · rw [if_pos hk, decide_eq_false hk]
    refine (Fine.part n (by omega) (by omega)).last (fun a t => ⟨trivial, fun r t' h => by cases h; rfl⟩) (fun a t r t' h => pure_false h)

theorem decodeNonNegativeInteger_fine (n k : Nat) : Fine n (decide (k % 8 = 0)) (decodeNonNegativeInteger k) := by
  refine Fine.ite (fun h => ?_) (fun h => ?_)
  · exact (decodeNonNegativeInteger32Neg_fine n k).last (fun a t => ⟨trivial, fun r t' h => by cases h; rfl⟩)
      (fun a t r t' h => pure_false h)
  · have h32 := decodeNonNegativeInteger32Neg_fine n 32
    refine h32.bind (fun a => ?_) (fun a t r t' h => ?_)
    · have hl := decodeNonNegativeInteger32Neg_fine n (k - 32)
      rw [show decide ((k - 32) % 8 = 0) = decide (k % 8 = 0) from decide_eq_decide.2 (by omega)] at hl
      refine hl.last (fun a t => ?_) (fun a t r t' h => ?_)
      · split
        · exact ⟨trivial, fun r t' h => by cases h; rfl⟩
        · exact ⟨trivial, fun r t' h => by cases h⟩
      · split at h
        · exact pure_false h
        · cases h
    · revert h
      show (if k - 32 < 64 then pure _ else RProg.ub : RProg (Bool × U64)).run t = _ → _
      intro h
      split at h
      · exact pure_false h
      · cases h

theorem chk_last {α : Type} {n : Nat} {x : Int} {g : Int → α} (t : BitStream) :
    (do let y ← RProg.chk x; pure (true, g y) : RProg (Bool × α)).LegalOn n t ∧
    ∀ r t', (do let y ← RProg.chk x; pure (true, g y) : RProg (Bool × α)).run t = .ok (r, t') → t' = t := by
  unfold RProg.chk
  split
  · exact ⟨trivial, fun r t' h => by cases h; rfl⟩
  · exact ⟨trivial, fun r t' h => by cases h⟩

theorem decodeConstraintWholeNumber_fine (n : Nat) (lo hi : Int) :
    Fine n (decide (getNumberOfBits (BitVec.ofInt 64 (hi - lo)) % 8 = 0)) (decodeConstraintWholeNumber lo hi) := by
  unfold decodeConstraintWholeNumber RProg.chk RProg.assertC
  by_cases h1 : inS64 (hi - lo) = true
  · rw [if_pos h1]
    by_cases h2 : decide (lo ≤ hi) = true
    · rw [if_pos h2]
      show Fine n _ (if BitVec.ofInt 64 (hi - lo) = 0#64 then _ else _)
      refine Fine.ite (fun _ => Fine.pure _ _ _) (fun _ => ?_)
      refine (decodeNonNegativeInteger_fine n _).last (fun a t => ?_) (fun a t r t' h => pure_false h)
      show (if a > BitVec.ofInt 64 (hi - lo) then _ else _ : RProg (Bool × Int)).LegalOn n t ∧
        ∀ r t', (if a > BitVec.ofInt 64 (hi - lo) then _ else _ : RProg (Bool × Int)).run t = _ → _
      by_cases h3 : a > BitVec.ofInt 64 (hi - lo)
      · rw [if_pos h3]; exact ⟨trivial, fun r t' h => by cases h; rfl⟩
      · rw [if_neg h3]; exact chk_last (g := id) t
    · rw [if_neg h2]; exact fun t r t' _ hr _ => by cases hr
  · rw [if_neg h1]; exact fun t r t' _ hr _ => by cases hr

theorem decodeConstraintPosWholeNumber_fine (n : Nat) (lo hi : U64) : Fine n false (decodeConstraintPosWholeNumber lo hi) := by
  unfold decodeConstraintPosWholeNumber RProg.assertC
  by_cases h2 : decide (lo ≤ hi) = true
  · rw [if_pos h2]
    show Fine n _ (if hi - lo = 0#64 then _ else _)
    refine Fine.ite (fun _ => Fine.pure _ _ _) (fun _ => ?_)
    have hf : Fine n false (decodeNonNegativeInteger (getNumberOfBits (hi - lo))) := fun t r t' h1 h2 h3 =>
      ⟨(decodeNonNegativeInteger_fine n _ t r t' h1 h2 h3).1, fun h => by cases h⟩
    refine hf.last (fun a t => ?_) (fun a t r t' h => pure_false h)
    show (if a > hi - lo then _ else _ : RProg (Bool × U64)).LegalOn n t ∧
      ∀ r t', (if a > hi - lo then _ else _ : RProg (Bool × U64)).run t = _ → _
    by_cases h3 : a > hi - lo
    · rw [if_pos h3]; exact ⟨trivial, fun r t' h => by cases h; rfl⟩
    · rw [if_neg h3]; exact ⟨trivial, fun r t' h => by cases h; rfl⟩
  · rw [if_neg h2]; exact fun t r t' _ hr _ => by cases hr

theorem lengthOctet_fine (n : Nat) : Fine n true (decodeConstraintWholeNumber 0 255) := by
  have := decodeConstraintWholeNumber_fine n 0 255
  rwa [show decide (getNumberOfBits (BitVec.ofInt 64 (255 - 0)) % 8 = 0) = true by decide +kernel] at this

theorem decodeSemiConstraintWholeNumber_fine (n : Nat) (lo : Int) : Fine n false (decodeSemiConstraintWholeNumber lo) := by
  refine (lengthOctet_fine n).bind (fun a => ?_) (fun a t r t' h => pure_false h)
  show Fine n false (if a > 8 then _ else _)
  refine Fine.ite (fun _ => Fine.pure _ _ _) (fun _ => ?_)
  exact (decodeBytesLoop_fine n false _ _).last (fun a t => chk_last (g := id) t) (fun a t r t' h => pure_false h)

theorem decodeSemiConstraintPosWholeNumber_fine (n : Nat) (lo : U64) : Fine n false (decodeSemiConstraintPosWholeNumber lo) := by
  refine (lengthOctet_fine n).bind (fun a => ?_) (fun a t r t' h => pure_false h)
  show Fine n false (if a > 8 then _ else _)
  refine Fine.ite (fun _ => Fine.pure _ _ _) (fun _ => ?_)
  exact (decodeBytesLoop_fine n false _ _).last (fun a t => ⟨trivial, fun r t' h => by cases h; rfl⟩) (fun a t r t' h => pure_false h)

theorem decodeUnConstraintWholeNumber_legal {n : Nat} {v : Int} (h1 : -(2 ^ 63) ≤ v) (h2 : v < 2 ^ 63) {t : BitStream}
    {rest : List Bool} (ht : AtByte t) (hd : DecSt t (lengthPrefixedInt v ++ rest)) :
    decodeUnConstraintWholeNumber.LegalOn n t := by
  have h8 := (octetsInt_le_iff v 8 (by omega)).2 (by omega)
  have hpos := octetsInt_pos v
  obtain ⟨t', hr, -⟩ := (decodeUnConstraintWholeNumber_reads h1 h2).1 t rest hd
  rw [← decodeUnConstraintWholeNumber_run] at hr
  obtain ⟨r1, -⟩ := lengthOctet_reads (n := octetsInt v) (by omega)
  unfold lengthPrefixedInt at hd
  rw [List.append_assoc] at hd
  obtain ⟨t1, e1, hd1, hb1, hc1⟩ := r1 t _ hd
  rw [← decodeConstraintWholeNumber_run] at e1
  obtain ⟨l1, l2⟩ := lengthOctet_fine n t _ _ ht e1 rfl
  have ht1 := l2 rfl
  have hroom : t1.pos + 8 ≤ 8 * t1.count := by
    have := hd1.pos
    rw [List.length_append, bitsMsb_length] at this
    omega
  unfold decodeUnConstraintWholeNumber at hr ⊢
  rw [RProg.run_bind] at hr
  rw [bind_ok e1] at hr
  refine RProg.legal_bind _ _ t l1 fun a t'' ha => ?_
  rw [e1] at ha
  cases ha
  show (if (octetsInt v : Int) > 8 then _ else _ : RProg (Bool × Int)).LegalOn n t1
  change (if (octetsInt v : Int) > 8 then _ else _ : RProg (Bool × Int)).run t1 = _ at hr
  rw [if_neg (by omega)] at hr ⊢
  rw [RProg.run_bind] at hr
  obtain ⟨c, t2, e2, hr2⟩ := bind_ok_inv hr
  refine RProg.legal_bind _ _ t1 (legal_op trivial (by show t1.pos + 1 ≤ _; omega)) fun c' t3 hc' => ?_
  rw [e2] at hc'
  cases hc'
  have : t2 = t1 := by
    rw [RProg.peek_run] at e2
    have hk : t1.currentByte < t1.buf.length := by
      have := ht1.cap
      unfold BitStream.pos at hroom
      omega
    obtain ⟨m, hm⟩ := masks_some (b := t1.currentBit) (by rw [ht1.bit]; omega)
    unfold peekBit at e2
    rw [getS_bind, bufGet_bind hk, bind_ok (hm _), pure_run] at e2
    cases e2; rfl
  subst this
  have hf : Fine n false (decodeBytesLoop (octetsInt v : Int).toNat (if c = true then 0xFFFFFFFFFFFFFFFF#64 else 0#64) >>=
      fun r => pure (r.1, r.2.toInt)) :=
    (decodeBytesLoop_fine n false _ _).last (fun a t => ⟨trivial, fun r t' h => by cases h; rfl⟩) (fun a t r t' h => pure_false h)
  exact (hf t2 _ _ ht1 hr2 rfl).1

end Src

/-- A decoder that makes only legal calls on the message delivers the same in the streaming build. -/
theorem streamed {α : Type} {p : RProg α} {n : Nat} (hn : 0 < n) {msg behind slack : List Byte} (hmsg : n ≤ msg.length) {a : α}
    {t' : BitStream} (hl : p.LegalOn n (bitStreamAttach (msg ++ slack) msg.length))
    (hr : p.run (bitStreamAttach (msg ++ slack) msg.length) = .ok (a, t')) :
    ∃ s', p.sRun (bitStreamAttach2 msg n behind) = .ok (a, s') := by
  rcases p.sim hn _ _ (sim_start hn hmsg) hl with ⟨b, s', t'', e1, e2, -⟩ | ⟨e1, -⟩ | ⟨e1, -⟩
  · rw [hr] at e1
    cases e1
    exact ⟨s', e2⟩
  · rw [hr] at e1; cases e1
  · rw [hr] at e1; cases e1

theorem attach_atByte {msg slack : List Byte} : AtByte (bitStreamAttach (msg ++ slack) msg.length) :=
  ⟨rfl, by show msg.length ≤ (msg ++ slack).length; rw [List.length_append]; omega, Nat.zero_le _⟩

end Asn1
