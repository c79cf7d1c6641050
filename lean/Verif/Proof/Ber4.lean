import Verif.Proof.Ber3
/-!
# Lemmas about BER: what an accepted message looks like
-/
namespace Asn1

/-- When `f` succeeds it has only moved forward, and the result and the octets it passed are related by `P`. -/
def BInv {α : Type} (f : BM α) (P : α → List Byte → Prop) : Prop :=
  ∀ s a s', f s = .ok (.ok a, s') → s'.buf = s.buf ∧ s'.count = s.count ∧
    ∃ l, s'.currentByte = s.currentByte + l.length ∧ (s.buf.drop s.currentByte).take l.length = l ∧ P a l

theorem BInv.pure {α : Type} (a : α) : BInv (pure a) (fun b l => b = a ∧ l = []) := by
  intro s b s' h
  have h' : Res.ok (Except.ok a, s) = Res.ok (Except.ok b, s') := h
  injection h' with h'
  injection h' with h1 h2
  injection h1 with h1
  subst h1; subst h2
  exact ⟨rfl, rfl, [], rfl, rfl, rfl, rfl⟩

theorem BInv.fail {α : Type} (e : BerErr) (P : α → List Byte → Prop) : BInv (bFail e : BM α) P := by
  intro s b s' h
  have h' : Res.ok ((Except.error e : Except BerErr α), s) = Res.ok (Except.ok b, s') := h
  injection h' with h'
  injection h' with h1 h2
  cases h1

theorem BInv.ub {α : Type} (P : α → List Byte → Prop) : BInv (bUb : BM α) P := by
  intro s b s' h
  have h' : (Res.ub : Res (Except BerErr α × ByteStream)) = Res.ok (Except.ok b, s') := h
  cases h'

theorem BInv.mono {α : Type} {f : BM α} {P Q : α → List Byte → Prop} (h : BInv f P) (hpq : ∀ a l, P a l → Q a l) : BInv f Q := by
  intro s a s' e
  obtain ⟨h1, h2, l, h3, h4, h5⟩ := h s a s' e
  exact ⟨h1, h2, l, h3, h4, hpq _ _ h5⟩

theorem BInv.ite {α : Type} {c : Prop} [Decidable c] {f g : BM α} {P : α → List Byte → Prop} (hf : c → BInv f P) (hg : ¬ c → BInv g P) :
    BInv (if c then f else g) P := by
  split
  · exact hf ‹_›
  · exact hg ‹_›

theorem bm_bind_inv {α β : Type} {x : BM α} {f : α → BM β} {s s' : ByteStream} {b : β} (h : (x >>= f) s = .ok (.ok b, s')) :
    ∃ a s1, x s = .ok (.ok a, s1) ∧ f a s1 = .ok (.ok b, s') := by
  have h' : (match x s with | .ok (.ok a, s') => f a s' | .ok (.error e, s') => .ok (.error e, s') | .ub => .ub | .abort => .abort) = _ := h
  rcases hx : x s with ⟨⟨e⟩ | ⟨a⟩, s1⟩ | _ | _
  · rw [hx] at h'
    injection h' with h'
    injection h' with h1 h2
    cases h1
  · rw [hx] at h'
    exact ⟨a, s1, rfl, h'⟩
  · rw [hx] at h'; cases h'
  · rw [hx] at h'; cases h'

theorem BInv.bind {α β : Type} {f : BM α} {g : α → BM β} {P : α → List Byte → Prop} {Q : α → β → List Byte → Prop}
    (hf : BInv f P) (hg : ∀ a, BInv (g a) (Q a)) : BInv (f >>= g) (fun b l => ∃ a l1 l2, l = l1 ++ l2 ∧ P a l1 ∧ Q a b l2) := by
  intro s b s' h
  obtain ⟨a, s1, e1, e2⟩ := bm_bind_inv h
  obtain ⟨a1, a2, l1, a3, a4, a5⟩ := hf _ _ _ e1
  obtain ⟨b1, b2, l2, b3, b4, b5⟩ := hg a _ _ _ e2
  refine ⟨by rw [b1, a1], by rw [b2, a2], l1 ++ l2, by rw [b3, a3, List.length_append, Nat.add_assoc], ?_, a, l1, l2, rfl, a5, b5⟩
  rw [a1, a3] at b4
  rw [List.length_append, List.take_add, a4, List.drop_drop, b4]

theorem BInv.getByte : BInv berGetByte (fun b l => l = [b]) := by
  intro s b s' h
  unfold berGetByte at h
  split at h
  · injection h with h
    injection h with h1 h2
    cases h1
  · split at h
    · rename_i c hc
      injection h with h
      injection h with h1 h2
      injection h1 with h1
      subst h1; subst h2
      refine ⟨rfl, rfl, [c], rfl, ?_, rfl⟩
      have hlt : s.currentByte < s.buf.length := by
        rcases Nat.lt_or_ge s.currentByte s.buf.length with h | h
        · exact h
        · rw [List.getElem?_eq_none h] at hc; cases hc
      rw [List.drop_eq_getElem_cons hlt]
      rw [List.getElem?_eq_getElem hlt] at hc
      injection hc with hc
      rw [hc]; rfl
    · cases h

theorem berReadBytes_inv (n : Nat) : ∀ acc, BInv (berReadBytes n acc) (fun r l => l.length = n ∧ r = berFold l acc) := by
  induction n with
  | zero => intro acc; exact (BInv.pure acc).mono (by rintro a l ⟨rfl, rfl⟩; exact ⟨rfl, rfl⟩)
  | succ n ih =>
    intro acc
    refine (BInv.getByte.bind (g := fun c => berReadBytes n (acc <<< 8 ||| c.setWidth 64)) fun c => ih _).mono ?_
    rintro a l ⟨c, l1, l2, rfl, rfl, h1, h2⟩
    exact ⟨by simp [h1], h2⟩

theorem berReadLength_inv (n : Nat) : ∀ acc, BInv (berReadLength n acc) (fun r l => l.length = n ∧ r = berFold l acc) := by
  induction n with
  | zero => intro acc; exact (BInv.pure acc).mono (by rintro a l ⟨rfl, rfl⟩; exact ⟨rfl, rfl⟩)
  | succ n ih =>
    intro acc
    refine (BInv.getByte.bind (g := fun c => berReadLength n (acc <<< 8 ||| c.setWidth 32)) fun c => ih _).mono ?_
    rintro a l ⟨c, l1, l2, rfl, rfl, h1, h2⟩
    exact ⟨by simp [h1], h2⟩

theorem identOctets_of {l : List Byte} {tag : Nat} (h : orHead (natOctets tag) = orHead l) : IdentOctets l tag := by
  have hl := congrArg List.length h
  rw [orHead_length, orHead_length] at hl
  refine ⟨hl.symm, ?_, ?_⟩
  · revert h
    generalize natOctets tag = m
    intro h
    cases l <;> cases m <;> simp_all [orHead]
  · revert h
    generalize natOctets tag = m
    intro h
    cases l <;> cases m <;> simp_all [orHead]

theorem berDecodeTag_inv {tag : U64} (ht : tag.toNat < 2 ^ 32) : BInv (berDecodeTag tag) (fun _ l => IdentOctets l tag.toNat) := by
  rw [berDecodeTag_eq ht]
  refine ((berReadBytes_inv _ _).bind (Q := fun tgCopy _ l => l = [] ∧
    (tag ||| (0x20#32 <<< ((octetsNat tag.toNat - 1) * 8)).setWidth 64) =
        (tgCopy ||| (0x20#32 <<< ((octetsNat tag.toNat - 1) * 8)).setWidth 64)) fun a => ?_).mono ?_
  · refine BInv.ite (fun _ => BInv.fail _ _) fun h => (BInv.pure ()).mono ?_
    rintro _ l ⟨_, h2⟩
    refine ⟨h2, ?_⟩
    rwa [bne_iff_ne, ne_eq, Decidable.not_not] at h
  · rintro _ l ⟨a, l1, l2, rfl, ⟨h1, rfl⟩, rfl, h3⟩
    rw [List.append_nil]
    exact identOctets_of ((tagTest ht h1).1 h3)

/-- The three forms of length octets and what the decoder makes of them. -/
theorem berDecodeLength_inv : BInv berDecodeLength (fun n l =>
    ∃ (b : Byte) (m : List Byte), l = b :: m ∧ ((b.toNat < 128 ∧ m = [] ∧ n = b.toNat) ∨ (b.toNat = 128 ∧ m = [] ∧ n = -1) ∨
      (b.toNat = 128 + m.length ∧ m ≠ [] ∧ n = (berFold m 0#32).toInt))) := by
  unfold berDecodeLength
  have hb : ∀ b : Byte, (b &&& 0x80#8 = 0#8 → b.toNat < 128 ∧ (b &&& 0x7F#8).toNat = b.toNat) ∧
      (b &&& 0x80#8 ≠ 0#8 → b.toNat = 128 + (b &&& 0x7F#8).toNat) := by decide
  refine (BInv.getByte.bind (Q := fun b n m => (b.toNat < 128 ∧ m = [] ∧ n = b.toNat) ∨ (b.toNat = 128 ∧ m = [] ∧ n = -1) ∨
      (b.toNat = 128 + m.length ∧ m ≠ [] ∧ n = (berFold m 0#32).toInt)) fun b => ?_).mono ?_
  · refine BInv.ite (fun h => (BInv.pure _).mono ?_) fun h => ?_
    · rintro n l ⟨rfl, rfl⟩
      have := (hb b).1 h
      exact .inl ⟨this.1, rfl, by rw [this.2]⟩
    · refine BInv.ite (fun h0 => (BInv.pure _).mono ?_) fun h0 => ?_
      · rintro n l ⟨rfl, rfl⟩
        have := (hb b).2 h
        rw [h0] at this
        exact .inr (.inl ⟨this, rfl, rfl⟩)
      · refine ((berReadLength_inv _ _).bind fun r => BInv.pure _).mono ?_
        rintro n l ⟨r, l1, l2, rfl, ⟨h1, h2⟩, rfl, rfl⟩
        rw [List.append_nil]
        refine .inr (.inr ⟨by rw [h1]; exact (hb b).2 h, ?_, by rw [h2]⟩)
        intro e
        rw [e] at h1
        exact h0 (BitVec.eq_of_toNat_eq h1.symm)
  · rintro n l ⟨b, l1, m, rfl, rfl, h⟩
    exact ⟨b, m, rfl, h⟩

theorem lengthOctets_of {n : Int} {l : List Byte} (h : ∃ (b : Byte) (m : List Byte), l = b :: m ∧ ((b.toNat < 128 ∧ m = [] ∧ n = b.toNat) ∨
    (b.toNat = 128 ∧ m = [] ∧ n = -1) ∨ (b.toNat = 128 + m.length ∧ m ≠ [] ∧ n = (berFold m 0#32).toInt)))
    (h0 : 0 ≤ n) (h4 : ∀ b, l.head? = some b → b.toNat ≤ 0x84) : LengthOctets l n.toNat := by
  obtain ⟨b, m, rfl, h⟩ := h
  rcases h with ⟨h1, rfl, rfl⟩ | ⟨_, _, rfl⟩ | ⟨h1, h2, h3⟩
  · exact .inl ⟨b, h1, rfl, by simp⟩
  · omega
  · have := h4 b rfl
    refine .inr ⟨b, m, rfl, h1, h2, ?_⟩
    have hf := berFold_zero (w := 32) (by omega) m (by omega)
    have hn : (berFold m 0#32).toInt = (berFold m 0#32).toNat := by
      rw [BitVec.toInt_eq_toNat_cond] at h3 ⊢
      split
      · rfl
      · rename_i hc
        rw [if_neg hc] at h3
        have := (berFold m 0#32).isLt
        omega
    rw [h3, hn, hf]; simp

theorem berGetArray_inv (max n : Nat) : ∀ i value, BInv (berGetArray max n i value) (fun r l => l.length = n ∧
    r.length = value.length ∧ ∀ j, r[j]? = if i ≤ j ∧ j < i + n ∧ j < max then l[j - i]? else value[j]?) := by
  induction n with
  | zero =>
    intro i value
    refine (BInv.pure value).mono ?_
    rintro r l ⟨rfl, rfl⟩
    refine ⟨rfl, rfl, fun j => ?_⟩
    rw [if_neg (by omega)]
  | succ n ih =>
    intro i value
    rw [berGetArray]
    refine (BInv.getByte.bind (Q := fun c r l => l.length = n ∧ r.length = value.length ∧
      ∀ j, r[j]? = if i ≤ j ∧ j < i + (n + 1) ∧ j < max then (c :: l)[j - i]? else value[j]?) fun c => ?_).mono ?_
    · unfold bArrSet
      by_cases h : i < max
      · rw [if_pos h]
        by_cases hv : i < value.length
        · rw [if_pos hv, pure_bind]
          refine (ih (i + 1) _).mono ?_
          rintro r l ⟨h1, h2, h3⟩
          refine ⟨h1, by rw [h2, List.length_set], fun j => ?_⟩
          rw [h3 j, List.getElem?_set]
          by_cases hj : i = j
          · subst hj
            rw [if_neg (by omega), if_pos rfl, if_pos hv, if_pos (by omega), Nat.sub_self]; rfl
          · rw [if_neg hj]
            by_cases hc : i + 1 ≤ j ∧ j < i + 1 + n ∧ j < max
            · rw [if_pos hc, if_pos (by omega)]
              have : j - i = (j - (i + 1)) + 1 := by omega
              rw [this, List.getElem?_cons_succ]
            · rw [if_neg hc, if_neg (by omega)]
        · rw [if_neg hv]
          intro s a s' e
          rw [bm_bind_ub rfl] at e
          cases e
      · rw [if_neg h, pure_bind]
        refine (ih (i + 1) _).mono ?_
        rintro r l ⟨h1, h2, h3⟩
        refine ⟨h1, h2, fun j => ?_⟩
        rw [h3 j, if_neg (by omega), if_neg (by omega)]
    · rintro r l ⟨c, l1, l2, rfl, rfl, h1, h2, h3⟩
      exact ⟨by simp [h1], h2, h3⟩

theorem uint2int_val {l : List Byte} (h1 : 1 ≤ l.length) (h8 : l.length ≤ 8) :
    uint2int (berFold l 0#64) l.length = pure (octetsInt' l) := by
  have hf := berFold_zero (w := 64) (by omega) l (by omega)
  have hlt := octetsVal_lt l
  rw [pow256] at hlt
  obtain ⟨e1, e2⟩ := uint2int_eq (u := berFold l 0#64) h1 h8
  rw [hf] at e1 e2
  have hp : (2 : Nat) ^ (8 * l.length) = 2 * 2 ^ (8 * l.length - 1) := by
    obtain ⟨k, hk⟩ : ∃ k, 8 * l.length = k + 1 := ⟨8 * l.length - 1, by omega⟩
    rw [hk, Nat.pow_succ, Nat.mul_comm, Nat.add_sub_cancel]
  unfold octetsInt'
  rw [pow256]
  split
  · rw [e1 (by omega)]
  · rw [e2 (by rw [Nat.mod_eq_of_lt hlt]; omega), Nat.mod_eq_of_lt hlt]
    congr 1
    have : (256 : Int) ^ l.length = ((256 ^ l.length : Nat) : Int) := by rw [Int.natCast_pow]; rfl
    rw [this, pow256]; push_cast; rfl

theorem bCall_uint2int_inv {n : Nat} {l : List Byte} (hl : l.length = n) :
    BInv (bCall (uint2int (berFold l 0#64) n)) (fun v m => m = [] ∧ v = octetsInt' l) := by
  by_cases h : n = 0 ∨ (n - 1) * 8 ≥ 64
  · intro s a s' e
    have : uint2int (berFold l 0#64) n = mUb := by unfold uint2int; rw [if_pos h]
    rw [this] at e
    cases e
  · subst hl
    rw [uint2int_val (by omega) (by omega), bCall_pure]
    exact (BInv.pure _).mono (by rintro a m ⟨rfl, rfl⟩; exact ⟨rfl, rfl⟩)

/-- What the length loop delivers. -/
def LenForm (n : Int) (l : List Byte) : Prop :=
  ∃ (b : Byte) (m : List Byte), l = b :: m ∧ ((b.toNat < 128 ∧ m = [] ∧ n = b.toNat) ∨ (b.toNat = 128 ∧ m = [] ∧ n = -1) ∨
      (b.toNat = 128 + m.length ∧ m ≠ [] ∧ n = (berFold m 0#32).toInt))

theorem berDecodeInteger_inv {tag : U64} (ht : tag.toNat < 2 ^ 32) : BInv (berDecodeInteger tag) (fun v l =>
    ∃ id len c, l = id ++ (len ++ c) ∧ IdentOctets id tag.toNat ∧ LenForm c.length len ∧ v = octetsInt' c) := by
  unfold berDecodeInteger
  refine ((berDecodeTag_inv ht).bind fun _ => berDecodeLength_inv.bind fun length => (berReadBytes_inv length.toNat 0#64).bind
    (Q := fun ret v m => m = [] ∧ 0 ≤ length ∧ ∀ l, l.length = length.toNat → ret = berFold l 0#64 → v = octetsInt' l) fun ret => ?_).mono ?_
  · refine BInv.ite (fun _ => BInv.ub _) fun h => ?_
    intro s a s' e
    by_cases hx : ∃ l, l.length = length.toNat ∧ ret = berFold l 0#64
    · obtain ⟨l, h1, h2⟩ := hx
      rw [h2] at e
      obtain ⟨a1, a2, m, a3, a4, a5, a6⟩ := bCall_uint2int_inv h1 s a s' e
      refine ⟨a1, a2, m, a3, a4, a5, by omega, ?_⟩
      intro l' h1' h2'
      have e2 : uint2int (berFold l 0#64) length.toNat = uint2int (berFold l' 0#64) length.toNat := by rw [← h2, ← h2']
      rw [e2] at e
      obtain ⟨_, _, _, _, _, _, a6'⟩ := bCall_uint2int_inv h1' s a s' e
      exact a6'
    · have : ∃ a1, s' = s ∧ a1 = a := by
        unfold bCall at e
        revert e
        generalize uint2int ret length.toNat ⟨[], 0, 0, 0⟩ = r
        intro e
        rcases r with ⟨r1, r2⟩ | _ | _
        · injection e with e
          injection e with e1 e2
          exact ⟨a, e2.symm, rfl⟩
        · cases e
        · cases e
      obtain ⟨_, rfl, _⟩ := this
      exact ⟨rfl, rfl, [], rfl, rfl, rfl, by omega, fun l h1 h2 => absurd ⟨l, h1, h2⟩ hx⟩
  · rintro v l ⟨_, id, l2, rfl, hid, n, len, l3, rfl, hlen, ret, c, l4, rfl, ⟨hc1, hc2⟩, rfl, h0, hv⟩
    refine ⟨id, len, c, by rw [List.append_nil], hid, ?_, hv c hc1 hc2⟩
    have : (c.length : Int) = n := by rw [hc1]; omega
    rw [this]
    exact hlen

theorem berDecodeBoolean_inv {tag : U64} (ht : tag.toNat < 2 ^ 32) : BInv (berDecodeBoolean tag) (fun v l =>
    ∃ id len c, l = id ++ (len ++ [c]) ∧ IdentOctets id tag.toNat ∧ LenForm 1 len ∧ v = (c != 0#8)) := by
  unfold berDecodeBoolean
  refine ((berDecodeTag_inv ht).bind fun _ => berDecodeLength_inv.bind
    (Q := fun length v l => length = 1 ∧ ∃ c, l = [c] ∧ v = (c != 0#8)) fun length => ?_).mono ?_
  · refine BInv.ite (fun _ => BInv.fail _ _) fun h => (BInv.getByte.bind fun c => BInv.pure _).mono ?_
    rintro v l ⟨c, l1, l2, rfl, rfl, rfl, rfl⟩
    exact ⟨by omega, c, rfl, rfl⟩
  · rintro v l ⟨_, id, l2, rfl, hid, n, len, l3, rfl, hlen, rfl, c, rfl, rfl⟩
    exact ⟨id, len, c, rfl, hid, hlen, rfl⟩

theorem berDecodeNull_inv {tag : U64} (ht : tag.toNat < 2 ^ 32) : BInv (berDecodeNull tag) (fun _ l =>
    ∃ id len, l = id ++ len ∧ IdentOctets id tag.toNat ∧ LenForm 0 len) := by
  unfold berDecodeNull
  refine ((berDecodeTag_inv ht).bind fun _ => berDecodeLength_inv.bind
    (Q := fun length _ l => length = 0 ∧ l = []) fun length => ?_).mono ?_
  · refine BInv.ite (fun _ => BInv.fail _ _) fun h => (BInv.pure _).mono ?_
    rintro v l ⟨rfl, rfl⟩
    exact ⟨by omega, rfl⟩
  · rintro v l ⟨_, id, l2, rfl, hid, n, len, l3, rfl, hlen, rfl, rfl⟩
    exact ⟨id, len, by rw [List.append_nil], hid, hlen⟩

theorem berDecodeOctetString_inv {tag : U64} (ht : tag.toNat < 2 ^ 32) {value : List Byte} {max : Nat} (hm : max ≤ value.length) :
    BInv (berDecodeOctetString tag value max) (fun r l =>
      ∃ id len c n, l = id ++ (len ++ c) ∧ IdentOctets id tag.toNat ∧ LenForm n len ∧ c.length = n.toNat ∧
        r.2 = (if n ≤ max then n else (max : Int)) ∧ (n ≤ max → r.1.take n.toNat = c)) := by
  unfold berDecodeOctetString
  rw [bClear_ok hm, pure_bind]
  refine ((berDecodeTag_inv ht).bind fun _ => berDecodeLength_inv.bind fun length =>
    (berGetArray_inv max length.toNat 0 (List.replicate max 0#8 ++ value.drop max)).bind fun v => BInv.pure _).mono ?_
  rintro r l ⟨_, id, l2, rfl, hid, n, len, l3, rfl, hlen, arr, c, l4, rfl, ⟨hc1, hc2, hc3⟩, rfl, rfl⟩
  refine ⟨id, len, c, n, by rw [List.append_nil], hid, hlen, hc1, rfl, ?_⟩
  intro hn
  show arr.take n.toNat = c
  apply List.ext_getElem?
  intro j
  rw [List.getElem?_take]
  by_cases hj : j < n.toNat
  · rw [if_pos hj, hc3 j, if_pos (by omega)]; rfl
  · rw [if_neg hj, List.getElem?_eq_none (by omega)]

theorem BInv.consumed {α : Type} {f : BM α} {P : α → List Byte → Prop} (h : BInv f P) {s s' : ByteStream} {a : α}
    (e : f s = .ok (.ok a, s')) : P a (consumed s s') ∧ s'.buf = s.buf ∧ s'.count = s.count := by
  obtain ⟨h1, h2, l, h3, h4, h5⟩ := h s a s' e
  have : Asn1.consumed s s' = l := by
    unfold Asn1.consumed
    rw [h3, Nat.add_sub_cancel_left, h4]
  rw [this]
  exact ⟨h5, h1, h2⟩

/-- The first length octet is where it should be. -/
theorem lenHead {s s' : ByteStream} {tag : Nat} {id len c : List Byte} (hc : consumed s s' = id ++ (len ++ c)) (hid : IdentOctets id tag)
    {b : Byte} (hb : len.head? = some b) : s.buf[s.currentByte + (natOctets tag).length]? = some b := by
  have e := congrArg (fun l : List Byte => l[id.length]?) hc
  rw [List.getElem?_append_right (by omega), Nat.sub_self] at e
  unfold consumed at e
  rw [List.getElem?_take] at e
  cases len with
  | nil => cases hb
  | cons x len =>
    injection hb with hb
    subst hb
    rw [List.cons_append, List.getElem?_cons_zero] at e
    split at e
    · rw [List.getElem?_drop] at e
      rw [← hid.1]; exact e
    · cases e

end Asn1
