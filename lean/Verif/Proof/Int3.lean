import Verif.Spec.Ints
import Verif.Proof.Int2
/-! Constrained and semi-constrained whole numbers. -/
namespace Asn1

/-- Every successful run of `f` returns a value with property `P`. -/
def Post {α : Type} (f : M (Bool × α)) (P : α → Prop) : Prop :=
  ∀ s a s', f s = .ok ((true, a), s') → P a

theorem Post.pure {α : Type} {P : α → Prop} {b : Bool} {a : α} (h : b = true → P a) : Post (Pure.pure (b, a)) P := by
  intro s a' s' e
  simp only [pure_run, Res.ok.injEq, Prod.mk.injEq] at e
  obtain ⟨⟨rfl, rfl⟩, rfl⟩ := e
  exact h rfl

theorem Post.bind {α β : Type} {f : M α} {k : α → M (Bool × β)} {P : β → Prop} (h : ∀ a, Post (k a) P) :
    Post (f >>= k) P := by
  intro s b s' e
  rw [bind_def] at e
  cases hf : f s with
  | ok p => rw [hf] at e; exact h p.1 p.2 b s' e
  | ub => rw [hf] at e; cases e
  | abort => rw [hf] at e; cases e

theorem Post.bind' {α β : Type} {f : M (Bool × α)} {k : Bool × α → M (Bool × β)} {P : β → Prop} {Q : α → Prop}
    (hf : Post f Q) (h : ∀ a, Q a → Post (k (true, a)) P) (h' : ∀ a, Post (k (false, a)) P) :
    Post (f >>= k) P := by
  intro s b s' e
  rw [bind_def] at e
  cases hfs : f s with
  | ok p =>
    rw [hfs] at e
    obtain ⟨⟨r, a⟩, s1⟩ := p
    cases r with
    | true => exact h a (hf s a s1 hfs) s1 b s' e
    | false => exact h' a s1 b s' e
  | ub => rw [hfs] at e; cases e
  | abort => rw [hfs] at e; cases e

theorem Post.ite {α : Type} {c : Prop} [Decidable c] {f g : M (Bool × α)} {P : α → Prop} (hf : c → Post f P) (hg : ¬ c → Post g P) :
    Post (if c then f else g) P := by
  split
  · exact hf ‹_›
  · exact hg ‹_›

theorem chk_ok {x : Int} (h : -(2 ^ 63) ≤ x ∧ x < 2 ^ 63) : chk x = pure x := by
  unfold chk inS64
  rw [if_pos (by rw [decide_eq_true_eq]; exact h)]

theorem ofNat_toInt {n : Nat} (h : n < 2 ^ 63) : (BitVec.ofNat 64 n).toInt = n := by
  have e : (BitVec.ofNat 64 n).toNat = n := by rw [BitVec.toNat_ofNat]; omega
  rw [BitVec.toInt_eq_toNat_of_lt (by rw [e]; omega), e]

theorem ofInt_toNat {x : Int} (h0 : 0 ≤ x) (h : x < 2 ^ 64) : (BitVec.ofInt 64 x).toNat = x.toNat := by
  rw [BitVec.toNat_ofInt]
  congr 1
  exact Int.emod_eq_of_lt h0 (by simpa using h)

theorem ofInt_eq_ofNat {x : Int} (h0 : 0 ≤ x) : BitVec.ofInt 64 x = BitVec.ofNat 64 x.toNat := by
  apply BitVec.eq_of_toNat_eq
  rw [BitVec.toNat_ofInt, BitVec.toNat_ofNat]
  have : x = (x.toNat : Int) := by omega
  rw [this]; rfl

theorem bitLen_le_64 (v : U64) : bitLen v.toNat ≤ 64 := (bitLen_le_iff _ _).2 v.isLt

theorem bitLen_eq_zero {n : Nat} : bitLen n = 0 ↔ n = 0 := by
  have := bitLen_le_iff n 0
  simp at this
  omega

/-- `AppendNBitZero(n - nBits(v)); EncodeNonNegativeInteger(v)`: `v` in `n` bits. -/
theorem padded_appends {n : Nat} {v : U64} (h : v.toNat < 2 ^ n) :
    Appends (do appendNBitZero ((n : Int) - getNumberOfBits v); encodeNonNegativeInteger v) () (bitsMsb n v.toNat) := by
  have hle := (bitLen_le_iff v.toNat n).2 h
  have e : ((n : Int) - getNumberOfBits v) = ((n - bitLen v.toNat : Nat) : Int) := by
    rw [getNumberOfBits_eq]; omega
  rw [e]
  refine ((appendNBitZero_appends _).bind (encodeNonNegativeInteger_appends v)).congr ?_
  rw [← bitsMsb_pad _ _ _ (lt_two_pow_bitLen _)]
  congr 1; omega

theorem encodeConstraintWholeNumber_appends {v lo hi : Int} (h1 : lo ≤ v) (h2 : v ≤ hi) (h3 : hi - lo < 2 ^ 63) :
    Appends (encodeConstraintWholeNumber v lo hi) () (constrainedCode lo hi v) := by
  unfold encodeConstraintWholeNumber constrainedCode
  have e1 : assertC (decide (lo ≤ hi)) = pure () := by
    funext s; simp [assertC, show lo ≤ hi by omega]
  rw [e1, pure_bind, chk_ok (by omega), pure_bind]
  have hR := ofInt_toNat (x := hi - lo) (by omega) (by omega)
  by_cases h0 : BitVec.ofInt 64 (hi - lo) = 0#64
  · rw [if_pos h0]
    rw [h0] at hR
    have : (hi - lo).toNat = 0 := by rw [← hR]; rfl
    rw [this]
    exact Appends.pure ()
  · rw [if_neg h0, chk_ok (by omega), pure_bind, getNumberOfBits_eq (BitVec.ofInt 64 (hi - lo)), hR]
    have hV := ofInt_toNat (x := v - lo) (by omega) (by omega)
    rw [← hV]
    apply padded_appends
    rw [hV]
    exact Nat.lt_of_le_of_lt (by omega) (lt_two_pow_bitLen (hi - lo).toNat)

theorem encodeConstraintPosWholeNumber_appends {v lo hi : U64} (h1 : lo ≤ v) (h2 : v ≤ hi) :
    Appends (encodeConstraintPosWholeNumber v lo hi) () (constrainedCode lo.toNat hi.toNat v.toNat) := by
  unfold encodeConstraintPosWholeNumber constrainedCode
  have e1 : assertC (decide (lo ≤ v)) = pure () := by funext s; simp [assertC, h1]
  have e2 : assertC (decide (v ≤ hi)) = pure () := by funext s; simp [assertC, h2]
  rw [e1, pure_bind, e2, pure_bind]
  rw [BitVec.le_def] at h1 h2
  have hR : ((hi.toNat : Int) - lo.toNat).toNat = (hi - lo).toNat := by
    rw [BitVec.toNat_sub_of_le (by rw [BitVec.le_def]; omega)]; omega
  have hV : ((v.toNat : Int) - lo.toNat).toNat = (v - lo).toNat := by
    rw [BitVec.toNat_sub_of_le (by rw [BitVec.le_def]; omega)]; omega
  rw [hR, hV]
  by_cases h0 : hi - lo = 0#64
  · simp only [h0, if_true]
    exact Appends.pure ()
  · simp only [h0, if_false]
    rw [getNumberOfBits_eq (hi - lo)]
    apply padded_appends
    exact Nat.lt_of_le_of_lt (by omega) (lt_two_pow_bitLen (hi - lo).toNat)

theorem decodeConstraintWholeNumber_eq {lo hi : Int} (h1 : lo ≤ hi) (h3 : hi - lo < 2 ^ 63) :
    decodeConstraintWholeNumber lo hi =
      if hi = lo then pure (true, lo) else (do
        let r ← decodeNonNegativeInteger (bitLen (hi - lo).toNat)
        if r.1 then
          if r.2 > BitVec.ofNat 64 (hi - lo).toNat then pure (false, 0)
          else do
            let x ← chk (r.2.toInt + lo)
            pure (true, x)
        else pure (false, 0)) := by
  unfold decodeConstraintWholeNumber
  have e1 : assertC (decide (lo ≤ hi)) = pure () := by
    funext s; simp [assertC, h1]
  rw [chk_ok (by omega), pure_bind, e1, pure_bind]
  have hR := ofInt_toNat (x := hi - lo) (by omega) (by omega)
  have hz : BitVec.ofInt 64 (hi - lo) = 0#64 ↔ hi = lo := by
    constructor
    · intro h; rw [h] at hR; have : (hi - lo).toNat = 0 := by rw [← hR]; rfl
      omega
    · intro h; rw [h]; simp
  rw [getNumberOfBits_eq, hR, ← ofInt_eq_ofNat (by omega)]
  by_cases h : hi = lo
  · rw [if_pos h, if_pos (hz.2 h)]
  · rw [if_neg h, if_neg (fun x => h (hz.1 x))]

theorem decodeConstraintWholeNumber_reads {v lo hi : Int} (h1 : lo ≤ v) (h2 : v ≤ hi) (h3 : hi - lo < 2 ^ 63)
    (hlo : -(2 ^ 63) ≤ lo) (hhi : hi < 2 ^ 63) :
    Reads (decodeConstraintWholeNumber lo hi) (true, v) (constrainedCode lo hi v) ∧
    Short (decodeConstraintWholeNumber lo hi) (constrainedCode lo hi v) := by
  rw [decodeConstraintWholeNumber_eq (by omega) h3]
  unfold constrainedCode
  by_cases h : hi = lo
  · rw [if_pos h]
    have : v = lo := by omega
    subst this; subst h
    simp only [Int.sub_self]
    exact ⟨Reads.pure _, Short.nil _⟩
  · rw [if_neg h]
    have hlt : (v - lo).toNat < 2 ^ bitLen (hi - lo).toNat :=
      Nat.lt_of_le_of_lt (by omega) (lt_two_pow_bitLen (hi - lo).toNat)
    have hw : bitLen (hi - lo).toNat ≤ 64 := (bitLen_le_iff _ _).2 (by omega)
    obtain ⟨r, hs⟩ := decodeNonNegativeInteger_reads hw hlt
    constructor
    · rw [← List.append_nil (bitsMsb _ _)]
      refine r.bind ?_
      rw [if_pos rfl, if_neg, chk_ok, pure_bind]
      · have : (BitVec.ofNat 64 (v - lo).toNat).toInt + lo = v := by
          rw [ofNat_toInt (by omega)]
          omega
        rw [this]
        exact Reads.pure _
      · show _ ≤ (BitVec.ofNat 64 (v - lo).toNat).toInt + lo ∧ (BitVec.ofNat 64 (v - lo).toNat).toInt + lo < _
        rw [ofNat_toInt (by omega)]
        omega
      · simp only [gt_iff_lt, BitVec.lt_def, BitVec.toNat_ofNat]
        omega
    · rw [← List.append_nil (bitsMsb _ _)]
      exact hs.bind r (Short.nil _) (fun a => ⟨0, by rw [if_neg (by simp)]⟩)

theorem decodeConstraintWholeNumber_safe {lo hi : Int} (h1 : lo ≤ hi) (h3 : hi - lo < 2 ^ 63)
    (hlo : -(2 ^ 63) ≤ lo) (hhi : hi < 2 ^ 63) : Safe (decodeConstraintWholeNumber lo hi) := by
  rw [decodeConstraintWholeNumber_eq h1 h3]
  refine Safe.ite (fun _ => Safe.pure _ _) (fun _ => ?_)
  refine (decodeNonNegativeInteger_safe ((bitLen_le_iff _ _).2 (by omega))).bind (fun a => ?_) (fun a => ⟨0, by rw [if_neg (by simp)]⟩)
  rw [if_pos rfl]
  refine Safe.ite (fun _ => Safe.pure _ _) (fun hle => ?_)
  simp only [gt_iff_lt, BitVec.lt_def, BitVec.toNat_ofNat, Nat.not_lt] at hle
  have : a.toInt = a.toNat := by
    rw [BitVec.toInt_eq_toNat_of_lt]; omega
  simp only [this]
  rw [chk_ok (by omega), pure_bind]
  exact Safe.pure _ _

theorem decodeConstraintWholeNumber_post {lo hi : Int} (h1 : lo ≤ hi) (h3 : hi - lo < 2 ^ 63)
    (hlo : -(2 ^ 63) ≤ lo) (hhi : hi < 2 ^ 63) : Post (decodeConstraintWholeNumber lo hi) (fun v => lo ≤ v ∧ v ≤ hi) := by
  rw [decodeConstraintWholeNumber_eq h1 h3]
  refine Post.ite (fun _ => Post.pure (by omega)) (fun _ => ?_)
  refine Post.bind (fun a => ?_)
  refine Post.ite (fun _ => ?_) (fun _ => Post.pure (by simp))
  refine Post.ite (fun _ => Post.pure (by simp)) (fun hle => ?_)
  simp only [gt_iff_lt, BitVec.lt_def, BitVec.toNat_ofNat, Nat.not_lt] at hle
  have : a.2.toInt = a.2.toNat := by
    rw [BitVec.toInt_eq_toNat_of_lt]; omega
  simp only [this]
  rw [chk_ok (by omega), pure_bind]
  exact Post.pure (by omega)

theorem decodeConstraintPosWholeNumber_eq {lo hi : U64} (h1 : lo ≤ hi) :
    decodeConstraintPosWholeNumber lo hi =
      if hi = lo then pure (true, lo) else (do
        let r ← decodeNonNegativeInteger (bitLen (hi.toNat - lo.toNat))
        if r.1 then
          if r.2 > hi - lo then pure (false, 0#64) else pure (true, r.2 + lo)
        else pure (false, 0#64)) := by
  unfold decodeConstraintPosWholeNumber
  have e1 : assertC (decide (lo ≤ hi)) = pure () := by
    funext s; simp [assertC, h1]
  rw [e1, pure_bind, getNumberOfBits_eq, BitVec.toNat_sub_of_le h1]
  by_cases h : hi = lo
  · simp [h]
  · have : ¬ (hi - lo = 0#64) := by
      intro e
      apply h
      apply BitVec.eq_of_toNat_eq
      have := congrArg BitVec.toNat e
      rw [BitVec.toNat_sub_of_le h1] at this
      rw [BitVec.le_def] at h1
      simp at this; omega
    simp [h, this]

theorem decodeConstraintPosWholeNumber_reads {v lo hi : U64} (h1 : lo ≤ v) (h2 : v ≤ hi) :
    Reads (decodeConstraintPosWholeNumber lo hi) (true, v) (constrainedCode lo.toNat hi.toNat v.toNat) ∧
    Short (decodeConstraintPosWholeNumber lo hi) (constrainedCode lo.toNat hi.toNat v.toNat) := by
  have h12 := BitVec.le_trans h1 h2
  rw [decodeConstraintPosWholeNumber_eq h12]
  unfold constrainedCode
  have eR : ((hi.toNat : Int) - lo.toNat).toNat = hi.toNat - lo.toNat := by omega
  have eV : ((v.toNat : Int) - lo.toNat).toNat = v.toNat - lo.toNat := by omega
  rw [eR, eV]
  have h1' := h1; have h2' := h2
  rw [BitVec.le_def] at h1' h2'
  by_cases h : hi = lo
  · rw [if_pos h]
    subst h
    have : v = hi := BitVec.eq_of_toNat_eq (by omega)
    subst this
    simp only [Nat.sub_self]
    exact ⟨Reads.pure _, Short.nil _⟩
  · rw [if_neg h]
    have hlt : v.toNat - lo.toNat < 2 ^ bitLen (hi.toNat - lo.toNat) :=
      Nat.lt_of_le_of_lt (by omega) (lt_two_pow_bitLen _)
    have hw : bitLen (hi.toNat - lo.toNat) ≤ 64 := (bitLen_le_iff _ _).2 (by have := hi.isLt; omega)
    obtain ⟨r, hs⟩ := decodeNonNegativeInteger_reads hw hlt
    have hv : BitVec.ofNat 64 (v.toNat - lo.toNat) = v - lo := by
      apply BitVec.eq_of_toNat_eq
      rw [BitVec.toNat_sub_of_le h1, BitVec.toNat_ofNat, Nat.mod_eq_of_lt (by have := v.isLt; omega)]
    rw [hv] at r
    constructor
    · rw [← List.append_nil (bitsMsb _ _)]
      refine r.bind ?_
      rw [if_pos rfl, if_neg]
      · have : (v - lo) + lo = v := BitVec.sub_add_cancel v lo
        show Reads (pure (true, (v - lo) + lo)) _ _
        rw [this]
        exact Reads.pure _
      · simp only [gt_iff_lt, BitVec.lt_def, BitVec.toNat_sub_of_le h1, BitVec.toNat_sub_of_le h12]
        omega
    · rw [← List.append_nil (bitsMsb _ _)]
      exact hs.bind r (Short.nil _) (fun a => ⟨0#64, by rw [if_neg (by simp)]⟩)

theorem decodeConstraintPosWholeNumber_safe {lo hi : U64} (h1 : lo ≤ hi) : Safe (decodeConstraintPosWholeNumber lo hi) := by
  rw [decodeConstraintPosWholeNumber_eq h1]
  refine Safe.ite (fun _ => Safe.pure _ _) (fun _ => ?_)
  refine (decodeNonNegativeInteger_safe ((bitLen_le_iff _ _).2 (by have := hi.isLt; omega))).bind (fun a => ?_) (fun a => ⟨0#64, by rw [if_neg (by simp)]⟩)
  rw [if_pos rfl]
  exact Safe.ite (fun _ => Safe.pure _ _) (fun hle => Safe.pure _ _)

theorem decodeConstraintPosWholeNumber_post {lo hi : U64} (h1 : lo ≤ hi) :
    Post (decodeConstraintPosWholeNumber lo hi) (fun v => lo ≤ v ∧ v ≤ hi) := by
  rw [decodeConstraintPosWholeNumber_eq h1]
  refine Post.ite (fun h => Post.pure (fun _ => ?_)) (fun _ => ?_)
  · subst h; exact ⟨BitVec.le_refl _, BitVec.le_refl _⟩
  refine Post.bind (fun a => ?_)
  refine Post.ite (fun _ => ?_) (fun _ => Post.pure (by simp))
  refine Post.ite (fun _ => Post.pure (by simp)) (fun hle => Post.pure (fun _ => ?_))
  have := hi.isLt
  simp only [gt_iff_lt, BitVec.lt_def, BitVec.toNat_sub_of_le h1, Nat.not_lt] at hle
  rw [BitVec.le_def] at h1
  have e : (a.2 + lo).toNat = a.2.toNat + lo.toNat := by
    rw [BitVec.toNat_add]; omega
  constructor
  · rw [BitVec.le_def, e]; omega
  · rw [BitVec.le_def, e]; omega

end Asn1
