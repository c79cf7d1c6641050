import Verif.Proof.GenCode
/-! What a generated decoder accepts is a valid value in the form of `Valid`. -/
namespace Asn1

theorem rng_contains {r : Rng} {v : Int} (h : r.holds v = true) : r.contains v := by
  cases r <;> simp_all [Rng.holds, Rng.contains]

/-! ### INTEGER -/

theorem toInt64 (x : U64) : -(2 ^ 63) ≤ x.toInt ∧ x.toInt < 2 ^ 63 := by
  have h1 := BitVec.le_toInt x
  have h2 := BitVec.toInt_lt (x := x)
  exact ⟨by simpa using h1, by simpa using h2⟩

theorem decodeUnConstraintWholeNumber_post64 : Post decodeUnConstraintWholeNumber (fun v => -(2 ^ 63) ≤ v ∧ v < 2 ^ 63) := by
  unfold decodeUnConstraintWholeNumber
  refine Post.bind (fun n => Post.ite (fun _ => Post.ite (fun _ => Post.false) (fun _ => ?_)) (fun _ => Post.false))
  intro s a s' h
  rw [bind_def] at h
  split at h
  · rename_i p s1 e1
    exact (Post.bind (f := decodeBytesLoop n.2.toNat (if p then 0xFFFFFFFFFFFFFFFF#64 else 0#64))
      (P := fun v : Int => -(2 ^ 63) ≤ v ∧ v < 2 ^ 63) (fun r => Post.pure (fun _ => toInt64 r.2))) s1 a s' h
  · cases h
  · cases h

theorem chk_post (v : Int) (k : Int → M (Bool × α)) {P : α → Prop} (h : -(2 ^ 63) ≤ v → v < 2 ^ 63 → Post (k v) P) :
    Post (chk v >>= k) P := by
  intro s a s' e
  by_cases hc : -(2 ^ 63) ≤ v ∧ v < 2 ^ 63
  · rw [chk_ok hc, pure_bind] at e
    exact h hc.1 hc.2 s a s' e
  · rw [bind_def] at e
    have : chk v s = .ub := by
      unfold chk inS64
      rw [if_neg (by rw [decide_eq_true_eq]; exact hc)]; rfl
    rw [this] at e
    cases e

theorem decodeSemiConstraintWholeNumber_post64 (a : Int) :
    Post (decodeSemiConstraintWholeNumber a) (fun v => -(2 ^ 63) ≤ v ∧ v < 2 ^ 63) := by
  unfold decodeSemiConstraintWholeNumber
  refine Post.bind (fun n => Post.ite (fun _ => Post.ite (fun _ => Post.false) (fun _ => ?_)) (fun _ => Post.false))
  refine Post.bind (fun r => Post.ite (fun _ => ?_) (fun _ => Post.false))
  exact chk_post _ _ (fun h1 h2 => Post.pure (fun _ => ⟨h1, h2⟩))

theorem decodeConstraintWholeNumber_post64 (a b : Int) :
    Post (decodeConstraintWholeNumber a b) (fun v => a = v ∨ (-(2 ^ 63) ≤ v ∧ v < 2 ^ 63)) := by
  unfold decodeConstraintWholeNumber
  refine chk_post _ _ (fun _ _ => ?_)
  refine Post.bind (fun _ => ?_)
  refine Post.ite (fun _ => Post.pure (fun _ => .inl rfl)) (fun _ => ?_)
  refine Post.bind (fun r => Post.ite (fun _ => Post.ite (fun _ => Post.false) (fun _ => ?_)) (fun _ => Post.false))
  exact chk_post _ _ (fun h1 h2 => Post.pure (fun _ => .inr ⟨h1, h2⟩))

theorem decU_post64 {w : Nat} {f : M (Bool × BitVec w)} : Post (decU f) (fun v => v < 2 ^ w) := by
  unfold decU
  exact Post.bind (fun r => Post.pure (fun _ => by have := r.2.isLt; exact_mod_cast this))

theorem decInt_valid {w : Nat} {r : Rng} (hg : ∀ a, r = .posInf a → 0 ≤ a)
    (hm : (∃ a b, r = .concrete a b) ∨ ¬ r.contains (-(2 ^ 63))) :
    Post (decInt w r false) (fun v => r.holds v = true → r.contains v ∧ r.holds64 false v) := by
  cases r with
  | concrete a b => exact fun _ _ _ _ h => ⟨rng_contains h, trivial⟩
  | posInf a =>
    have := hg a rfl
    simp only [decInt, ge_iff_le, this, decide_true, Bool.not_false, Bool.and_self, if_true]
    refine decU_post64.mono (fun v hv h => ⟨rng_contains h, ?_⟩)
    simp only [Rng.holds64, this, true_and, if_true]
    exact hv
  | negInf b =>
    simp only [decInt]
    refine decodeUnConstraintWholeNumber_post64.mono (fun v hv h => ⟨rng_contains h, ?_⟩)
    have hc := rng_contains h
    have : v ≠ -(2 ^ 63) := by
      intro e; subst e
      rcases hm with ⟨_, _, hm⟩ | hm
      · cases hm
      · exact hm hc
    simp only [Rng.holds64]
    omega
  | full =>
    simp only [decInt]
    refine decodeUnConstraintWholeNumber_post64.mono (fun v hv h => ⟨rng_contains h, ?_⟩)
    rcases hm with ⟨_, _, hm⟩ | hm
    · cases hm
    · exact absurd trivial hm

theorem decInt_post64 {r : Rng} (hok : r.ok 64 true) (hg : ∀ a, r = .posInf a → a = 0) :
    Post (decInt 64 r true) (fun v => -(2 ^ 63) ≤ v ∧ v < 2 ^ 63) := by
  cases r with
  | concrete a b =>
    simp only [Rng.ok] at hok
    simp at hok
    have hab : -(2 ^ 63) ≤ a ∧ a < 2 ^ 63 := by omega
    simp only [decInt, Bool.not_true, Bool.and_false, Bool.false_eq_true, if_false, if_true]
    refine Post.ite (fun _ => Post.pure (fun _ => hab)) (fun _ => ?_)
    refine (decodeConstraintWholeNumber_post64 a b).mono (fun v hv => ?_)
    rcases hv with rfl | h
    · exact hab
    · exact h
  | posInf a =>
    simp only [decInt, Bool.not_true, Bool.and_false, Bool.false_eq_true, if_false]
    exact decodeSemiConstraintWholeNumber_post64 a
  | negInf b => exact decodeUnConstraintWholeNumber_post64
  | full => exact decodeUnConstraintWholeNumber_post64

theorem decIntExt_post64 {r : Rng} (hok : r.ok 64 true) (hg : ∀ a, r = .posInf a → a = 0) :
    Post (decIntExt r) (fun v => -(2 ^ 63) ≤ v ∧ v < 2 ^ 63) := by
  unfold decIntExt
  refine Post.bind (fun b => Post.ite (fun _ => Post.ite (fun _ => decodeUnConstraintWholeNumber_post64) (fun _ => decInt_post64 hok hg)) (fun _ => Post.false))

theorem decIntExt_valid {root : Rng} {inRoot : Int → Bool} {more : Option (Int → Bool)} (hok : Ok (.intExt root inRoot more))
    (hg : ∀ a, root = .posInf a → a = 0)
    (hm : ((∃ a b, root = .concrete a b) ∨ inRoot (-(2 ^ 63)) = false) ∧ ∀ f, more = some f → f (-(2 ^ 63)) = false) :
    Post (decIntExt root) (fun v => isValid (.intExt root inRoot more) (.int v) = true → Valid (.intExt root inRoot more) (.int v)) := by
  simp only [Ok] at hok
  refine (decIntExt_post64 hok.1 hg).mono (fun v hv h => ?_)
  simp only [isValid, Bool.or_eq_true] at h
  simp only [Valid]
  cases hr : inRoot v with
  | true =>
    refine .inl ⟨rfl, ?_⟩
    have hne : (∃ a b, root = .concrete a b) ∨ v ≠ -(2 ^ 63) := by
      rcases hm.1 with h | h
      · exact .inl h
      · refine .inr (fun e => ?_)
        rw [e, h] at hr
        cases hr
    cases root with
    | concrete _ _ => trivial
    | posInf a =>
      have := hg a rfl
      subst this
      simp only [Rng.holds64]
      simp only [Bool.true_eq_false, and_false, if_false]
      omega
    | negInf _ =>
      simp only [Rng.holds64]
      rcases hne with ⟨_, _, h⟩ | h
      · cases h
      · omega
    | full =>
      simp only [Rng.holds64]
      rcases hne with ⟨_, _, h⟩ | h
      · cases h
      · omega
  | false =>
    refine .inr ⟨rfl, ?_⟩
    rw [hr] at h
    cases more with
    | none => simp at h
    | some f =>
      simp only [Option.map_some, Option.getD_some, Bool.false_eq_true, false_or] at h
      refine ⟨⟨f, rfl, h⟩, ?_, hv.2⟩
      have := hm.2 f rfl
      have : v ≠ -(2 ^ 63) := by
        intro e
        rw [← e] at this
        rw [h] at this
        cases this
      omega

/-! ### BIT STRING -/

theorem packed_bytes (l : List Byte) : Packed (bytesBits l) l := by
  refine ⟨by rw [bytesBits_length]; omega, ?_⟩
  rw [bytesBits_length]
  simp

theorem packed_shift (b : Byte) (k : Nat) (h0 : 0 < k) (h8 : k < 8) : ∃ w, w.length = k ∧ Packed w [b <<< (8 - k)] := by
  refine ⟨(byteBits (b <<< (8 - k))).take k, by simp [byteBits_length]; omega, ?_, ?_⟩
  · simp [byteBits_length]; omega
  · have h : k = 1 ∨ k = 2 ∨ k = 3 ∨ k = 4 ∨ k = 5 ∨ k = 6 ∨ k = 7 := by omega
    revert b
    rcases h with rfl | rfl | rfl | rfl | rfl | rfl | rfl <;> decide

theorem readBits_packed (n : Nat) : Post (readBits n) (fun l => ∃ w, w.length = n ∧ Packed w l) := by
  unfold readBits
  refine (decodeOctetStringNoLength_post (n / 8)).bind' (fun a ha => ?_) (fun a => ?_)
  · simp only [true_and]
    refine Post.ite (fun h => ?_) (fun h => Post.pure (fun _ => ⟨bytesBits a, by rw [bytesBits_length]; omega, packed_bytes a⟩))
    refine Post.bind (fun p => ?_)
    obtain ⟨ok, b⟩ := p
    refine Post.ite (fun _ => Post.pure (fun _ => ?_)) (fun _ => Post.false)
    obtain ⟨w, h1, h2⟩ := packed_shift b (n % 8) h (by omega)
    refine ⟨bytesBits a ++ w, by rw [List.length_append, bytesBits_length]; omega, (packed_bytes a).append (by rw [bytesBits_length]; omega) h2⟩
  · simp only [Bool.false_eq_true, false_and, if_false]
    exact Post.false

/-- State of the loops over the fragments of a BIT STRING. -/
def BitsI (off : Nat) (st : Nat × List Byte) : Prop := st.1 = off ∧ ∃ w : List Bool, w.length = off ∧ Packed w st.2

theorem bitsBlk_post (off n : Nat) (st : Nat × List Byte) (hoff : off % 16384 = 0) (hI : BitsI off st) :
    Post (do
      let p ← readBits n
      pure (p.1, (st.1 + n, st.2 ++ p.2))) (BitsI (off + n)) := by
  refine (readBits_packed n).bind' (fun a ha => Post.pure (fun _ => ?_)) (fun _ => Post.false)
  obtain ⟨w, h1, h2⟩ := hI.2
  obtain ⟨w', h1', h2'⟩ := ha
  exact ⟨by simp only [hI.1], w ++ w', by simp; omega, h2.append (by omega) h2'⟩

theorem fix64Decode_post {σ : Type} {blk : (off n : Nat) → σ → M (Bool × σ)} {I : Nat → σ → Prop}
    (hb : ∀ off n st, off % 16384 = 0 → I off st → Post (blk off n st) (I (off + n))) (k : Nat) :
    ∀ off st, off % 16384 = 0 → I off st → Post (fix64Decode blk k off st) (fun r => r.1 % 16384 = 0 ∧ I r.1 r.2) := by
  induction k with
  | zero => intro off st h hI; exact Post.pure (fun _ => ⟨h, hI⟩)
  | succ k ih =>
    intro off st h hI
    simp only [fix64Decode]
    refine Post.bind (fun q => Post.ite (fun _ => ?_) (fun _ => Post.false))
    refine (hb off 0x10000 st h hI).bind' (fun a ha => ?_) (fun _ => by rw [if_neg (by simp)]; exact Post.false)
    rw [if_pos rfl]
    exact ih _ _ (by omega) ha

theorem fixRemDecode_post {σ : Type} {blk : (off n : Nat) → σ → M (Bool × σ)} {rem off : Nat} {st : σ} {P : σ → Prop}
    (hb : Post (blk off rem st) P) : Post (fixRemDecode blk rem off st) P := by
  unfold fixRemDecode
  intro s a s' h
  rw [bind_def] at h
  split at h
  · rename_i q s1 _
    exact (Post.ite (c := q = true) (fun _ => hb) (fun _ => Post.false)) s1 a s' h
  · cases h
  · cases h

theorem fixRestDecode_post {σ : Type} {blk : (off n : Nat) → σ → M (Bool × σ)} {I : Nat → σ → Prop}
    (hb : ∀ off n st, off % 16384 = 0 → I off st → Post (blk off n st) (I (off + n))) (rem : Nat) (parts : List (Nat × Int))
    (hp : ∀ p ∈ parts, p.1 % 16384 = 0) :
    ∀ off st, off % 16384 = 0 → I off st → Post (fixRestDecode blk rem parts off st) (fun st => ∃ n, I n st) := by
  induction parts with
  | nil =>
    intro off st h hI
    simp only [fixRestDecode]
    exact Post.ite (fun _ => (fixRemDecode_post (hb off rem st h hI)).mono (fun _ h => ⟨_, h⟩)) (fun _ => Post.pure (fun _ => ⟨_, hI⟩))
  | cons p parts ih =>
    intro off st h hI
    obtain ⟨sz, id⟩ := p
    have hsz : sz % 16384 = 0 := hp (sz, id) (by simp)
    simp only [fixRestDecode]
    refine Post.bind (fun q => Post.ite (fun _ => ?_) (fun _ => Post.false))
    refine (hb off sz st h hI).bind' (fun a ha => ?_) (fun _ => by rw [if_neg (by simp)]; exact Post.false)
    rw [if_pos rfl]
    exact ih (fun p hm => hp p (List.mem_cons_of_mem _ hm)) _ _ (by omega) ha

theorem fragSmall_sizes (size : Nat) : ∀ p ∈ (fragSmall size).1, p.1 % 16384 = 0 := by
  intro p hp
  unfold fragSmall at hp
  simp only [List.mem_append] at hp
  rcases hp with (hp | hp) | hp <;> split at hp <;> simp_all

theorem fixFragDecode_post {σ : Type} {blk : (off n : Nat) → σ → M (Bool × σ)} {I : Nat → σ → Prop}
    (hb : ∀ off n st, off % 16384 = 0 → I off st → Post (blk off n st) (I (off + n))) (size : Nat) {st : σ} (hI : I 0 st) :
    Post (fixFragDecode blk size st) (fun st => ∃ n, I n st) := by
  unfold fixFragDecode
  refine (fix64Decode_post hb _ 0 st rfl hI).bind' (fun a ha => ?_) (fun _ => by rw [if_neg (by simp)]; exact Post.false)
  rw [if_pos rfl]
  exact fixRestDecode_post hb _ _ (fragSmall_sizes size) _ _ ha.1 ha.2

theorem decBits_packed (lo hi : Nat) : Post (decBits lo hi) (fun r => ∃ w : List Bool, w.length = r.1 ∧ Packed w r.2) := by
  unfold decBits
  refine Post.ite (fun _ => Post.ite (fun _ => ?_) (fun _ => ?_)) (fun _ => ?_)
  · exact (readBits_packed lo).bind' (fun a ha => Post.pure (fun _ => ha)) (fun _ => Post.false)
  · refine Post.bind (fun q => Post.ite (fun _ => ?_) (fun _ => Post.false))
    exact (readBits_packed _).bind' (fun a ha => Post.pure (fun _ => ha)) (fun _ => Post.false)
  · have h0 : BitsI 0 (0, []) := ⟨rfl, [], rfl, Packed.nil⟩
    have hb : ∀ (off n : Nat) (st : Nat × List Byte), off % 16384 = 0 → BitsI off st → _ :=
      fun off n st h hI => bitsBlk_post off n st h hI
    have fin : ∀ r : Nat × List Byte, (∃ n, BitsI n r) → ∃ w : List Bool, w.length = r.1 ∧ Packed w r.2 := by
      rintro r ⟨n, h1, w, h2, h3⟩
      exact ⟨w, by omega, h3⟩
    dsimp only
    unfold fragAnyDecode
    refine Post.ite (fun _ => ?_) (fun _ => ?_)
    · exact (fixFragDecode_post hb lo h0).mono fin
    · refine (genFragDecode_safe (I := BitsI) (fun off n st h _ hI => ⟨?_, hb off n st h hI⟩) h0).2.mono fin
      exact (readBits_safe n).map (h := fun p : Bool × List Byte => (p.1, (st.1 + n, st.2 ++ p.2))) (fun _ h => h)

/-! ### SEQUENCE OF and strings -/

theorem decSeqOf_all {α : Type} {item : M (Bool × α)} {P : α → Prop} (hs : Safe item) (hp : Post item P) {lo hi : Nat} (hg : ¬ (lo = hi ∧ 65536 ≤ hi)) :
    Post (decSeqOf item lo hi) (fun l => ∀ x ∈ l, P x) := by
  have key : ∀ n acc, (∀ x ∈ acc, P x) → Post (decLoop item n acc) (fun l => ∀ x ∈ l, P x) := by
    intro n acc ha
    refine (decLoop_post hp n acc).mono (fun l ⟨ys, h1, _, h3⟩ x hx => ?_)
    rw [h1, List.mem_append] at hx
    rcases hx with hx | hx
    · exact ha x hx
    · exact h3 x hx
  unfold decSeqOf
  refine Post.ite (fun _ => Post.ite (fun _ => key _ _ (by simp)) (fun _ => ?_)) (fun hlt => ?_)
  · exact Post.bind (fun q => Post.ite (fun _ => key _ _ (by simp)) (fun _ => Post.false))
  · unfold fragAnyDecode
    rw [if_neg (by omega)]
    refine (genFragDecode_safe (I := fun _ l => ∀ x ∈ l, P x) (fun off n st _ _ hI => ⟨decLoop_safe hs n st, key n st hI⟩) (by simp)).2.mono ?_
    rintro l ⟨_, h⟩
    exact h

/-! ### OBJECT IDENTIFIER -/

/-- The unused elements are zero. -/
def OidZ (o : Oid) : Prop := o.nCount ≤ 20 ∧ o.values.length = 20 ∧ o.values.drop o.nCount = List.replicate (20 - o.nCount) 0#64

theorem OidZ.holds {o : Oid} (h : OidZ o) : o.holdsComps (o.values.take o.nCount) := by
  obtain ⟨h1, h2, h3⟩ := h
  have hl : (o.values.take o.nCount).length = o.nCount := by simp; omega
  unfold Oid.holdsComps
  rw [hl, ← h3, List.take_append_drop]

theorem OidZ.push {o : Oid} (h : OidZ o) (hlt : o.nCount < 20) (v : U64) : OidZ ⟨o.nCount + 1, o.values.set o.nCount v⟩ := by
  obtain ⟨h1, h2, h3⟩ := h
  refine ⟨by show o.nCount + 1 ≤ 20; omega, by simpa using h2, ?_⟩
  show (o.values.set o.nCount v).drop (o.nCount + 1) = _
  rw [List.drop_set_of_lt (by omega), ← List.drop_drop, h3, List.drop_replicate]
  rfl

theorem oidDecodeLoop_z (fuel : Nat) : ∀ (rem : Nat) (o : Oid), OidZ o →
    Post (oidDecodeLoop fuel rem o) (fun r => OidZ r.2) := by
  induction fuel with
  | zero => intro rem o _ s a s' h; simp [oidDecodeLoop, mUb] at h
  | succ fuel ih =>
    intro rem o hz
    simp only [oidDecodeLoop]
    refine Post.ite (fun h => ?_) (fun _ => Post.pure (fun _ => hz))
    refine Post.bind (fun p => Post.ite (fun _ => ?_) (fun _ => Post.false))
    have hlt : o.nCount < 20 := h.2
    rw [oidPush_ok hlt hz.2.1, pure_bind]
    exact ih _ _ (hz.push hlt _)

theorem oidDecode_z : Post oidDecode OidZ := by
  refine Post.bind (fun p => Post.ite (fun _ => ?_) (fun _ => Post.false))
  refine Post.bind (fun q => Post.ite (fun _ => ?_) (fun _ => Post.false))
  refine (oidDecodeLoop_z _ _ _ ?_).bind' (fun a ha => ?_) (fun a => by rw [if_neg (by simp)]; exact Post.false)
  · exact ⟨by simp, by simp [oidInit, oidMaxLength], by simp [oidInit, oidMaxLength]⟩
  · rw [if_pos rfl]
    exact Post.pure (fun _ => ha)

theorem relOidDecode_z : Post relOidDecode OidZ := by
  refine Post.bind (fun p => Post.ite (fun _ => ?_) (fun _ => Post.false))
  refine (oidDecodeLoop_z _ _ _ ?_).bind' (fun a ha => ?_) (fun a => by rw [if_neg (by simp)]; exact Post.false)
  · exact ⟨by simp [oidInit], by simp [oidInit, oidMaxLength], by simp [oidInit, oidMaxLength]⟩
  · rw [if_pos rfl]
    exact Post.pure (fun _ => ha)

/-! ### all types -/

/-- One flag per component, true for a mandatory one. -/
def PresOk : Fields → List Bool → Prop
  | .nil, [] => True
  | .cons .mandatory _ rest, e :: es => e = true ∧ PresOk rest es
  | .cons _ _ rest, _ :: es => PresOk rest es
  | _, _ => False

theorem decPresence_presOk : ∀ fs : Fields, Post (decPresence fs) (PresOk fs)
  | .nil => by simp only [decPresence]; exact Post.pure (fun _ => trivial)
  | .cons o t rest => by
    have ih := decPresence_presOk rest
    cases o with
    | mandatory =>
      simp only [decPresence, pure_bind, if_true]
      exact ih.bind' (fun a ha => Post.pure (fun _ => ⟨rfl, ha⟩)) (fun _ => Post.false)
    | _ =>
      simp only [decPresence]
      refine Post.bind (fun b => Post.ite (fun _ => ?_) (fun _ => Post.false))
      exact ih.bind' (fun a ha => Post.pure (fun _ => ha)) (fun _ => Post.false)

mutual
theorem decTy_valid : ∀ t : Ty, Ok t → Guarded t → NoMin t → Post (decTy t) (fun v => isValid t v = true → Valid t v)
  | .int w r, _, hg, hm => by
    simp only [Guarded] at hg
    simp only [NoMin] at hm
    simp only [decTy]
    exact (decInt_valid hg hm).bind' (fun a ha => Post.pure (fun _ h => by simp only [isValid] at h; simp only [Valid]; exact ha h)) (fun _ => Post.false)
  | .intExt root inRoot more, hok, hg, hm => by
    simp only [Guarded] at hg
    simp only [NoMin] at hm
    simp only [decTy]
    exact (decIntExt_valid hok hg hm).bind' (fun a ha => Post.pure (fun _ h => ha h)) (fun _ => Post.false)
  | .bool, _, _, _ => by
    simp only [decTy]
    exact Post.bind (fun p => Post.pure (fun _ _ => by simp only [Valid]))
  | .null, _, _, _ => by
    simp only [decTy]
    exact Post.pure (fun _ _ => by simp only [Valid])
  | .enum _ _ _, _, _, _ => by
    simp only [decTy]
    exact Post.bind (fun p => Post.pure (fun _ h => by simp only [isValid] at h; simp only [Valid]; simpa using h))
  | .octets _ _, _, _, _ => by
    simp only [decTy]
    exact Post.bind (fun p => Post.pure (fun _ h => by simp only [isValid] at h; simp only [Valid]; simpa using h))
  | .bits lo hi _ _, _, _, _ => by
    simp only [decTy]
    refine (decBits_packed lo hi).bind' (fun a ha => Post.pure (fun _ h => ?_)) (fun _ => Post.false)
    simp only [isValid, decide_eq_true_eq] at h
    simp only [Valid]
    exact ⟨h.1, h.2.1, h.2.2.1, h.2.2.2, ha⟩
  | .str alphabet lo hi, _, _, _ => by
    simp only [decTy]
    have hz : Post (decStr alphabet lo hi) (fun l => ∀ c ∈ l, c ≠ 0#8) := by
      unfold decStr
      refine Post.bind (fun p => Post.pure (fun _ c hc => ?_))
      have := List.all_eq_true.1 (List.all_takeWhile (p := fun x : Byte => decide (x ≠ 0#8)) (l := p.2)) c hc
      simpa using this
    refine hz.bind' (fun a ha => Post.pure (fun _ h => ?_)) (fun _ => Post.false)
    simp only [isValid, Bool.and_eq_true, decide_eq_true_eq, List.all_eq_true] at h
    simp only [Valid]
    exact ⟨h.1.1, h.1.2, fun c hc => ⟨by simpa using h.2 c hc, ha c hc⟩⟩
  | .oid, _, _, _ => by
    simp only [decTy]
    refine oidDecode_z.bind' (fun o ho => Post.pure (fun _ h => ?_)) (fun _ => Post.false)
    simp only [isValid, Bool.and_eq_true, decide_eq_true_eq] at h
    simp only [Valid]
    obtain ⟨n1, n2, n3⟩ := ho
    match hv : o.values.take o.nCount with
    | [] => have := congrArg List.length hv; simp only [List.length_take, List.length_cons, List.length_nil] at this; omega
    | [_] => have := congrArg List.length hv; simp only [List.length_take, List.length_cons, List.length_nil] at this; omega
    | a :: b :: l =>
      have hl := congrArg List.length hv
      simp only [List.length_take, List.length_cons] at hl
      have e : o.values = a :: b :: (l ++ o.values.drop o.nCount) := by
        conv => lhs; rw [← List.take_append_drop o.nCount o.values, hv]
        rfl
      refine ⟨a, b, l, by rw [← hv]; exact OidZ.holds ⟨n1, n2, n3⟩, ?_, ?_, by omega⟩
      · have := h.1.2; rw [e] at this; exact this
      · have := h.2; rw [e] at this; exact this
  | .relOid, _, _, _ => by
    simp only [decTy]
    refine relOidDecode_z.bind' (fun o ho => Post.pure (fun _ h => ?_)) (fun _ => Post.false)
    simp only [isValid, decide_eq_true_eq] at h
    simp only [Valid]
    have h1 := ho.1
    have h2 := ho.2.1
    exact ⟨_, ho.holds, by simp; omega, by simp; omega⟩
  | .real _, _, hg, _ => by simp only [Guarded] at hg
  | .seq fs, hok, hg, hm => by
    simp only [Ok] at hok
    simp only [Guarded] at hg
    simp only [NoMin] at hm
    simp only [decTy]
    refine (decPresence_presOk fs).bind' (fun es hes => ?_) (fun _ => by rw [if_neg (by simp)]; exact Post.false)
    rw [if_pos rfl]
    refine (decFields_valid fs es hes hok hg hm).bind' (fun a ha => Post.pure (fun _ h => ?_)) (fun _ => Post.false)
    simp only [isValid] at h
    simp only [Valid]
    exact ha h
  | .seqOf lo hi t, hok, hg, hm => by
    simp only [Ok] at hok
    simp only [Guarded] at hg
    simp only [NoMin] at hm
    simp only [decTy]
    refine (decSeqOf_all (decTy_safe t hok.2 hg.2) (decTy_valid t hok.2 hg.2 hm) hg.1).bind' (fun a ha => Post.pure (fun _ h => ?_)) (fun _ => Post.false)
    simp only [isValid, Bool.and_eq_true, decide_eq_true_eq, List.all_eq_true] at h
    simp only [Valid]
    exact ⟨h.1.1, h.1.2, fun v hv => ha v hv (h.2 v hv)⟩
  | .choice alts, hok, hg, hm => by
    simp only [Ok] at hok
    simp only [Guarded] at hg
    simp only [NoMin] at hm
    simp only [decTy]
    refine Post.bind (fun q => Post.ite (fun _ => ?_) (fun _ => Post.false))
    refine (decAlt_valid alts q.2.toNat hok.2.2 hg hm).bind' (fun a ha => Post.pure (fun _ h => ?_)) (fun _ => Post.false)
    simp only [isValid] at h
    simp only [Valid]
    exact ha h
  | .ref t, hok, hg, hm => by
    simp only [Ok] at hok
    simp only [Guarded] at hg
    simp only [NoMin] at hm
    simp only [decTy]
    refine (decTy_valid t hok hg hm).bind' (fun a ha => Post.pure (fun _ h => ?_)) (fun _ => Post.pure (fun h => by simp at h))
    simp only [isValid] at h
    simp only [Valid]
    exact ha h
theorem decFields_valid : ∀ (fs : Fields) (es : List Bool), PresOk fs es → OkFields fs → GuardedFields fs → NoMinFields fs →
    Post (decFields fs es) (fun vs => validFields fs vs = true → ValidFields fs vs)
  | .nil, _, _, _, _, _ => by simp only [decFields]; exact Post.pure (fun _ _ => by simp only [ValidFields])
  | .cons _ _ _, [], h, _, _, _ => by simp [PresOk] at h
  | .cons o t rest, e :: es, h, hok, hg, hm => by
    have he : o = .mandatory → e = true := fun h' => by subst h'; exact h.1
    have hes : PresOk rest es := by
      cases o
      · exact h.2
      all_goals exact h
    simp only [OkFields] at hok
    simp only [GuardedFields] at hg
    simp only [NoMinFields] at hm
    have hr := decFields_valid rest es hes hok.2 hg.2 hm.2
    simp only [decFields]
    have h1 : Post (if e then decTy t else match (generalizing := false) o with | .default d => pure (true, d) | _ => pure (true, .null))
        (fun v => if e then (isValid t v = true → Valid t v) else v = (match (generalizing := false) o with | .default d => d | _ => .null)) := by
      cases e with
      | true => exact decTy_valid t hok.1 hg.1 hm.1
      | false => cases o <;> exact Post.pure (fun _ => rfl)
    refine h1.bind' (fun v hv => ?_) (fun _ => by rw [if_neg (by simp)]; exact Post.false)
    rw [if_pos rfl]
    refine hr.bind' (fun vs hvs => Post.pure (fun _ h => ?_)) (fun _ => Post.false)
    simp only [validFields, Bool.and_eq_true] at h
    have hvs := hvs h.2
    have hv1 := h.1
    cases o <;> cases e <;> simp_all [ValidFields]
theorem decAlt_valid : ∀ (alts : Alts) (i : Nat), OkAlts alts → GuardedAlts alts → NoMinAlts alts →
    Post (decAlt alts i) (fun v => validAlt alts i v = true → ValidAlt alts i v)
  | .nil, _, _, _, _ => by simp only [decAlt]; exact Post.false
  | .cons t _, 0, hok, hg, hm => by
    simp only [OkAlts] at hok
    simp only [GuardedAlts] at hg
    simp only [NoMinAlts] at hm
    simp only [decAlt, validAlt, ValidAlt]
    exact decTy_valid t hok.1 hg.1 hm.1
  | .cons _ rest, i + 1, hok, hg, hm => by
    simp only [OkAlts] at hok
    simp only [GuardedAlts] at hg
    simp only [NoMinAlts] at hm
    simp only [decAlt, validAlt, ValidAlt]
    exact decAlt_valid rest i hok.2 hg.2 hm.2
end

theorem decodeType_valid {t : Ty} (hok : Ok t) (hg : Guarded t) (hm : NoMin t) : Post (decodeType t) (Valid t) := by
  intro s v s' h
  have h1 := decodeType_post t s v s' h
  have h2 := decTy_valid (.ref t) (by simp only [Ok]; exact hok) (by simp only [Guarded]; exact hg) (by simp only [NoMin]; exact hm) s v s' h
  simp only [isValid, Valid] at h2
  exact h2 h1

end Asn1
