import Verif.Spec.AcnGenSafe
import Verif.Proof.AcnGenTop
import Verif.Proof.GenValid
import Verif.Proof.AcnStrings
/-! Generated ACN decoders on arbitrary input. -/
namespace Asn1

/-- `Safe`, and on success the result satisfies `Q`. -/
def SafeQ {α : Type} (f : M (Bool × α)) (Q : α → Prop) : Prop :=
  ∀ s, Wf s → s.pos ≤ 8 * s.count → Slack s →
    ∃ r s', f s = .ok (r, s') ∧ s'.buf = s.buf ∧ s'.count = s.count ∧
      (r.1 = true → Q r.2 ∧ s'.currentBit < 8 ∧ s'.pos ≤ 8 * s.count ∧ s.pos ≤ s'.pos)

theorem SafeQ.safe {α : Type} {f : M (Bool × α)} {Q : α → Prop} (h : SafeQ f Q) : Safe f := by
  intro s a b c
  obtain ⟨r, s', h1, h2, h3, h4⟩ := h s a b c
  exact ⟨r, s', h1, h2, h3, fun e => (h4 e).2⟩

theorem SafeQ.of {α : Type} {f : M (Bool × α)} {Q : α → Prop} (h : Safe f) (hp : Post f Q) : SafeQ f Q := by
  intro s a b c
  obtain ⟨⟨r, x⟩, s', h1, h2, h3, h4⟩ := h s a b c
  exact ⟨(r, x), s', h1, h2, h3, fun e => ⟨hp s x s' (by rw [h1, show r = true from e]), h4 e⟩⟩

theorem SafeQ.ofSafe {α : Type} {f : M (Bool × α)} (h : Safe f) : SafeQ f (fun _ => True) := SafeQ.of h (fun _ _ _ _ => trivial)

theorem SafeQ.mono {α : Type} {f : M (Bool × α)} {Q R : α → Prop} (h : SafeQ f Q) (e : ∀ a, Q a → R a) : SafeQ f R := by
  intro s a b c
  obtain ⟨r, s', h1, h2, h3, h4⟩ := h s a b c
  exact ⟨r, s', h1, h2, h3, fun k => ⟨e _ (h4 k).1, (h4 k).2⟩⟩

theorem SafeQ.pure {α : Type} {Q : α → Prop} {b : Bool} {a : α} (h : b = true → Q a) : SafeQ (Pure.pure (b, a)) Q := by
  intro s hwf hp _
  exact ⟨(b, a), s, rfl, rfl, rfl, fun e => ⟨h e, hwf.bit, hp, Nat.le_refl _⟩⟩

theorem SafeQ.bind {α β : Type} {f : M (Bool × α)} {Q : α → Prop} {R : β → Prop} {k : Bool × α → M (Bool × β)}
    (hf : SafeQ f Q) (hg : ∀ a, Q a → SafeQ (k (true, a)) R) (he : ∀ a, ∃ b, k (false, a) = Pure.pure (false, b)) :
    SafeQ (f >>= k) R := by
  intro s hwf hps hsl
  obtain ⟨⟨r1, ra⟩, s1, hr, hb, hc, hk⟩ := hf s hwf hps hsl
  cases r1 with
  | true =>
    obtain ⟨k0, k1, k2, k3⟩ := hk rfl
    obtain ⟨r2, s2, hr2, hb2, hc2, hk2⟩ := hg ra k0 s1 ⟨k1, by rw [hc, hb]; exact hwf.cap⟩ (by rw [hc]; exact k2)
      (by simp only [Slack, hc, hb]; exact hsl)
    refine ⟨r2, s2, ?_, hb2.trans hb, hc2.trans hc, ?_⟩
    · rw [bind_ok hr, hr2]
    · intro h2
      obtain ⟨m0, m1, m2, m3⟩ := hk2 h2
      exact ⟨m0, m1, by rw [hc] at m2; exact m2, by omega⟩
  | false =>
    obtain ⟨b, hb'⟩ := he ra
    refine ⟨(false, b), s1, ?_, hb, hc, by simp⟩
    rw [bind_ok hr, hb']; rfl

theorem SafeQ.map {α β : Type} {f : M (Bool × α)} {Q : α → Prop} {R : β → Prop} {h : Bool × α → Bool × β} (hf : SafeQ f Q)
    (hh : ∀ p, (h p).1 = true → p.1 = true ∧ (Q p.2 → R (h p).2)) : SafeQ (f >>= fun p => Pure.pure (h p)) R := by
  intro s hwf hp hsl
  obtain ⟨r, s1, hr, hb, hc, hk⟩ := hf s hwf hp hsl
  refine ⟨h r, s1, by rw [bind_ok hr]; rfl, hb, hc, fun e => ?_⟩
  obtain ⟨e1, e2⟩ := hh r e
  obtain ⟨a, b⟩ := hk e1
  exact ⟨e2 a, b⟩

theorem SafeQ.ite {α : Type} {Q : α → Prop} {c : Prop} [Decidable c] {f g : M (Bool × α)} (hf : c → SafeQ f Q) (hg : ¬ c → SafeQ g Q) :
    SafeQ (if c then f else g) Q := by
  split
  · exact hf ‹_›
  · exact hg ‹_›

/-- A function that reads any `n` bits, and fails on fewer, is safe. -/
theorem safeQ_of_reads {α : Type} {f : M (Bool × α)} {Q : α → Prop} {n : Nat}
    (h : ∀ w : List Bool, w.length = n → (∃ a, Reads f a w ∧ (a.1 = true → Q a.2)) ∧ Short f w) : SafeQ f Q := by
  intro s hwf hp hsl
  obtain ⟨rest, hr⟩ := decSt_exists hwf hp
  by_cases hlen : n ≤ rest.length
  · obtain ⟨⟨a, ha, hq⟩, _⟩ := h (rest.take n) (by rw [List.length_take]; omega)
    rw [← List.take_append_drop n rest] at hr
    obtain ⟨s', e, hd, hb, hc⟩ := ha s _ hr
    refine ⟨a, s', e, hb, hc, fun e => ⟨hq e, hd.wf.bit, ?_, ?_⟩⟩
    · have := hd.pos; rw [hc] at this; omega
    · have h1 := hd.pos; have h2 := hr.pos; rw [hc] at h1; rw [List.length_append] at h2; omega
  · obtain ⟨_, hs⟩ := h (rest ++ List.replicate (n - rest.length) false) (by rw [List.length_append, List.length_replicate]; omega)
    obtain ⟨a, s', e, hb, hc⟩ := hs s rest hr hsl (List.prefix_append _ _) (by
      intro e; have := congrArg List.length e; rw [List.length_append, List.length_replicate] at this; omega)
    exact ⟨(false, a), s', e, hb, hc, by simp⟩

theorem exists_bitsMsb : ∀ w : List Bool, ∃ v, v < 2 ^ w.length ∧ w = bitsMsb w.length v
  | [] => ⟨0, by simp, rfl⟩
  | b :: w => by
    obtain ⟨v, h1, h2⟩ := exists_bitsMsb w
    refine ⟨v + (if b then 2 ^ w.length else 0), ?_, ?_⟩
    · rw [List.length_cons, Nat.pow_succ]; split <;> omega
    · rw [List.length_cons, bitsMsb_succ, ← bitsMsb_mod w.length (v + _)]
      cases b with
      | false =>
        rw [if_neg (by simp), Nat.add_zero, Nat.mod_eq_of_lt h1, Nat.testBit_lt_two_pow h1, ← h2]
      | true =>
        rw [if_pos rfl, Nat.add_mod_right, Nat.mod_eq_of_lt h1, ← h2]
        congr 1
        rw [Nat.add_comm, Nat.testBit_two_pow_add_eq, Nat.testBit_lt_two_pow h1]; rfl

theorem acnDecUIntConstSize_safeQ {n : Nat} (hn : n ≤ 64) : SafeQ (acnDecUIntConstSize n) (fun v => v.toNat < 2 ^ n) := by
  refine safeQ_of_reads (n := n) (fun w hw => ?_)
  obtain ⟨v, h1, h2⟩ := exists_bitsMsb w
  rw [hw] at h1 h2
  rw [h2]
  obtain ⟨r, s⟩ := acnDecUIntConstSize_reads hn h1
  refine ⟨⟨_, r, fun _ => ?_⟩, s⟩
  have := Nat.pow_le_pow_right (show 0 < 2 by omega) hn
  rw [BitVec.toNat_ofNat, Nat.mod_eq_of_lt (by omega)]; exact h1

theorem acnDecUIntConstSize8_safeQ : SafeQ acnDecUIntConstSize8 (fun v => v.toNat < 2 ^ 8) := by
  refine SafeQ.of acnDecUIntConstSize8_safe ?_
  unfold acnDecUIntConstSize8
  refine Post.bind (fun p => Post.ite (fun _ => Post.pure fun _ => ?_) (fun _ => Post.false))
  rw [BitVec.toNat_setWidth]
  have := p.2.isLt
  omega

theorem acnDecUIntBig_safeQ {k : Nat} (hk : k ≤ 8) : SafeQ (acnDecUIntBig k 0#64) (fun v => v.toNat < 2 ^ (8 * k)) := by
  refine safeQ_of_reads (n := 8 * k) (fun w hw => ?_)
  obtain ⟨v, h1, h2⟩ := exists_bitsMsb w
  rw [hw] at h1 h2
  rw [h2]
  obtain ⟨r, s⟩ := acnDecUIntBig_reads k 0 v h1
  refine ⟨⟨_, r, fun _ => ?_⟩, s⟩
  have := Nat.pow_le_pow_right (show 0 < 2 by omega) (show 8 * k ≤ 64 by omega)
  rw [Nat.zero_mul, Nat.zero_add, BitVec.toNat_ofNat, Nat.mod_eq_of_lt (by omega)]; exact h1

theorem acnDecUIntLittle_post (k : Nat) : ∀ (i : Nat) (v : U64), v.toNat < 2 ^ (8 * i) →
    Post (acnDecUIntLittle k i v) (fun v => v.toNat < 2 ^ (8 * (i + k))) := by
  induction k with
  | zero => exact fun i v h => Post.pure fun _ => h
  | succ k ih =>
    intro i v h
    simp only [acnDecUIntLittle]
    refine Post.bind (fun p => Post.ite (fun _ => ?_) (fun _ => Post.false))
    rw [show i + (k + 1) = i + 1 + k by omega]
    refine ih (i + 1) _ ?_
    rw [BitVec.toNat_or, BitVec.toNat_shiftLeft, BitVec.toNat_setWidth]
    refine Nat.or_lt_two_pow (Nat.lt_of_lt_of_le h (Nat.pow_le_pow_right (by omega) (by omega))) ?_
    refine Nat.lt_of_le_of_lt (Nat.mod_le _ _) ?_
    rw [Nat.shiftLeft_eq, show 8 * (i + 1) = 8 + i * 8 by omega, Nat.pow_add]
    refine Nat.mul_lt_mul_of_pos_right ?_ (Nat.two_pow_pos _)
    have := p.2.isLt
    rw [Nat.mod_eq_of_lt (by omega)]; exact this

theorem decAU_safeQ {w : Nat} {f : M (Bool × U64)} {b : Nat} (h : SafeQ f (fun v => v.toNat < b)) :
    SafeQ (decAU w f) (fun x => 0 ≤ x ∧ x < 2 ^ w ∧ x < b) := by
  unfold decAU decU acnNarrowU
  refine SafeQ.ite (fun e => ?_) (fun _ => ?_)
  · subst e
    refine h.map (fun p hp => ⟨hp, fun hq => ?_⟩)
    have := p.2.isLt
    dsimp only
    exact ⟨by omega, by exact_mod_cast this, by exact_mod_cast hq⟩
  · rw [bind_assoc]
    simp only [pure_bind]
    refine h.map (fun p hp => ⟨hp, fun hq => ?_⟩)
    rw [BitVec.toNat_setWidth]
    have h1 := Nat.mod_lt p.2.toNat (Nat.two_pow_pos w)
    have h2 := Nat.mod_le p.2.toNat (2 ^ w)
    dsimp only
    exact ⟨by omega, by exact_mod_cast h1, by omega⟩

theorem decAS_safe {w : Nat} {f : M (Bool × Int)} (h : Safe f) : Safe (decAS w f) := by
  unfold decAS acnNarrowS
  exact Safe.ite (fun _ => h) (fun _ => h.map (h := fun r : Bool × Int => (r.1, (BitVec.ofInt w r.2).toInt)) (fun _ e => e))

/-! ### Leaves -/

theorem decInt_bounds {w : Nat} {a b : Int} (hok : (Rng.concrete a b).ok w false) :
    Post (decInt w (.concrete a b) false) (fun v => a ≤ v ∧ v ≤ b) := by
  simp only [decInt]
  simp only [Rng.ok] at hok
  refine Post.ite (fun h => Post.pure (fun _ => by omega)) (fun hab => ?_)
  by_cases h : 0 ≤ a
  · rw [if_pos ⟨h, trivial⟩] at hok
    rw [if_pos (by simp [Rng.unsigned, h])]
    have hw : w ≤ 64 := by omega
    have hb : b < 2 ^ 64 := by
      rcases hok.2.1 with h | h | h | h <;> subst h <;> omega
    have e1 := ofInt_toNat (x := a) (by omega) (by omega)
    have e2 := ofInt_toNat (x := b) (by omega) (by omega)
    have hle : BitVec.ofInt 64 a ≤ BitVec.ofInt 64 b := by rw [BitVec.le_def, e1, e2]; omega
    have hp := decodeConstraintPosWholeNumber_post hle
    refine Post.ite (fun _ => ?_) (fun _ => ?_)
    · intro s x s' hr
      unfold decU at hr
      obtain ⟨⟨r, v⟩, s1, h1, h2⟩ := run_bind hr
      simp only [pure_run, Res.ok.injEq, Prod.mk.injEq] at h2
      obtain ⟨⟨rfl, rfl⟩, rfl⟩ := h2
      obtain ⟨q1, q2⟩ := hp s v _ h1
      rw [BitVec.le_def, e1] at q1
      rw [BitVec.le_def, e2] at q2
      omega
    · unfold decodeConstraintPosWholeNumberNarrow
      rw [setWidth_ofInt hw h (by omega), setWidth_ofInt hw (by omega) hok.2.2]
      intro s x s' hr
      unfold decU at hr
      obtain ⟨⟨r, v⟩, s1, h1, h2⟩ := run_bind hr
      obtain ⟨⟨r', v'⟩, s2, h4, h3⟩ := run_bind h1
      simp only [pure_run, Res.ok.injEq, Prod.mk.injEq] at h2 h3
      obtain ⟨⟨rfl, rfl⟩, rfl⟩ := h2
      obtain ⟨⟨rfl, rfl⟩, rfl⟩ := h3
      obtain ⟨q1, q2⟩ := hp s v' _ h4
      rw [BitVec.le_def, e1] at q1
      rw [BitVec.le_def, e2] at q2
      have hbw := hok.2.2
      have : v'.toNat < 2 ^ w := by
        have : (v'.toNat : Int) < 2 ^ w := by omega
        exact_mod_cast this
      rw [BitVec.toNat_setWidth, Nat.mod_eq_of_lt this]
      omega
  · rw [if_neg (by simp [h])] at hok
    rw [if_neg (by simpa [Rng.unsigned] using h)]
    obtain ⟨k1, k2, k3, k4, k5⟩ := hok
    have hr : -(2 ^ 63) ≤ a ∧ b < 2 ^ 63 := by
      rcases k2 with h | h | h | h <;> subst h <;> omega
    have hp := decodeConstraintWholeNumber_post k1 k5 hr.1 hr.2
    refine Post.ite (fun _ => hp) (fun _ => ?_)
    unfold decodeConstraintWholeNumberNarrow
    intro s x s' hr
    obtain ⟨⟨r, v⟩, s1, h1, h2⟩ := run_bind hr
    simp only [pure_run, Res.ok.injEq, Prod.mk.injEq] at h2
    obtain ⟨⟨rfl, rfl⟩, rfl⟩ := h2
    obtain ⟨q1, q2⟩ := hp s v _ h1
    have : (BitVec.ofInt w v).toInt = v := by
      rcases k2 with h | h | h | h <;> subst h <;> (rw [BitVec.toInt_ofInt]; simp only [Int.bmod_def]; omega)
    rw [this]; exact ⟨q1, q2⟩

/-- What an integer decoder can produce. -/
theorem decAInt_safeQ {w : Nat} {r : Rng} {enc : IntEnc} (h : IntGuarded w r enc) : SafeQ (decAInt w r enc) (IntMay w r enc) := by
  have top : ∀ (f : M (Bool × U64)), Safe f → SafeQ (decAU w f) (fun x => 0 ≤ x ∧ x < 2 ^ w) := fun f hf =>
    (decAU_safeQ (w := w) (b := 2 ^ 64) (SafeQ.of hf (fun _ a _ _ => a.isLt))).mono (fun x hx => ⟨hx.1, hx.2.1⟩)
  have sgn : ∀ {e : IntEnc} {f : M (Bool × Int)}, e ≠ .uper → ¬ r.unsigned = true → Safe f → SafeQ (decAS w f) (IntMay w r e) := fun he hu hf =>
    (SafeQ.ofSafe (decAS_safe hf)).mono (fun x _ => by rw [IntMay, if_neg he]; exact fun h => absurd h hu)
  have uns : ∀ {e : IntEnc} {f : M (Bool × U64)} {n : Nat}, e ≠ .uper → SafeQ f (fun v => v.toNat < 2 ^ n) → (∀ x : Int, x < 2 ^ n → e.under x) →
      SafeQ (decAU w f) (IntMay w r e) := fun he hf hu =>
    (decAU_safeQ (w := w) hf).mono (fun x hx => by
      rw [IntMay, if_neg he]; exact fun _ => ⟨hx.1, hx.2.1, hu x (by exact_mod_cast hx.2.2)⟩)
  have any : ∀ {e : IntEnc} {f : M (Bool × U64)}, e ≠ .uper → Safe f → (∀ x : Int, e.under x) → SafeQ (decAU w f) (IntMay w r e) := fun he hf hu =>
    (top _ hf).mono (fun x hx => by
      rw [IntMay, if_neg he]; exact fun _ => ⟨hx.1, hx.2, hu x⟩)
  cases enc with
  | uper =>
    simp only [decAInt, IntGuarded] at *
    refine SafeQ.of (decInt_safe h.1 (fun a ha => by simpa using h.2 a ha)) ?_
    intro s x s' hr
    rw [IntMay, if_pos rfl]
    rintro a b rfl
    exact decInt_bounds h.1 s x s' hr
  | const n =>
    simp only [decAInt, IntGuarded] at *
    exact SafeQ.ite (fun hu => uns (by simp) (acnDecUIntConstSize_safeQ h) (fun _ h => h)) (fun hu => sgn (by simp) hu (acnDecSIntConstSize_safe n))
  | const8 =>
    simp only [decAInt]
    exact SafeQ.ite (fun hu => uns (by simp) acnDecUIntConstSize8_safeQ (fun _ h => h)) (fun hu => sgn (by simp) hu acnDecSIntConstSize8_safe)
  | big n =>
    simp only [decAInt, IntGuarded] at *
    exact SafeQ.ite (fun hu => uns (by simp) (acnDecUIntBig_safeQ h.2) (fun _ h => h)) (fun hu => sgn (by simp) hu (acnDecSIntBig_safe h.1 h.2))
  | little n =>
    simp only [decAInt, IntGuarded] at *
    have := acnDecUIntLittle_post n 0 0#64 (by simp)
    rw [Nat.zero_add] at this
    exact SafeQ.ite (fun hu => uns (by simp) (SafeQ.of (acnDecUIntLittle_safe _ _ _) this) (fun _ h => h))
      (fun hu => sgn (by simp) hu (acnDecSIntLittle_safe h.1 h.2))
  | bcd n =>
    simp only [decAInt]
    exact any (by simp) (bcdDecLoop_safe n _) (fun _ => trivial)
  | bcdNull =>
    simp only [decAInt]
    exact any (by simp) acnDecBcdNullTerminated_safe (fun _ => trivial)
  | ascii n => exact h.elim
  | asciiNull nul =>
    simp only [IntGuarded] at h
    simp only [decAInt, h, if_true]
    exact any (by simp) (acnDecUIntAsciiNullTerminated_safe nul) (fun _ => trivial)

theorem decABool_safe {e : BoolEnc} (h : LeafGuarded (.bool e)) : Safe (decABool e) := by
  cases e with
  | uper => exact readBit_safe
  | onePattern v tp fp n =>
    simp only [LeafGuarded] at h
    simp only [decABool]
    unfold acnBoolDecode
    have : Safe (readBitPattern (if v = true then tp else fp) n) :=
      safe_of_reads (n := n) (fun w hw => by
        have := readBitPattern_reads (pat := if v = true then tp else fp) (n := n) (by split; exacts [h.1, h.2]) hw
        exact ⟨⟨_, this.1⟩, this.2⟩)
    exact this.ifOk (g := fun x => pure (true, if v = true then x else !x)) (e := fun r => r.2) (fun a => Safe.pure _ _)
  | twoPatterns tp fp n =>
    simp only [LeafGuarded] at h
    simp only [decABool]
    refine safe_of_reads (n := n) (fun w hw => ?_)
    have := decodeTrueFalseBoolean_reads h.1 h.2 hw
    exact ⟨⟨_, this.1⟩, this.2⟩

theorem enumRng_bounds {items : List (Int × Int)} (hne : items ≠ []) (h : ∀ it ∈ items, 0 ≤ it.2 ∧ it.2 < 2 ^ 64) :
    ∃ a b, enumRng items = .concrete a b ∧ 0 ≤ a ∧ a ≤ b ∧ b < 2 ^ 64 := by
  unfold enumRng
  have hne' : items.map (·.2) ≠ [] := by simpa using hne
  obtain ⟨lo, h1⟩ := Option.isSome_iff_exists.1 (List.isSome_min?_of_ne_nil hne')
  obtain ⟨hi, h2⟩ := Option.isSome_iff_exists.1 (List.isSome_max?_of_ne_nil hne')
  rw [h1, h2]
  refine ⟨lo, hi, rfl, ?_⟩
  have m1 := List.min?_mem h1
  have m2 := List.max?_mem h2
  obtain ⟨i1, k1, e1⟩ := List.mem_map.1 m1
  obtain ⟨i2, k2, e2⟩ := List.mem_map.1 m2
  have a1 := h i1 k1
  have a2 := h i2 k2
  have := (List.min?_eq_some_iff.1 h1).2 hi m2
  subst e1 e2
  exact ⟨a1.1, this, a2.2⟩

theorem decEnumInt_safe {items : List (Int × Int)} {valid : List Int} {enc : IntEnc} (h : LeafGuarded (.enum items valid enc)) :
    Safe (decEnumInt (enumRng items) enc) := by
  simp only [LeafGuarded] at h
  by_cases he : enc = .uper
  · subst he
    rw [if_pos rfl] at h
    obtain ⟨a, b, e, h1, h2, h3⟩ := enumRng_bounds h.1 h.2
    rw [e]
    simp only [decEnumInt, Rng.lower, Rng.upper]
    have e1 := ofInt_toNat (x := a) (by omega) (by omega)
    have e2 := ofInt_toNat (x := b) (by omega) (by omega)
    have hle : BitVec.ofInt 64 a ≤ BitVec.ofInt 64 b := by rw [BitVec.le_def, e1, e2]; omega
    exact (decodeConstraintPosWholeNumber_safe hle).map (h := fun p : Bool × U64 => (p.1, if (Rng.concrete a b).unsigned = true then (p.2.toNat : Int) else p.2.toInt))
      (fun _ h => h)
  · rw [if_neg he] at h
    have := (decAInt_safeQ h).safe
    cases enc <;> first | exact this | exact absurd rfl he

theorem decLeaf_safeQ {l : ALeaf} (h : LeafGuarded l) : SafeQ (decLeaf l) (DetMay l) := by
  cases l with
  | int w r enc mf =>
    simp only [LeafGuarded] at h
    simp only [decLeaf]
    refine (decAInt_safeQ h).map (fun p hp => ⟨hp, fun hq => ?_⟩)
    have hp : p.1 = true := hp
    dsimp only
    rw [if_pos hp]
    cases mf with
    | none => exact hq
    | some m => simp [DetMay]
  | bool e =>
    simp only [decLeaf]
    refine (SafeQ.ofSafe (decABool_safe h)).map (fun p hp => ⟨hp, fun _ => ?_⟩)
    simp only [DetMay]
    split <;> simp
  | enum items valid enc =>
    simp only [decLeaf]
    refine (SafeQ.ofSafe (decEnumInt_safe h)).bind (fun y _ => ?_) (fun _ => ⟨0, by rw [if_neg (by simp)]⟩)
    rw [if_pos rfl]
    split
    · rename_i it hit
      refine SafeQ.pure (fun _ => ?_)
      exact ⟨it.2, List.mem_of_find?_eq_some hit⟩
    · exact SafeQ.pure (by simp)

end Asn1
