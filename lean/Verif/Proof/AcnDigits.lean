import Verif.Model.AcnDigits
import Verif.Spec.Digits
import Verif.Proof.AcnInt3
import Verif.Proof.Search
/-! Decimal digits: the encoders and decoders of BCD and ASCII integers. -/
namespace Asn1

/-! ### numbers -/

theorem decLen_zero : decLen 0 = 0 := by rw [decLen]; simp
theorem decLen_pos {v : Nat} (h : 0 < v) : decLen v = decLen (v / 10) + 1 := by
  rw [decLen]; simp [Nat.pos_iff_ne_zero.1 h]

theorem decLen_le_iff (k : Nat) : ∀ v, decLen v ≤ k ↔ v < 10 ^ k := by
  induction k with
  | zero =>
    intro v
    rcases Nat.eq_zero_or_pos v with rfl | h
    · simp [decLen_zero]
    · rw [decLen_pos h]; simp; omega
  | succ k ih =>
    intro v
    rcases Nat.eq_zero_or_pos v with rfl | h
    · simp [decLen_zero, Nat.pow_pos]
    · rw [decLen_pos h, Nat.add_le_add_iff_right, ih, Nat.pow_succ, Nat.div_lt_iff_lt_mul (by omega)]

theorem lt_decLen (v : Nat) : v < 10 ^ decLen v := (decLen_le_iff _ v).1 (Nat.le_refl _)

theorem decLen_u64 (v : U64) : decLen v.toNat ≤ 20 := (decLen_le_iff 20 _).2 (by have := v.isLt; omega)

theorem decDigits_length (n v : Nat) : (decDigits n v).length = n := by
  induction n with
  | zero => rfl
  | succ n ih => simp [decDigits, ih]

theorem decDigits_lt (n v : Nat) : ∀ d ∈ decDigits n v, d < 10 := by
  induction n with
  | zero => simp [decDigits]
  | succ n ih =>
    intro d hd
    simp only [decDigits, List.mem_cons] at hd
    rcases hd with rfl | h
    · omega
    · exact ih d h

theorem bcdCode_succ (n v : Nat) : bcdCode (n + 1) v = bitsMsb 4 (v / 10 ^ n % 10) ++ bcdCode n v := by
  simp [bcdCode, decDigits]

theorem bcdCode_length (n v : Nat) : (bcdCode n v).length = 4 * n := by
  induction n with
  | zero => rfl
  | succ n ih => rw [bcdCode_succ, List.length_append, ih, bitsMsb_length]; omega

theorem digitChars_succ (n v : Nat) : digitChars (n + 1) v = BitVec.ofNat 8 (48 + v / 10 ^ n % 10) :: digitChars n v := by
  simp [digitChars, decDigits]

theorem digitChars_length (n v : Nat) : (digitChars n v).length = n := by simp [digitChars, decDigits_length]

/-- Digits stored least significant first. -/
def lowDigits (n v : Nat) : List Byte := (List.range n).map fun i => BitVec.ofNat 8 (v / 10 ^ i % 10)

theorem lowDigits_length (n v : Nat) : (lowDigits n v).length = n := by simp [lowDigits]

theorem lowDigits_succ (n v : Nat) : lowDigits (n + 1) v = BitVec.ofNat 8 (v % 10) :: lowDigits n (v / 10) := by
  simp only [lowDigits, List.range_succ_eq_map, List.map_cons, List.map_map, Nat.pow_zero, Nat.div_one]
  congr 1
  apply List.map_congr_left
  intro i _
  simp only [Function.comp, Nat.pow_succ', Nat.div_div_eq_div_mul]

theorem digitLoop_eq (k : Nat) : ∀ v : U64, v.toNat < 10 ^ k → digitLoop k v = pure (lowDigits (decLen v.toNat) v.toNat) := by
  induction k with
  | zero =>
    intro v h
    have : v = 0#64 := by apply BitVec.eq_of_toNat_eq; simpa using h
    subst this
    rw [show (0#64).toNat = 0 from rfl, decLen_zero]; rfl
  | succ k ih =>
    intro v h
    simp only [digitLoop]
    by_cases h0 : v > 0#64
    · rw [if_pos h0]
      have hp : 0 < v.toNat := by simpa [BitVec.lt_def] using h0
      have e : (v / 10#64).toNat = v.toNat / 10 := by simp [BitVec.toNat_udiv]
      have e2 : (v % 10#64).setWidth 8 = BitVec.ofNat 8 (v.toNat % 10) := by
        apply BitVec.eq_of_toNat_eq; simp [BitVec.toNat_umod]
      rw [ih _ (by rw [e]; rw [Nat.pow_succ] at h; omega), pure_bind, e, e2, decLen_pos hp, lowDigits_succ]
    · rw [if_neg h0]
      have : v = 0#64 := by
        apply BitVec.eq_of_toNat_eq
        have : ¬ 0 < v.toNat := by simpa [BitVec.lt_def] using h0
        simp; omega
      subst this
      rw [show (0#64).toNat = 0 from rfl, decLen_zero]; rfl

theorem digitLoop_u64 (v : U64) : digitLoop 100 v = pure (lowDigits (decLen v.toNat) v.toNat) :=
  digitLoop_eq 100 v (by have := v.isLt; omega)

theorem digit_zero {v i : Nat} (h : decLen v ≤ i) : v / 10 ^ i % 10 = 0 := by
  rw [Nat.div_eq_of_lt ((decLen_le_iff i v).1 h)]

theorem tmp_get {v i : Nat} (h : i < 100) :
    (lowDigits (decLen v) v ++ List.replicate (100 - (lowDigits (decLen v) v).length) 0#8)[i]? =
      some (BitVec.ofNat 8 (v / 10 ^ i % 10)) := by
  rw [lowDigits_length]
  by_cases hi : i < decLen v
  · rw [List.getElem?_append_left (by rwa [lowDigits_length])]
    simp [lowDigits, hi]
  · rw [List.getElem?_append_right (by rw [lowDigits_length]; omega), lowDigits_length, List.getElem?_replicate,
      if_pos (by omega), digit_zero (by omega)]

theorem bcdSizeLoop_eq (k : Nat) : ∀ v : U64, v.toNat < 10 ^ k → bcdSizeLoop k v = decLen v.toNat := by
  induction k with
  | zero =>
    intro v h
    have : v.toNat = 0 := by simpa using h
    rw [this, decLen_zero]; rfl
  | succ k ih =>
    intro v h
    simp only [bcdSizeLoop]
    by_cases h0 : v > 0#64
    · rw [if_pos h0]
      have hp : 0 < v.toNat := by simpa [BitVec.lt_def] using h0
      have e : (v / 10#64).toNat = v.toNat / 10 := by simp [BitVec.toNat_udiv]
      rw [ih _ (by rw [e]; rw [Nat.pow_succ] at h; omega), e, decLen_pos hp]
    · rw [if_neg h0]
      have : v.toNat = 0 := by
        have : ¬ 0 < v.toNat := by simpa [BitVec.lt_def] using h0
        omega
      rw [this, decLen_zero]

theorem bcdSize_eq (v : U64) : bcdSize v = decLen v.toNat := bcdSizeLoop_eq 64 v (by have := v.isLt; omega)

theorem assertC_true : assertC true = pure () := rfl
theorem assertC_false : assertC false = mAbort := rfl

/-! ### BCD -/

theorem digit_byte (v i : Nat) : (BitVec.ofNat 8 (v / 10 ^ i % 10)).toNat = v / 10 ^ i % 10 := by
  rw [BitVec.toNat_ofNat]; omega

theorem bcdEncLoop_appends (tmp : List Byte) (v k : Nat) (h : ∀ i, i < k → tmp[i]? = some (BitVec.ofNat 8 (v / 10 ^ i % 10))) :
    Appends (bcdEncLoop tmp k) () (bcdCode k v) := by
  induction k with
  | zero => exact Appends.pure _
  | succ k ih =>
    simp only [bcdEncLoop]
    rw [tblGet_ok (h k (by omega)), pure_bind, bcdCode_succ]
    have hd := digit_byte v k
    have a := appendPartialByte_appends (v := BitVec.ofNat 8 (v / 10 ^ k % 10)) (n := 4) (neg := false) (by omega) (by omega)
      (Or.inr (by rw [hd]; omega))
    have e : (negP false 4 (BitVec.ofNat 8 (v / 10 ^ k % 10))).toNat = v / 10 ^ k % 10 := hd
    rw [e] at a
    exact a.bind (g := fun _ => bcdEncLoop tmp k) (ih (fun i hi => h i (by omega)))

theorem acnEncBcdConstSize_appends {v : U64} {n : Nat} (hn : n ≤ 100) (h : v.toNat < 10 ^ n) :
    Appends (acnEncBcdConstSize v n) () (bcdCode n v.toNat) := by
  unfold acnEncBcdConstSize
  rw [digitLoop_u64]
  simp only [assertC_true, decide_eq_true (show 100 ≥ n from hn), pure_bind, lowDigits_length,
    decide_eq_true (show n ≥ decLen v.toNat from (decLen_le_iff n _).2 h)]
  have := bcdEncLoop_appends _ v.toNat n (fun i hi => tmp_get (v := v.toNat) (i := i) (by omega))
  rw [lowDigits_length] at this
  exact this.check

theorem nibble_reads {d : Nat} (h : d < 16) : Reads (readPartialByte 4) (true, BitVec.ofNat 8 d) (bitsMsb 4 d) := by
  have := readPartialByte_reads (v := BitVec.ofNat 8 d) (n := 4) (by omega) (by omega) (by rw [BitVec.toNat_ofNat]; omega)
  rwa [BitVec.toNat_ofNat, Nat.mod_eq_of_lt (by omega)] at this

theorem ofNat8_setWidth {d : Nat} (h : d < 256) : (BitVec.ofNat 8 d).setWidth 64 = BitVec.ofNat 64 d := by
  apply BitVec.eq_of_toNat_eq; simp only [BitVec.toNat_setWidth, BitVec.toNat_ofNat]; omega

theorem mul10_add (a d : Nat) : BitVec.ofNat 64 a * 10#64 + BitVec.ofNat 64 d = BitVec.ofNat 64 (a * 10 + d) := by
  apply BitVec.eq_of_toNat_eq
  simp only [BitVec.toNat_add, BitVec.toNat_mul, BitVec.toNat_ofNat]
  omega

theorem mod10_succ (v k : Nat) : v % 10 ^ (k + 1) = v / 10 ^ k % 10 * 10 ^ k + v % 10 ^ k := by
  rw [Nat.pow_succ, Nat.mod_mul]; rw [Nat.mul_comm, Nat.add_comm]

theorem dec_step (a v k : Nat) : (a * 10 + v / 10 ^ k % 10) * 10 ^ k + v % 10 ^ k = a * 10 ^ (k + 1) + v % 10 ^ (k + 1) := by
  rw [mod10_succ, Nat.add_mul, Nat.mul_assoc, ← Nat.pow_succ', Nat.add_assoc]

theorem bcdDecLoop_reads (k : Nat) : ∀ a v : Nat,
    Reads (bcdDecLoop k (BitVec.ofNat 64 a)) (true, BitVec.ofNat 64 (a * 10 ^ k + v % 10 ^ k)) (bcdCode k v) ∧
    Short (bcdDecLoop k (BitVec.ofNat 64 a)) (bcdCode k v) := by
  induction k with
  | zero =>
    intro a v
    simp only [bcdDecLoop, Nat.pow_zero, Nat.mul_one, Nat.mod_one, Nat.add_zero]
    exact ⟨Reads.pure _, Short.nil _⟩
  | succ k ih =>
    intro a v
    obtain ⟨r, s⟩ := ih (a * 10 + v / 10 ^ k % 10) v
    rw [dec_step] at r
    have rd := nibble_reads (d := v / 10 ^ k % 10) (by omega)
    simp only [bcdDecLoop]
    rw [bcdCode_succ]
    constructor
    · refine rd.bind ?_
      rw [if_pos rfl]
      dsimp only
      rw [ofNat8_setWidth (by omega), mul10_add]
      exact r
    · refine ((readPartialByte_needs (by omega)).short (by simp)).bind rd ?_ (fun a => ⟨_, by rw [if_neg (by simp)]⟩)
      rw [if_pos rfl]
      dsimp only
      rw [ofNat8_setWidth (by omega), mul10_add]
      exact s

theorem bcdDecLoop_safe (k : Nat) : ∀ a, Safe (bcdDecLoop k a) := by
  induction k with
  | zero => intro a; exact Safe.pure _ _
  | succ k ih =>
    intro a
    simp only [bcdDecLoop]
    refine (readPartialByte_safe (by omega)).bind (fun a => ?_) (fun a => ⟨_, by rw [if_neg (by simp)]⟩)
    rw [if_pos rfl]
    exact ih _

theorem acnDecBcdConstSize_reads {v : U64} {n : Nat} (h : v.toNat < 10 ^ n) :
    Reads (acnDecBcdConstSize n) (true, v) (bcdCode n v.toNat) ∧ Short (acnDecBcdConstSize n) (bcdCode n v.toNat) := by
  have := bcdDecLoop_reads n 0 v.toNat
  rwa [Nat.zero_mul, Nat.zero_add, Nat.mod_eq_of_lt h, BitVec.ofNat_toNat, BitVec.setWidth_eq] at this

theorem acnEncBcdLengthEmbedded_appends (v : U64) :
    Appends (acnEncBcdLengthEmbedded v) () (bitsMsb 8 (decLen v.toNat) ++ bcdCode (decLen v.toNat) v.toNat) := by
  unfold acnEncBcdLengthEmbedded
  rw [bcdSize_eq]
  have h20 := decLen_u64 v
  have a1 := (appendByte0_writes (BitVec.ofNat 8 (decLen v.toNat))).appends
  rw [show byteBits (BitVec.ofNat 8 (decLen v.toNat)) = bitsMsb 8 (decLen v.toNat) by
    rw [byteBits, BitVec.toNat_ofNat, Nat.mod_eq_of_lt (by omega)]] at a1
  have a2 := acnEncBcdConstSize_appends (v := v) (n := decLen v.toNat) (by omega) (lt_decLen _)
  exact a1.bind (g := fun _ => do acnEncBcdConstSize v (decLen v.toNat); assertInBounds) a2.check

theorem byteLen_reads {n : Nat} (h : n < 256) : Reads readByte (true, BitVec.ofNat 8 n) (bitsMsb 8 n) ∧
    Short readByte (bitsMsb 8 n) := by
  have := readByte_reads (BitVec.ofNat 8 n)
  rw [byteBits, BitVec.toNat_ofNat, Nat.mod_eq_of_lt h] at this
  exact ⟨this, readByte_needs.short (by simp)⟩

theorem acnDecBcdLengthEmbedded_reads {v : U64} (h : v.toNat < 10 ^ 16) :
    Reads acnDecBcdLengthEmbedded (true, v) (bitsMsb 8 (decLen v.toNat) ++ bcdCode (decLen v.toNat) v.toNat) ∧
    Short acnDecBcdLengthEmbedded (bitsMsb 8 (decLen v.toNat) ++ bcdCode (decLen v.toNat) v.toNat) := by
  have hl := (decLen_le_iff 16 _).2 h
  obtain ⟨r1, s1⟩ := byteLen_reads (n := decLen v.toNat) (by omega)
  obtain ⟨r2, s2⟩ := acnDecBcdConstSize_reads (v := v) (n := decLen v.toNat) (lt_decLen _)
  have e : (BitVec.ofNat 8 (decLen v.toNat)).toNat = decLen v.toNat := by rw [BitVec.toNat_ofNat]; omega
  unfold acnDecBcdLengthEmbedded
  constructor
  · refine r1.bind ?_
    rw [if_pos rfl]; dsimp only; rw [e, if_neg (by omega)]
    exact r2
  · refine s1.bind r1 ?_ (fun a => ⟨0#64, by rw [if_neg (by simp)]⟩)
    rw [if_pos rfl]; dsimp only; rw [e, if_neg (by omega)]
    exact s2

theorem acnDecBcdLengthEmbedded_safe : Safe acnDecBcdLengthEmbedded := by
  unfold acnDecBcdLengthEmbedded
  refine readByte_safe.bind (fun a => ?_) (fun a => ⟨0#64, by rw [if_neg (by simp)]⟩)
  rw [if_pos rfl]
  exact Safe.ite (fun _ => Safe.pure _ _) (fun _ => bcdDecLoop_safe _ _)

theorem acnEncBcdNullTerminated_appends (v : U64) :
    Appends (acnEncBcdNullTerminated v) () (bcdCode (decLen v.toNat) v.toNat ++ bitsMsb 4 15) := by
  unfold acnEncBcdNullTerminated
  rw [bcdSize_eq]
  have h20 := decLen_u64 v
  have a1 := acnEncBcdConstSize_appends (v := v) (n := decLen v.toNat) (by omega) (lt_decLen _)
  have a2 := appendPartialByte_appends (v := 0xF#8) (n := 4) (neg := false) (by omega) (by omega) (Or.inr (by decide))
  exact a1.bind (g := fun _ => do appendPartialByte 0xF#8 4 false; assertInBounds) a2.check

/-! ### loops with a step budget -/

/-- `f` succeeds exactly when `n` bits are left, and consumes them. -/
def Steps {α : Type} (f : M (Bool × α)) (n : Nat) : Prop :=
  ∀ s, Wf s → s.pos ≤ 8 * s.count → Slack s →
    (∃ a s', f s = .ok ((true, a), s') ∧ s'.buf = s.buf ∧ s'.count = s.count ∧ Wf s' ∧ s'.pos = s.pos + n ∧ s'.pos ≤ 8 * s'.count) ∨
    (∃ a s', f s = .ok ((false, a), s') ∧ s'.buf = s.buf ∧ s'.count = s.count)

theorem steps_of {α : Type} {f : M (Bool × α)} {n : Nat}
    (h : ∀ w : List Bool, w.length = n → ∃ a, Reads f (true, a) w) (hn : NeedsBits f n) : Steps f n := by
  intro s hwf hp hsl
  obtain ⟨rest, hr⟩ := decSt_exists hwf hp
  by_cases hlen : n ≤ rest.length
  · obtain ⟨a, ha⟩ := h (rest.take n) (by rw [List.length_take]; omega)
    rw [← List.take_append_drop n rest] at hr
    obtain ⟨s', e, hd, hb, hc⟩ := ha s _ hr
    have h1 := hd.pos
    have h2 := hr.pos
    rw [List.length_append, List.length_take] at h2
    rw [hc] at h1
    exact Or.inl ⟨a, s', e, hb, hc, hd.wf, by omega, by omega⟩
  · have := hr.pos
    obtain ⟨a, s', e⟩ := hn s hwf hp hsl (by omega)
    exact Or.inr ⟨a, s', e⟩

theorem readByte_steps : Steps readByte 8 := by
  apply steps_of _ readByte_needs
  intro w hw
  obtain ⟨b, hb⟩ : ∃ b, byteBits b = w := ⟨BitVec.ofNat 8 (natOfBits w), by
    have := natOfBits_lt w
    rw [byteBits, BitVec.toNat_ofNat, Nat.mod_eq_of_lt (by rw [hw] at this; exact this), ← hw, bitsMsb_natOfBits]⟩
  exact ⟨b, hb ▸ readByte_reads b⟩

theorem readNibble_steps : Steps (readPartialByte 4) 4 := by
  apply steps_of _ (readPartialByte_needs (by omega))
  intro w hw
  have h := natOfBits_lt w
  rw [hw] at h
  have := nibble_reads (d := natOfBits w) (by omega)
  rw [show bitsMsb 4 (natOfBits w) = w by rw [← hw, bitsMsb_natOfBits]] at this
  exact ⟨_, this⟩

/-- What a decoder with a step budget does once the budget exceeds the number of bits left: it is safe, and a larger
budget makes no difference. -/
def Budget {α : Type} (g : Nat → M (Bool × α)) : Prop :=
  ∀ n s, Wf s → s.pos ≤ 8 * s.count → Slack s → 8 * s.count < s.pos + n →
    g (n + 1) s = g n s ∧
    ∃ r s', g n s = .ok (r, s') ∧ s'.buf = s.buf ∧ s'.count = s.count ∧
      (r.1 = true → s'.currentBit < 8 ∧ s'.pos ≤ 8 * s.count ∧ s.pos ≤ s'.pos)

theorem Budget.more {α : Type} {g : Nat → M (Bool × α)} (h : Budget g) {s : BitStream} (hwf : Wf s) (hp : s.pos ≤ 8 * s.count)
    (hsl : Slack s) {n : Nat} (hn : 8 * s.count < s.pos + n) (m : Nat) : g (n + m) s = g n s := by
  induction m with
  | zero => rfl
  | succ m ih => rw [← Nat.add_assoc, (h (n + m) s hwf hp hsl (by omega)).1, ih]

theorem Budget.safe {α : Type} {g : Nat → M (Bool × α)} (h : Budget g) :
    Safe (getS >>= fun s => g (8 * s.count + 1)) := by
  intro s hwf hp hsl
  exact (h (8 * s.count + 1) s hwf hp hsl (by omega)).2

theorem Budget.reads {α : Type} {g : Nat → M (Bool × α)} {a : Bool × α} {w : List Bool}
    (hr : ∀ n, w.length < n → Reads (g n) a w) :
    Reads (getS >>= fun s => g (8 * s.count + 1)) a w := by
  intro s rest hs
  have := hs.room
  exact hr (8 * s.count + 1) (by omega) s rest hs

theorem Budget.short {α : Type} {g : Nat → M (Bool × α)} (h : Budget g) {w : List Bool}
    (hr : ∀ n, w.length < n → Short (g n) w) :
    Short (getS >>= fun s => g (8 * s.count + 1)) w := by
  intro s rest hs hsl hpre hne
  have hp := hs.pos
  have := hr (8 * s.count + 1 + w.length) (by omega) s rest hs hsl hpre hne
  rw [h.more hs.wf (by omega) hsl (by omega)] at this
  exact this

theorem bcdNullLoop_budget (ret : U64) : Budget (fun n => bcdNullLoop n ret) := by
  intro n
  induction n generalizing ret with
  | zero => intro s hwf hp _ h; omega
  | succ n ih =>
    intro s hwf hp hsl h
    rcases readNibble_steps s hwf hp hsl with ⟨d, s', e, hb, hc, hwf', hp', hp2⟩ | ⟨d, s', e, hb, hc⟩
    · simp only [bcdNullLoop]
      rw [bind_ok e, bind_ok e, if_pos rfl]
      by_cases hd : d.toNat > 9
      · simp only [hd, if_true]
        exact ⟨trivial, _, s', rfl, hb, hc, fun _ => ⟨hwf'.bit, by omega, by omega⟩⟩
      · simp only [hd, if_false]
        have := ih (ret * 10#64 + d.setWidth 64) s' hwf' hp2 (by simp only [Slack, hc, hb]; exact hsl) (by omega)
        obtain ⟨h1, r, s2, h2, h3, h4, h5⟩ := this
        refine ⟨h1, r, s2, h2, h3.trans hb, h4.trans hc, fun hr => ?_⟩
        obtain ⟨a1, a2, a3⟩ := h5 hr
        exact ⟨a1, by omega, by omega⟩
    · simp only [bcdNullLoop]
      rw [bind_ok e, bind_ok e, if_neg (by simp)]
      exact ⟨rfl, _, s', rfl, hb, hc, by simp⟩

theorem bcdNullLoop_reads (k : Nat) : ∀ (n a v : Nat), k < n →
    Reads (bcdNullLoop n (BitVec.ofNat 64 a)) (true, BitVec.ofNat 64 (a * 10 ^ k + v % 10 ^ k)) (bcdCode k v ++ bitsMsb 4 15) ∧
    Short (bcdNullLoop n (BitVec.ofNat 64 a)) (bcdCode k v ++ bitsMsb 4 15) := by
  induction k with
  | zero =>
    intro n a v hn
    obtain ⟨n, rfl⟩ : ∃ m, n = m + 1 := ⟨n - 1, by omega⟩
    simp only [bcdNullLoop, Nat.pow_zero, Nat.mul_one, Nat.mod_one, Nat.add_zero]
    rw [show bcdCode 0 v ++ bitsMsb 4 15 = bitsMsb 4 15 ++ [] from rfl]
    have rd := nibble_reads (d := 15) (by omega)
    constructor
    · refine rd.bind ?_
      rw [if_pos rfl, if_pos (by decide)]
      exact Reads.pure _
    · exact ((readPartialByte_needs (by omega)).short (by simp)).bind rd (Short.nil _) (fun a => ⟨_, by rw [if_neg (by simp)]⟩)
  | succ k ih =>
    intro n a v hn
    obtain ⟨n, rfl⟩ : ∃ m, n = m + 1 := ⟨n - 1, by omega⟩
    obtain ⟨r, s⟩ := ih n (a * 10 + v / 10 ^ k % 10) v (by omega)
    rw [dec_step] at r
    have rd := nibble_reads (d := v / 10 ^ k % 10) (by omega)
    have e : ¬ (BitVec.ofNat 8 (v / 10 ^ k % 10)).toNat > 9 := by rw [BitVec.toNat_ofNat]; omega
    simp only [bcdNullLoop]
    rw [bcdCode_succ, List.append_assoc]
    constructor
    · refine rd.bind ?_
      rw [if_pos rfl]
      dsimp only
      rw [if_neg e, ofNat8_setWidth (by omega), mul10_add]
      exact r
    · refine ((readPartialByte_needs (by omega)).short (by simp)).bind rd ?_ (fun a => ⟨_, by rw [if_neg (by simp)]⟩)
      rw [if_pos rfl]
      dsimp only
      rw [if_neg e, ofNat8_setWidth (by omega), mul10_add]
      exact s

theorem acnDecBcdNullTerminated_reads (v : U64) :
    Reads acnDecBcdNullTerminated (true, v) (bcdCode (decLen v.toNat) v.toNat ++ bitsMsb 4 15) ∧
    Short acnDecBcdNullTerminated (bcdCode (decLen v.toNat) v.toNat ++ bitsMsb 4 15) := by
  have key := fun n h => bcdNullLoop_reads (decLen v.toNat) n 0 v.toNat h
  rw [Nat.zero_mul, Nat.zero_add, Nat.mod_eq_of_lt (lt_decLen _), BitVec.ofNat_toNat, BitVec.setWidth_eq] at key
  have hl : (bcdCode (decLen v.toNat) v.toNat ++ bitsMsb 4 15).length = 4 * decLen v.toNat + 4 := by
    rw [List.length_append, bcdCode_length, bitsMsb_length]
  constructor
  · exact Budget.reads (g := fun n => bcdNullLoop n 0#64) (fun n hn => (key n (by omega)).1)
  · exact (bcdNullLoop_budget 0#64).short (fun n hn => (key n (by omega)).2)

theorem acnDecBcdNullTerminated_safe : Safe acnDecBcdNullTerminated := (bcdNullLoop_budget 0#64).safe

end Asn1
