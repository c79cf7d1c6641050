import Verif.Proof.AcnDigits
/-! Integers as ASCII digits. -/
namespace Asn1

theorem charByte (d : Nat) : BitVec.ofNat 8 d + 48#8 = BitVec.ofNat 8 (48 + d) := by
  apply BitVec.eq_of_toNat_eq; simp only [BitVec.toNat_add, BitVec.toNat_ofNat]; omega

theorem charByte_sub (d : Nat) (h : d < 10) : (BitVec.ofNat 8 (48 + d) - 48#8).setWidth 64 = BitVec.ofNat 64 d := by
  apply BitVec.eq_of_toNat_eq; simp only [BitVec.toNat_setWidth, BitVec.toNat_sub, BitVec.toNat_ofNat]; omega

theorem charByte_toNat (d : Nat) (h : d < 10) : (BitVec.ofNat 8 (48 + d)).toNat = 48 + d := by
  rw [BitVec.toNat_ofNat]; omega

theorem asciiEncLoop_appends (tmp : List Byte) (v k : Nat) (h : ∀ i, i < k → tmp[i]? = some (BitVec.ofNat 8 (v / 10 ^ i % 10))) :
    Appends (asciiEncLoop tmp k) () (bytesBits (digitChars k v)) := by
  induction k with
  | zero => exact Appends.pure _
  | succ k ih =>
    simp only [asciiEncLoop]
    rw [tblGet_ok (h k (by omega)), pure_bind, digitChars_succ, bytesBits_cons, charByte _]
    exact (appendByte0_writes _).appends.bind (g := fun _ => asciiEncLoop tmp k) (ih (fun i hi => h i (by omega)))

theorem acnEncUIntAsciiConstSize_appends {v : U64} {n : Nat} (hn : n ≤ 100) (h : v.toNat < 10 ^ n) :
    Appends (acnEncUIntAsciiConstSize v n) () (bytesBits (digitChars n v.toNat)) := by
  unfold acnEncUIntAsciiConstSize
  rw [digitLoop_u64]
  have h1 := (decLen_le_iff n _).2 h
  simp only [assertC_true, decide_eq_true (show (100 : Int) ≥ n by omega), pure_bind, lowDigits_length,
    decide_eq_true (show (n : Int) ≥ decLen v.toNat by omega), Int.toNat_natCast]
  have := asciiEncLoop_appends _ v.toNat n (fun i hi => tmp_get (v := v.toNat) (i := i) (by omega))
  rw [lowDigits_length] at this
  exact this.check

theorem asciiDecLoop_reads (k : Nat) : ∀ a v : Nat,
    Reads (asciiDecLoop k (BitVec.ofNat 64 a)) (true, BitVec.ofNat 64 (a * 10 ^ k + v % 10 ^ k)) (bytesBits (digitChars k v)) ∧
    Short (asciiDecLoop k (BitVec.ofNat 64 a)) (bytesBits (digitChars k v)) := by
  induction k with
  | zero =>
    intro a v
    simp only [asciiDecLoop, Nat.pow_zero, Nat.mul_one, Nat.mod_one, Nat.add_zero]
    exact ⟨Reads.pure _, Short.nil _⟩
  | succ k ih =>
    intro a v
    obtain ⟨r, s⟩ := ih (a * 10 + v / 10 ^ k % 10) v
    rw [dec_step] at r
    have hd : v / 10 ^ k % 10 < 10 := by omega
    have rd := readByte_reads (BitVec.ofNat 8 (48 + v / 10 ^ k % 10))
    have ha : decide ((BitVec.ofNat 8 (48 + v / 10 ^ k % 10)).toNat ≥ 48 ∧ (BitVec.ofNat 8 (48 + v / 10 ^ k % 10)).toNat ≤ 57) = true := by
      rw [charByte_toNat _ hd]; apply decide_eq_true; omega
    simp only [asciiDecLoop]
    rw [digitChars_succ, bytesBits_cons]
    constructor
    · refine rd.bind ?_
      rw [if_pos rfl]
      dsimp only
      rw [ha, assertC_true, pure_bind, charByte_sub _ hd, mul10_add]
      exact r
    · refine (readByte_needs.short (by simp)).bind rd ?_ (fun a => ⟨_, by rw [if_neg (by simp)]⟩)
      rw [if_pos rfl]
      dsimp only
      rw [ha, assertC_true, pure_bind, charByte_sub _ hd, mul10_add]
      exact s

theorem acnDecUIntAsciiConstSize_reads {v : U64} {n : Nat} (h : v.toNat < 10 ^ n) :
    Reads (acnDecUIntAsciiConstSize n) (true, v) (bytesBits (digitChars n v.toNat)) ∧
    Short (acnDecUIntAsciiConstSize n) (bytesBits (digitChars n v.toNat)) := by
  have := asciiDecLoop_reads n 0 v.toNat
  rwa [Nat.zero_mul, Nat.zero_add, Nat.mod_eq_of_lt h, BitVec.ofNat_toNat, BitVec.setWidth_eq] at this

/-! ### sign -/

theorem absUInt_ok {v : Int} (h1 : -(2 ^ 63) < v) (h2 : v < 2 ^ 63) : absUInt v = pure (BitVec.ofNat 64 v.natAbs) := by
  unfold absUInt
  split
  · rw [ofInt_eq_ofNat (by omega), show v.toNat = v.natAbs by omega]
  · rw [chk_ok (by omega), pure_bind, ofInt_eq_ofNat (by omega), show (-v).toNat = v.natAbs by omega]

theorem signByte_eq (v : Int) : signByte v = signChar v := by
  unfold signByte signChar
  by_cases h : v < 0
  · rw [if_pos h, if_neg (by omega)]
  · rw [if_neg h, if_pos (by omega)]

theorem abs_toNat {v : Int} (h1 : -(2 ^ 63) < v) (h2 : v < 2 ^ 63) : (BitVec.ofNat 64 v.natAbs).toNat = v.natAbs := by
  rw [BitVec.toNat_ofNat]; omega

theorem acnEncSIntAsciiConstSize_appends {v : Int} {n : Nat} (h1 : -(2 ^ 63) < v) (h2 : v < 2 ^ 63) (hn : n ≤ 100)
    (h : v.natAbs < 10 ^ n) :
    Appends (acnEncSIntAsciiConstSize v (n + 1 : Nat)) () (bytesBits (signChar v :: digitChars n v.natAbs)) := by
  unfold acnEncSIntAsciiConstSize
  rw [absUInt_ok h1 h2, pure_bind, signByte_eq, bytesBits_cons]
  have a := acnEncUIntAsciiConstSize_appends (v := BitVec.ofNat 64 v.natAbs) hn (by rwa [abs_toNat h1 h2])
  rw [abs_toNat h1 h2] at a
  rw [show ((n + 1 : Nat) : Int) - 1 = n by omega]
  exact (appendByte0_writes _).appends.bind (g := fun _ => acnEncUIntAsciiConstSize (BitVec.ofNat 64 v.natAbs) n) a

theorem sign_mul {v : Int} (h1 : -(2 ^ 63) < v) (h2 : v < 2 ^ 63) :
    chk ((if signChar v = 43#8 then 1 else -1) * (BitVec.ofNat 64 v.natAbs).toInt) = pure v := by
  rw [ofNat_toInt (by omega)]
  unfold signChar
  by_cases h : v < 0
  · rw [if_pos h, if_neg (by decide), chk_ok (by omega)]; congr 1; omega
  · rw [if_neg h, if_pos rfl, chk_ok (by omega)]; congr 1; omega

theorem signChar_cases (v : Int) : signChar v = 43#8 ∨ signChar v = 45#8 := by
  unfold signChar; split <;> simp

theorem acnDecSIntAsciiConstSize_reads {v : Int} {n : Nat} (h1 : -(2 ^ 63) < v) (h2 : v < 2 ^ 63) (h : v.natAbs < 10 ^ n) :
    Reads (acnDecSIntAsciiConstSize (n + 1 : Nat)) (true, v) (bytesBits (signChar v :: digitChars n v.natAbs)) ∧
    Short (acnDecSIntAsciiConstSize (n + 1 : Nat)) (bytesBits (signChar v :: digitChars n v.natAbs)) := by
  unfold acnDecSIntAsciiConstSize
  rw [show ((n + 1 : Nat) : Int) - 1 = n by omega, bytesBits_cons]
  obtain ⟨r, s⟩ := acnDecUIntAsciiConstSize_reads (v := BitVec.ofNat 64 v.natAbs) (n := n) (by rwa [abs_toNat h1 h2])
  rw [abs_toNat h1 h2] at r s
  constructor
  · refine (readByte_reads _).bind ?_
    rw [if_pos rfl]; dsimp only; rw [if_pos (signChar_cases v), ← List.append_nil (bytesBits (digitChars _ _))]
    refine r.bind ?_
    rw [if_pos rfl]; dsimp only; rw [sign_mul h1 h2, pure_bind]
    exact Reads.pure _
  · refine (readByte_needs.short (by simp)).bind (readByte_reads _) ?_ (fun a => ⟨0, by rw [if_neg (by simp)]⟩)
    rw [if_pos rfl]; dsimp only; rw [if_pos (signChar_cases v), ← List.append_nil (bytesBits (digitChars _ _))]
    exact s.bind r (Short.nil _) (fun a => ⟨0, by rw [if_neg (by simp)]⟩)

/-! ### printing -/

theorem low_reverse (v n : Nat) : (lowDigits n v).reverse.map (· + 48#8) = digitChars n v := by
  induction n with
  | zero => rfl
  | succ n ih =>
    rw [digitChars_succ, ← ih]
    simp only [lowDigits, List.range_succ, List.map_append, List.reverse_append, List.map_cons, List.map_nil,
      List.reverse_singleton, List.singleton_append, List.map_cons]
    rw [charByte _]

theorem getIntegerDigits_eq (v : U64) : getIntegerDigits v = pure (digitChars (printLen v.toNat) v.toNat) := by
  unfold getIntegerDigits printLen
  by_cases h : v > 0#64
  · have hp : 0 < v.toNat := by simpa [BitVec.lt_def] using h
    rw [if_pos h, digitLoop_u64, pure_bind, low_reverse, if_neg (by omega)]
  · have : v.toNat = 0 := by
      have : ¬ 0 < v.toNat := by simpa [BitVec.lt_def] using h
      omega
    rw [if_neg h, this, if_pos rfl]; rfl

theorem lt_printLen (v : Nat) : v < 10 ^ printLen v := by
  unfold printLen
  split
  · omega
  · exact lt_decLen v

theorem printLen_u64 (v : U64) : printLen v.toNat ≤ 20 := by
  unfold printLen
  split
  · omega
  · exact decLen_u64 v

theorem appendChars_appends (l : List Byte) : Appends (appendChars l) () (bytesBits l) := by
  induction l with
  | nil => exact Appends.pure _
  | cons b t ih =>
    rw [bytesBits_cons]
    exact (appendByte0_writes b).appends.bind (g := fun _ => appendChars t) ih

theorem lenByte_bits {n : Nat} (h : n < 256) : byteBits (BitVec.ofNat 8 n) = bitsMsb 8 n := by
  rw [byteBits, BitVec.toNat_ofNat, Nat.mod_eq_of_lt (by omega)]

theorem acnEncUIntAsciiLengthEmbedded_appends (v : U64) :
    Appends (acnEncUIntAsciiLengthEmbedded v) ()
      (bitsMsb 8 (printLen v.toNat) ++ bytesBits (digitChars (printLen v.toNat) v.toNat)) := by
  unfold acnEncUIntAsciiLengthEmbedded
  have h20 := printLen_u64 v
  rw [getIntegerDigits_eq, pure_bind, digitChars_length, ← lenByte_bits (by omega)]
  exact (appendByte0_writes _).appends.bind (g := fun _ => do appendChars _; assertInBounds) (appendChars_appends _).check

theorem acnDecUIntAsciiLengthEmbedded_reads (v : U64) :
    Reads acnDecUIntAsciiLengthEmbedded (true, v) (bitsMsb 8 (printLen v.toNat) ++ bytesBits (digitChars (printLen v.toNat) v.toNat)) ∧
    Short acnDecUIntAsciiLengthEmbedded (bitsMsb 8 (printLen v.toNat) ++ bytesBits (digitChars (printLen v.toNat) v.toNat)) := by
  unfold acnDecUIntAsciiLengthEmbedded
  have h20 := printLen_u64 v
  obtain ⟨r1, s1⟩ := byteLen_reads (n := printLen v.toNat) (by omega)
  obtain ⟨r2, s2⟩ := acnDecUIntAsciiConstSize_reads (v := v) (n := printLen v.toNat) (lt_printLen _)
  have e : (BitVec.ofNat 8 (printLen v.toNat)).toNat = printLen v.toNat := by rw [BitVec.toNat_ofNat]; omega
  constructor
  · refine r1.bind ?_
    rw [if_pos rfl]; dsimp only; rw [e]; exact r2
  · refine s1.bind r1 ?_ (fun a => ⟨0#64, by rw [if_neg (by simp)]⟩)
    rw [if_pos rfl]; dsimp only; rw [e]; exact s2

theorem abs_printLen {v : Int} (h1 : -(2 ^ 63) < v) (h2 : v < 2 ^ 63) : printLen v.natAbs ≤ 20 := by
  have := printLen_u64 (BitVec.ofNat 64 v.natAbs)
  rwa [abs_toNat h1 h2] at this

theorem acnEncSIntAsciiLengthEmbedded_appends {v : Int} (h1 : -(2 ^ 63) < v) (h2 : v < 2 ^ 63) :
    Appends (acnEncSIntAsciiLengthEmbedded v) ()
      (bitsMsb 8 (printLen v.natAbs + 1) ++ bytesBits (signChar v :: digitChars (printLen v.natAbs) v.natAbs)) := by
  unfold acnEncSIntAsciiLengthEmbedded
  have h20 := abs_printLen h1 h2
  rw [absUInt_ok h1 h2, pure_bind, getIntegerDigits_eq, pure_bind, abs_toNat h1 h2, digitChars_length,
    ← lenByte_bits (by omega), bytesBits_cons, signByte_eq]
  rw [show BitVec.ofNat 8 (printLen v.natAbs) + 1#8 = BitVec.ofNat 8 (printLen v.natAbs + 1) by
    apply BitVec.eq_of_toNat_eq; simp only [BitVec.toNat_add, BitVec.toNat_ofNat]; omega]
  exact (appendByte0_writes _).appends.bind (g := fun _ => do let _ ← appendByte0 (signChar v); appendChars _; assertInBounds)
    ((appendByte0_writes _).appends.bind (g := fun _ => do appendChars _; assertInBounds) (appendChars_appends _).check)

theorem acnDecSIntAsciiLengthEmbedded_reads {v : Int} (h1 : -(2 ^ 63) < v) (h2 : v < 2 ^ 63) :
    Reads acnDecSIntAsciiLengthEmbedded (true, v)
      (bitsMsb 8 (printLen v.natAbs + 1) ++ bytesBits (signChar v :: digitChars (printLen v.natAbs) v.natAbs)) ∧
    Short acnDecSIntAsciiLengthEmbedded
      (bitsMsb 8 (printLen v.natAbs + 1) ++ bytesBits (signChar v :: digitChars (printLen v.natAbs) v.natAbs)) := by
  unfold acnDecSIntAsciiLengthEmbedded
  have h20 := abs_printLen h1 h2
  obtain ⟨r1, s1⟩ := byteLen_reads (n := printLen v.natAbs + 1) (by omega)
  obtain ⟨r2, s2⟩ := acnDecSIntAsciiConstSize_reads (v := v) (n := printLen v.natAbs) h1 h2 (lt_printLen _)
  have e : (BitVec.ofNat 8 (printLen v.natAbs + 1)).toNat = printLen v.natAbs + 1 := by rw [BitVec.toNat_ofNat]; omega
  constructor
  · refine r1.bind ?_
    rw [if_pos rfl]; dsimp only; rw [e]; exact r2
  · refine s1.bind r1 ?_ (fun a => ⟨0, by rw [if_neg (by simp)]⟩)
    rw [if_pos rfl]; dsimp only; rw [e]; exact s2

/-! ### terminated -/

theorem acnEncUIntAsciiNullTerminated_appends (v : U64) (nul : List Byte) :
    Appends (acnEncUIntAsciiNullTerminated v nul) () (bytesBits (digitChars (printLen v.toNat) v.toNat ++ nul)) := by
  unfold acnEncUIntAsciiNullTerminated
  rw [getIntegerDigits_eq, pure_bind, bytesBits_append]
  exact (appendChars_appends _).bind (g := fun _ => do appendChars nul; assertInBounds) (appendChars_appends _).check

theorem acnEncSIntAsciiNullTerminated_appends {v : Int} (h1 : -(2 ^ 63) < v) (h2 : v < 2 ^ 63) (nul : List Byte) :
    Appends (acnEncSIntAsciiNullTerminated v nul) ()
      (bytesBits (signChar v :: (digitChars (printLen v.natAbs) v.natAbs ++ nul))) := by
  unfold acnEncSIntAsciiNullTerminated
  rw [absUInt_ok h1 h2, pure_bind, signByte_eq, bytesBits_cons]
  have a := acnEncUIntAsciiNullTerminated_appends (BitVec.ofNat 64 v.natAbs) nul
  rw [abs_toNat h1 h2] at a
  exact (appendByte0_writes _).appends.bind (g := fun _ => acnEncUIntAsciiNullTerminated (BitVec.ofNat 64 v.natAbs) nul) a

theorem windowFill_reads (l : List Byte) :
    Reads (windowFill l.length) (true, l) (bytesBits l) ∧ Short (windowFill l.length) (bytesBits l) := by
  induction l with
  | nil => exact ⟨Reads.pure _, Short.nil _⟩
  | cons b t ih =>
    rw [bytesBits_cons]
    simp only [List.length_cons, windowFill]
    constructor
    · refine (readByte_reads b).bind ?_
      rw [if_pos rfl]
      exact ih.1.map (h := fun t => (t.1, b :: t.2))
    · refine (readByte_needs.short (by simp)).bind (readByte_reads b) ?_ (fun a => ⟨[], by rw [if_neg (by simp)]⟩)
      rw [if_pos rfl]
      exact ih.2.map (h := fun t => (t.1, b :: t.2)) (fun _ h => h)

theorem windowFill_safe (k : Nat) : Safe (windowFill k) := by
  induction k with
  | zero => exact Safe.pure _ _
  | succ k ih =>
    simp only [windowFill]
    refine readByte_safe.bind (fun a => ?_) (fun a => ⟨[], by rw [if_neg (by simp)]⟩)
    rw [if_pos rfl]
    exact ih.map (h := fun t => (t.1, _ :: t.2)) (fun _ h => h)

theorem windowFill_post (k : Nat) : Post (windowFill k) (fun l => l.length = k) := by
  induction k with
  | zero => exact Post.pure (fun _ => rfl)
  | succ k ih =>
    simp only [windowFill]
    refine Post.bind (fun a => Post.ite (fun _ => ?_) (fun _ => Post.false))
    refine Post.bind' ih (fun a ha => ?_) (fun a => ?_)
    · exact Post.pure (fun _ => by simp [ha])
    · exact Post.false

theorem noEarly_tail {nul : List Byte} {d : Byte} {ds : List Byte} (h : NoEarly nul (d :: ds)) : NoEarly nul ds := by
  intro i hi
  have := h (i + 1) (by simp; omega)
  simpa using this

def foldDigits (ds : List Byte) (ret : U64) : U64 := ds.foldl (fun r d => r * 10#64 + (d - 48#8).setWidth 64) ret

theorem asciiNullLoop_reads (nul : List Byte) (hn : nul ≠ []) (ds : List Byte) : ∀ (n : Nat) (win l : List Byte) (ret : U64),
    win ++ l = ds ++ nul → win.length = nul.length → NoEarly nul ds → ds.length < n →
    Reads (asciiNullLoop nul nul.length n win ret) (true, foldDigits ds ret) (bytesBits l) ∧
    Short (asciiNullLoop nul nul.length n win ret) (bytesBits l) := by
  induction ds with
  | nil =>
    intro n win l ret he hl hne hlt
    obtain ⟨n, rfl⟩ : ∃ m, n = m + 1 := ⟨n - 1, by omega⟩
    obtain ⟨rfl, rfl⟩ : win = nul ∧ l = [] := by
      have := congrArg List.length he
      simp only [List.length_append, List.length_nil] at this
      have hl0 : l = [] := List.eq_nil_of_length_eq_zero (by omega)
      subst hl0
      simpa using he
    simp only [asciiNullLoop]
    rw [memEq_pure (Nat.le_refl _) (Nat.le_refl _), pure_bind, if_pos (by simp)]
    exact ⟨Reads.pure _, Short.nil _⟩
  | cons d ds ih =>
    intro n win l ret he hl hne hlt
    obtain ⟨n, rfl⟩ : ∃ m, n = m + 1 := ⟨n - 1, by omega⟩
    have hlen := congrArg List.length he
    simp only [List.length_append, List.length_cons] at hlen
    have hn0 : 0 < nul.length := List.length_pos_iff.2 hn
    obtain ⟨w, win, rfl⟩ : ∃ w t, win = w :: t := by
      cases win with
      | nil => simp at hl; omega
      | cons w t => exact ⟨w, t, rfl⟩
    obtain ⟨b, l, rfl⟩ : ∃ b t, l = b :: t := by
      cases l with
      | nil => simp at hlen hl; omega
      | cons b t => exact ⟨b, t, rfl⟩
    simp only [List.cons_append, List.cons.injEq] at he
    obtain ⟨rfl, he⟩ := he
    have hneq : ¬ (nul.take nul.length = (w :: win).take nul.length) := by
      intro e
      rw [List.take_length, ← hl, List.take_length] at e
      apply hne 0 (by simp)
      rw [List.drop_zero, List.cons_append, ← he, e, ← List.cons_append]
      exact List.prefix_append _ _
    obtain ⟨r, s⟩ := ih n (win ++ [b]) l (ret * 10#64 + (w - 48#8).setWidth 64) (by simpa using he) (by simpa using hl) (noEarly_tail hne)
      (by simp at hlt; omega)
    simp only [asciiNullLoop]
    rw [memEq_pure (Nat.le_refl _) (by omega), pure_bind, if_neg (by simpa using hneq), tblGet_pure (by simp), pure_bind, bytesBits_cons]
    constructor
    · refine (readByte_reads b).bind ?_
      rw [if_pos rfl]
      exact r
    · refine (readByte_needs.short (by simp)).bind (readByte_reads b) ?_ (fun a => ⟨ret, by rw [if_neg (by simp)]⟩)
      rw [if_pos rfl]
      exact s

theorem asciiNullLoop_budget (nul : List Byte) (sz : Nat) (hsz : sz ≤ nul.length) (win : List Byte) (hw : win.length = sz)
    (ret : U64) : Budget (fun n => asciiNullLoop nul sz n win ret) := by
  intro n
  induction n generalizing ret win with
  | zero => intro s hwf hp _ h; omega
  | succ n ih =>
    intro s hwf hp hsl h
    simp only [asciiNullLoop]
    rw [memEq_pure hsz (by omega)]
    simp only [pure_bind]
    by_cases he : nul.take sz = win.take sz
    · rw [if_pos (by simpa using he), if_pos (by simpa using he)]
      exact ⟨rfl, _, s, rfl, rfl, rfl, fun _ => ⟨hwf.bit, hp, Nat.le_refl _⟩⟩
    · rw [if_neg (by simpa using he), if_neg (by simpa using he)]
      have hpos : 0 < win.length := by
        rcases Nat.eq_zero_or_pos win.length with h0 | h0
        · rw [← hw, h0] at he; simp at he
        · exact h0
      rw [tblGet_pure hpos]
      simp only [pure_bind]
      rcases readByte_steps s hwf hp hsl with ⟨d, s', e, hb, hc, hwf', hp', hp2⟩ | ⟨d, s', e, hb, hc⟩
      · rw [bind_ok e, bind_ok e, if_pos rfl]
        have := ih (win.tail ++ [d]) (by simp; omega) (ret * 10#64 + (win[0] - 48#8).setWidth 64) s' hwf' hp2
          (by simp only [Slack, hc, hb]; exact hsl) (by omega)
        obtain ⟨h1, r, s2, h2, h3, h4, h5⟩ := this
        refine ⟨h1, r, s2, h2, h3.trans hb, h4.trans hc, fun hr => ?_⟩
        obtain ⟨a1, a2, a3⟩ := h5 hr
        exact ⟨a1, by omega, by omega⟩
      · rw [bind_ok e, bind_ok e, if_neg (by simp)]
        exact ⟨rfl, _, s', rfl, hb, hc, by simp⟩

theorem foldDigits_eq (k : Nat) : ∀ a v, foldDigits (digitChars k v) (BitVec.ofNat 64 a) = BitVec.ofNat 64 (a * 10 ^ k + v % 10 ^ k) := by
  induction k with
  | zero => intro a v; simp [digitChars, decDigits, foldDigits, Nat.mod_one]
  | succ k ih =>
    intro a v
    rw [digitChars_succ]
    show foldDigits (digitChars k v) (BitVec.ofNat 64 a * 10#64 + (BitVec.ofNat 8 (48 + v / 10 ^ k % 10) - 48#8).setWidth 64) = _
    rw [charByte_sub _ (by omega), mul10_add, ih, dec_step]

theorem acnDecUIntAsciiNullTerminated_reads {v : U64} {nul : List Byte} (hn : nul ≠ []) (h10 : nul.length ≤ 10)
    (hne : NoEarly nul (digitChars (printLen v.toNat) v.toNat)) :
    Reads (acnDecUIntAsciiNullTerminated nul) (true, v) (bytesBits (digitChars (printLen v.toNat) v.toNat ++ nul)) ∧
    Short (acnDecUIntAsciiNullTerminated nul) (bytesBits (digitChars (printLen v.toNat) v.toNat ++ nul)) := by
  unfold acnDecUIntAsciiNullTerminated
  have hsz : (if nul.length < 10 then nul.length else 10) = nul.length := by split <;> omega
  simp only [hsz]
  generalize hds : digitChars (printLen v.toNat) v.toNat = ds at *
  have hfold : foldDigits ds 0#64 = v := by
    rw [← hds, foldDigits_eq _ 0 _, Nat.zero_mul, Nat.zero_add, Nat.mod_eq_of_lt (lt_printLen _), BitVec.ofNat_toNat, BitVec.setWidth_eq]
  have hlw : ((ds ++ nul).take nul.length).length = nul.length := by rw [List.length_take, List.length_append]; omega
  have hll : ((ds ++ nul).drop nul.length).length = ds.length := by rw [List.length_drop, List.length_append]; omega
  have key := fun n (hn' : ds.length < n) => asciiNullLoop_reads nul hn ds n ((ds ++ nul).take nul.length) ((ds ++ nul).drop nul.length) 0#64
    (List.take_append_drop _ _) hlw hne hn'
  obtain ⟨r1, s1⟩ := windowFill_reads ((ds ++ nul).take nul.length)
  rw [hlw] at r1 s1
  rw [show bytesBits (ds ++ nul) = bytesBits ((ds ++ nul).take nul.length) ++ bytesBits ((ds ++ nul).drop nul.length) by
    rw [← bytesBits_append, List.take_append_drop]]
  have hb : (bytesBits ((ds ++ nul).drop nul.length)).length = 8 * ds.length := by rw [bytesBits_length, hll]
  constructor
  · refine r1.bind ?_
    rw [if_pos rfl]
    have := Budget.reads (g := fun n => asciiNullLoop nul nul.length n ((ds ++ nul).take nul.length) 0#64) (fun n hn => (key n (by omega)).1)
    rw [hfold] at this
    exact this
  · refine s1.bind r1 ?_ (fun a => ⟨0#64, by rw [if_neg (by simp)]⟩)
    rw [if_pos rfl]
    exact (asciiNullLoop_budget nul nul.length (Nat.le_refl _) _ hlw 0#64).short (fun n hn => (key n (by omega)).2)

theorem acnDecUIntAsciiNullTerminated_safe (nul : List Byte) : Safe (acnDecUIntAsciiNullTerminated nul) := by
  unfold acnDecUIntAsciiNullTerminated
  have hsz : (if nul.length < 10 then nul.length else 10) ≤ nul.length := by split <;> omega
  generalize (if nul.length < 10 then nul.length else 10) = sz at *
  refine (windowFill_safe sz).bindP (windowFill_post sz) (fun a ha => ?_) (fun a => ⟨0#64, by rw [if_neg (by simp)]⟩)
  rw [if_pos rfl]
  exact (asciiNullLoop_budget nul sz hsz a ha 0#64).safe

theorem acnDecSIntAsciiNullTerminated_reads {v : Int} (h1 : -(2 ^ 63) < v) (h2 : v < 2 ^ 63) {nul : List Byte} (hn : nul ≠ [])
    (h10 : nul.length ≤ 10) (hne : NoEarly nul (digitChars (printLen v.natAbs) v.natAbs)) :
    Reads (acnDecSIntAsciiNullTerminated nul) (true, v) (bytesBits (signChar v :: (digitChars (printLen v.natAbs) v.natAbs ++ nul))) ∧
    Short (acnDecSIntAsciiNullTerminated nul) (bytesBits (signChar v :: (digitChars (printLen v.natAbs) v.natAbs ++ nul))) := by
  unfold acnDecSIntAsciiNullTerminated
  have e := abs_toNat h1 h2
  obtain ⟨r, s⟩ := acnDecUIntAsciiNullTerminated_reads (v := BitVec.ofNat 64 v.natAbs) hn h10 (by rw [e]; exact hne)
  rw [e] at r s
  have ha : decide (signChar v = 45#8 ∨ signChar v = 43#8) = true := decide_eq_true (signChar_cases v).symm
  rw [bytesBits_cons]
  constructor
  · refine (readByte_reads _).bind ?_
    rw [if_pos rfl]; dsimp only
    rw [ha, assertC_true, pure_bind, ← List.append_nil (bytesBits (_ ++ nul))]
    refine r.bind ?_
    rw [if_pos rfl]; dsimp only
    rw [ofNat_toInt (by omega)]
    unfold signChar
    by_cases h : v < 0
    · rw [if_pos h, if_pos rfl, chk_ok (by omega), pure_bind, show -(v.natAbs : Int) = v by omega]
      exact Reads.pure _
    · rw [if_neg h, if_neg (by decide), show (v.natAbs : Int) = v by omega]
      exact Reads.pure _
  · refine (readByte_needs.short (by simp)).bind (readByte_reads _) ?_ (fun a => ⟨0, by rw [if_neg (by simp)]⟩)
    rw [if_pos rfl]; dsimp only
    rw [ha, assertC_true, pure_bind, ← List.append_nil (bytesBits (_ ++ nul))]
    exact s.bind r (Short.nil _) (fun a => ⟨0, by rw [if_neg (by simp)]⟩)

/-- A terminator that does not begin with a digit cannot begin inside a number. -/
theorem noEarly_digits {c : Byte} {t : List Byte} (h : c.toNat < 48 ∨ 57 < c.toNat) (n v : Nat) : NoEarly (c :: t) (digitChars n v) := by
  intro i hi hpre
  rw [digitChars_length] at hi
  have hlen : i < (digitChars n v).length := by rwa [digitChars_length]
  rw [List.drop_append_of_le_length (by omega), List.drop_eq_getElem_cons hlen, List.cons_append, List.cons_prefix_cons] at hpre
  have hm : c ∈ digitChars n v := by rw [hpre.1]; exact List.getElem_mem _
  simp only [digitChars, List.mem_map] at hm
  obtain ⟨d, hd, rfl⟩ := hm
  have := decDigits_lt n v d hd
  rw [charByte_toNat d this] at h
  omega

end Asn1
