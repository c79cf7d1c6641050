import Verif.Proof.Valid
import Verif.Spec.AcnAccept
import Verif.Proof.AcnGenLeaf
import Verif.Proof.AcnAscii
/-! # Proofs: accepted encodings -/
namespace Asn1

theorem intSize_length {sz : AcnIntSizeText} {b : List Byte} (h : intSize sz = some (.nullTerminated b)) : b.length ≤ 10 := by
  unfold intSize at h
  split at h
  · simp at h
  · simp only [Option.some.injEq, AcnIntSize.nullTerminated.injEq] at h
    subst h; simp
  · split at h
    · simp at h
    · split at h
      · simp at h
      · simp only [Option.some.injEq, AcnIntSize.nullTerminated.injEq] at h
        subst h; omega

/-- What is known of a class that was chosen. -/
def EncShape (unsigned : Bool) : IntEnc → Prop
  | .uper => True
  | .const n => n ≤ 64
  | .const8 => True
  | .big size => size = 2 ∨ size = 4 ∨ size = 8
  | .little size => size = 2 ∨ size = 4 ∨ size = 8
  | .bcd n => n ≤ maxDigits unsigned
  | .bcdNull => True
  | .ascii n => n ≤ maxDigits unsigned + 1
  | .asciiNull nul => nul.length ≤ 10

theorem fixedClass_shape {n : Nat} {l u : Bool} {enc : IntEnc} (h : fixedClass n l = some enc) : EncShape u enc := by
  unfold fixedClass at h
  repeat' split at h
  all_goals first | (simp at h; done) | (simp only [Option.some.injEq] at h; subst h; simp only [EncShape]; first | done | omega | simp)

theorem intEncodingClass_shape {t : AcnIntText} {u : Bool} {enc : IntEnc}
    (h : ((intProps t).bind fun p => intEncodingClass p u) = some enc) : EncShape u enc := by
  obtain ⟨p, hp, h⟩ := Option.bind_eq_some_iff.1 h
  have hnul : ∀ b, p.size = some (.nullTerminated b) → b.length ≤ 10 := by
    intro b hb
    unfold intProps at hp
    split at hp
    · simp only [Option.some.injEq] at hp; subst hp; simp at hb
    · split at hp
      · simp at hp
      · rename_i hs
        simp only [Option.some.injEq] at hp; subst hp
        simp only [Option.some.injEq] at hb; subst hb
        exact intSize_length hs
  unfold intEncodingClass at h
  split at h
  · simp only [Option.some.injEq] at h; subst h; trivial
  split at h
  · simp at h
  · simp at h
  · split at h
    · exact fixedClass_shape h
    · simp at h
  · simp at h
  · split at h
    · simp at h
    · exact fixedClass_shape h
  · simp at h
  · repeat' split at h
    all_goals first | (simp at h; done) | (simp only [Option.some.injEq] at h; subst h; simp only [EncShape]; omega)
  · repeat' split at h
    all_goals first | (simp at h; done) | (simp only [Option.some.injEq] at h; subst h; simp only [EncShape]; omega)
  · split at h
    · simp at h
    · simp only [Option.some.injEq] at h; subst h; trivial
  · rename_i hs
    split at h
    · simp at h
    · simp only [Option.some.injEq] at h; subst h; exact hnul _ hs

theorem maxDigits_le (u : Bool) : maxDigits u ≤ 20 := by cases u <;> decide

/-- The space check guarantees that the values between the bounds fit, up to what it does not check. -/
theorem checkSpace_holds {r : Rng} {enc : IntEnc} {lo hi x : Int} {w : Nat} (hs : EncShape r.unsigned enc)
    (hc : checkSpace r.unsigned enc lo hi = true) (hlo : lo ≤ x) (hhi : x ≤ hi)
    (hu : Unchecked w r enc x) : enc.holds r x := by
  have bin : ∀ n, checkBinary r.unsigned n lo hi = true → if r.unsigned then x < 2 ^ n else FitsTwos n x := by
    intro n hb
    unfold checkBinary at hb
    split at hb
    · rename_i h; rw [if_pos h]
      have := (decide_eq_true_iff.1 hb).2
      omega
    · rename_i h; rw [if_neg h]
      simp only [Bool.and_eq_true, decide_eq_true_eq] at hb
      obtain ⟨hn, h1, h2⟩ := hb
      simp only [ne_eq] at hn
      exact ⟨by omega, by omega, by omega⟩
  have hm := maxDigits_le r.unsigned
  cases enc with
  | uper => trivial
  | const n => exact ⟨hs, bin n hc⟩
  | const8 => exact bin 8 hc
  | big size =>
    simp only [EncShape] at hs
    exact ⟨by omega, by omega, bin _ hc⟩
  | little size =>
    simp only [EncShape] at hs
    exact ⟨by omega, by omega, bin _ hc⟩
  | bcd n =>
    simp only [checkSpace, decide_eq_true_eq] at hc
    simp only [EncShape] at hs
    exact ⟨by omega, by omega, by omega⟩
  | bcdNull => exact hu
  | ascii n =>
    simp only [checkSpace, checkAscii, Bool.and_eq_true, decide_eq_true_eq, ne_eq] at hc
    simp only [EncShape] at hs
    simp only [Unchecked] at hu
    obtain ⟨hn, h1, h2⟩ := hc
    simp only [IntEnc.holds]
    split
    · rename_i h
      refine ⟨by omega, ?_⟩
      have : (10 : Int) ^ (n - 1) ≤ 10 ^ n := by
        have := Nat.pow_le_pow_right (n := 10) (by decide) (show n - 1 ≤ n by omega)
        exact_mod_cast this
      omega
    · refine ⟨by omega, by omega, ?_⟩
      have e : ((10 ^ (n - 1) : Nat) : Int) = 10 ^ (n - 1) := by simp
      omega
  | asciiNull nul =>
    obtain ⟨c, t, rfl, hd⟩ := hu
    exact ⟨by simp, hs, noEarly_digits hd _ _⟩

theorem intClassOf_positive (slim : Bool) (r : Rng) : (intClassOf slim r).positive = r.unsigned := by
  cases r with
  | full => rfl
  | posInf a => simp only [intClassOf, Rng.unsigned]; split <;> simp_all [uClass, sClass]
  | negInf b => rfl
  | concrete a b =>
    simp only [intClassOf, Rng.unsigned]
    repeat' split
    all_goals simp_all [uClass, sClass]

/-- The width of the C type of a range. -/
theorem intClassOf_width (slim : Bool) (r : Rng) :
    ∃ w, (w = 8 ∨ w = 16 ∨ w = 32 ∨ w = 64) ∧ intClassOf slim r = if r.unsigned then uClass w else sClass w := by
  cases r with
  | full => exact ⟨64, by simp, rfl⟩
  | posInf a =>
    refine ⟨64, by simp, ?_⟩
    simp only [intClassOf, Rng.unsigned]; split <;> simp_all
  | negInf b => exact ⟨64, by simp, rfl⟩
  | concrete a b =>
    simp only [intClassOf, Rng.unsigned]
    by_cases h : a ≥ 0
    · simp only [h, decide_true, if_true]
      repeat' split
      all_goals first | exact ⟨64, by simp, rfl⟩ | exact ⟨32, by simp, rfl⟩ | exact ⟨16, by simp, rfl⟩ | exact ⟨8, by simp, rfl⟩
    · simp only [h, decide_false, if_false, Bool.false_eq_true]
      repeat' split
      all_goals first | exact ⟨64, by simp, rfl⟩ | exact ⟨32, by simp, rfl⟩ | exact ⟨16, by simp, rfl⟩ | exact ⟨8, by simp, rfl⟩

theorem asn1Bounds_contains {slim : Bool} {r : Rng} {x : Int} (hx : r.contains x) (hc : InClass (intClassOf slim r) x) :
    (asn1Bounds r).1 ≤ x ∧ x ≤ (asn1Bounds r).2 := by
  obtain ⟨h1, h2, _⟩ := hc
  cases r with
  | full => exact ⟨h1, h2⟩
  | posInf a =>
    simp only [intClassOf] at h1 h2
    simp only [asn1Bounds]
    split <;> rename_i h
    · rw [if_pos h] at h2; exact ⟨hx, h2⟩
    · rw [if_neg h] at h2; exact ⟨hx, h2⟩
  | negInf b => exact ⟨h1, hx⟩
  | concrete a b => exact hx

theorem unsigned_nonneg {r : Rng} {x : Int} (hx : r.contains x) (hu : r.unsigned = true) : 0 ≤ x := by
  cases r with
  | full => simp [Rng.unsigned] at hu
  | posInf a => simp only [Rng.unsigned, decide_eq_true_eq] at hu; simp only [Rng.contains] at hx; omega
  | negInf b => simp [Rng.unsigned] at hu
  | concrete a b => simp only [Rng.unsigned, decide_eq_true_eq] at hu; simp only [Rng.contains] at hx; omega

theorem fitsC_of {w : Nat} {r : Rng} {c : IntClass} {x : Int} (hw : w = 8 ∨ w = 16 ∨ w = 32 ∨ w = 64)
    (hc : c = if r.unsigned then uClass w else sClass w) (h : InClass c x) : FitsC w r x := by
  refine ⟨hw, ?_⟩
  obtain ⟨h1, h2, h3⟩ := h
  subst hc
  split <;> rename_i hu
  · rw [if_pos hu] at h1 h2
    simp only [uClass] at h1 h2
    exact ⟨h1, by omega⟩
  · rw [if_neg hu] at h1 h2
    simp only [sClass] at h1 h2
    refine ⟨h1, by omega, ?_⟩
    rcases hw with rfl | rfl | rfl | rfl <;> omega

theorem acceptRange_some {t : AcnIntText} {u : Bool} {lo hi : Int} {enc : IntEnc} (h : acceptRange t u lo hi = some enc) :
    EncShape u enc ∧ checkSpace u enc lo hi = true := by
  unfold acceptRange at h
  split at h
  · simp at h
  · rename_i e he
    split at h
    · rename_i hsp
      simp only [Option.some.injEq] at h; subst h
      exact ⟨intEncodingClass_shape he, hsp⟩
    · simp at h

theorem acceptInt_fits {slim : Bool} {t : AcnIntText} {r : Rng} {enc : IntEnc} (h : acceptInt slim t r = some enc) {w : Nat}
    (hw : w = 8 ∨ w = 16 ∨ w = 32 ∨ w = 64) (hcl : intClassOf slim r = if r.unsigned then uClass w else sClass w)
    {x : Int} (hx : r.contains x) (hc : InClass (intClassOf slim r) x) (hu : Unchecked w r enc x) : AIntFits w r enc x := by
  obtain ⟨he, hsp⟩ := acceptRange_some h
  rw [intClassOf_positive] at he hsp
  by_cases hup : enc = .uper
  · subst hup
    simp only [AIntFits, if_true]
    exact ⟨hu.1, hx, hu.2⟩
  · simp only [AIntFits, if_neg hup]
    obtain ⟨b1, b2⟩ := asn1Bounds_contains hx hc
    exact ⟨fitsC_of hw hcl hc, checkSpace_holds he hsp b1 b2 hu⟩

/-- A range that the space check rejects has a bound that does not fit. -/
theorem checkSpace_rejects {r : Rng} {enc : IntEnc} {a b : Int} (hc : checkSpace r.unsigned enc a b = false)
    (h0 : r.unsigned = true → 0 ≤ a) (hna : ¬ (r.unsigned = true ∧ ∃ n, enc = .ascii n)) :
    ¬ enc.holds r a ∨ ¬ enc.holds r b := by
  have bin : ∀ n, checkBinary r.unsigned n a b = false → (if r.unsigned then a < 2 ^ n else FitsTwos n a) →
      (if r.unsigned then b < 2 ^ n else FitsTwos n b) → False := by
    intro n hb ha' hb'
    unfold checkBinary at hb
    split at hb <;> rename_i hu
    · rw [if_pos hu] at ha' hb'
      have := h0 hu
      rw [decide_eq_false_iff_not] at hb
      omega
    · rw [if_neg hu] at ha' hb'
      obtain ⟨h1, h2, h3⟩ := ha'
      obtain ⟨_, h4, h5⟩ := hb'
      rw [Bool.and_eq_false_iff] at hb
      rcases hb with hb | hb
      · simp at hb; omega
      · rw [decide_eq_false_iff_not] at hb
        omega
  by_cases ha : enc.holds r a
  · refine .inr fun hb => ?_
    cases enc with
    | uper => simp [checkSpace] at hc
    | const n => exact bin n hc ha.2 hb.2
    | const8 => exact bin 8 hc ha hb
    | big size => exact bin _ hc ha.2.2 hb.2.2
    | little size => exact bin _ hc ha.2.2 hb.2.2
    | bcd n =>
      simp only [checkSpace, decide_eq_false_iff_not] at hc
      obtain ⟨_, h1, _⟩ := ha
      obtain ⟨_, _, h2⟩ := hb
      omega
    | bcdNull => simp [checkSpace] at hc
    | ascii n =>
      have hu : r.unsigned ≠ true := fun hu => hna ⟨hu, n, rfl⟩
      simp only [IntEnc.holds, if_neg hu] at ha hb
      simp only [checkSpace, checkAscii, Bool.and_eq_false_iff, decide_eq_false_iff_not] at hc
      obtain ⟨h1, _, h2⟩ := ha
      obtain ⟨_, _, h3⟩ := hb
      have e : ((10 ^ (n - 1) : Nat) : Int) = 10 ^ (n - 1) := by simp
      rcases hc with hc | hc
      · simp at hc; omega
      · omega
    | asciiNull nul => simp [checkSpace] at hc
  · exact .inl ha

/-! ## The encoding is the one that is asked for -/

theorem packBits_whole {k : Nat} : ∀ {w : List Bool}, w.length = 8 * k → (packBits w).length = k := by
  induction k with
  | zero =>
    intro w h
    have : w = [] := List.eq_nil_of_length_eq_zero (by omega)
    subst this
    rfl
  | succ k ih =>
    intro w h
    rcases w with _ | ⟨b0, _ | ⟨b1, _ | ⟨b2, _ | ⟨b3, _ | ⟨b4, _ | ⟨b5, _ | ⟨b6, _ | ⟨b7, rest⟩⟩⟩⟩⟩⟩⟩⟩ <;>
      simp only [List.length_cons, List.length_nil] at h <;> try omega
    rw [packBits, List.length_cons, ih (by omega)]

theorem bytesBits_packBits {w : List Bool} (h : w.length % 8 = 0) : bytesBits (packBits w) = w := by
  have hl : (packBits w).length = w.length / 8 := packBits_whole (by omega)
  have := (packBits_spec w).2
  rwa [List.take_of_length_le (by rw [bytesBits_length, hl]; omega)] at this

theorem fixedClass_binary {t : AcnIntText} {n : Nat} {enc : IntEnc} (h : fixedClass n (t.little.getD false) = some enc) :
    AsWritten.Binary t enc n := by
  unfold fixedClass at h
  unfold AsWritten.Binary
  rcases hl : t.little with _ | _ | _ <;> rw [hl] at h <;> simp only [Option.getD_none, Option.getD_some, if_true, Bool.false_eq_true, if_false] at h
  all_goals
    split at h
    · left; cases h; exact ⟨by assumption, rfl⟩
    split at h
    · cases h; simp_all
    split at h
    · cases h; simp_all
    split at h
    · cases h; simp_all
  · split at h
    · cases h
    · cases h; right; right; right; exact ⟨by omega, rfl, by simp⟩
  · split at h
    · cases h
    · cases h; right; right; right; exact ⟨by omega, rfl, by simp⟩
  · cases h

theorem acceptInt_asWritten {slim : Bool} {t : AcnIntText} {r : Rng} {enc : IntEnc} (h : acceptInt slim t r = some enc) :
    AsWritten t r enc := by
  unfold acceptInt acceptRange at h
  rw [intClassOf_positive] at h
  split at h
  · cases h
  rename_i enc' he
  split at h
  swap
  · cases h
  cases h
  rw [Option.bind_eq_some_iff] at he
  obtain ⟨p, hp, he⟩ := he
  obtain ⟨tenc, tsize, tl⟩ := t
  unfold intProps at hp
  unfold intEncodingClass at he
  unfold AsWritten
  rcases tsize with _ | n | pat
  · cases hp
    rcases tenc with _ | _ | _ | _ | _ <;> rcases tl with _ | _ <;> simp at he ⊢
    exact he.symm
  · cases hp
    rcases tenc with _ | _ | _ | _ | _ <;> simp at he ⊢
    · exact ⟨he.1, fixedClass_binary (t := ⟨_, _, _⟩) he.2⟩
    · exact ⟨he.1, fixedClass_binary (t := ⟨_, _, _⟩) he.2⟩
    · exact ⟨n / 8, by omega, he.2.2.2.symm⟩
    · exact ⟨n / 4, by omega, he.2.2.2.symm⟩
  · dsimp only at hp
    rcases pat with _ | bits
    · cases hp
      rcases tenc with _ | _ | _ | _ | _ <;> simp at he ⊢
      · exact he.2.symm
      · exact he.2.symm
    · unfold intSize at hp
      dsimp only at hp
      by_cases h8 : bits.length % 8 = 0
      · by_cases h10 : (packBits bits).length > 10
        · simp [h8, h10] at hp
        rw [if_neg (by simp [h8]), if_neg h10] at hp
        cases hp
        rcases tenc with _ | _ | _ | _ | _ <;> simp at he ⊢
        · exact ⟨packBits bits, bytesBits_packBits h8, he.2.symm⟩
        · exact he.2.symm
      · simp [h8] at hp

end Asn1
