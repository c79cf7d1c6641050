import Verif.Proof.Names2
/-!
# Lemmas on the choice of type names: C identifiers
-/
namespace Asn1

theorem toDigits_idChar {n : Nat} {c : Char} (h : c ∈ Nat.toDigits 10 n) : IsIdChar c := by
  have := Nat.isDigit_of_mem_toDigits (b := 10) (by decide) (by decide) h
  simp only [Char.isDigit, Bool.and_eq_true, decide_eq_true_eq, ge_iff_le] at this
  exact Or.inr (Or.inl this)

theorem idChar_not_sign {c : Char} (h : IsIdChar c) : c ≠ '-' ∧ c ≠ '+' := by
  constructor <;> (rintro rfl; revert h; unfold IsIdChar IsLetter; decide)

theorem parseInt32_nonneg {l : CName} {v : Int} (hl : ∀ c ∈ l, IsIdChar c) (h : parseInt32 l = some v) : 0 ≤ v := by
  unfold parseInt32 at h
  split at h
  · exact absurd rfl (idChar_not_sign (hl '-' (by simp))).1
  · exact absurd rfl (idChar_not_sign (hl '+' (by simp))).2
  · obtain ⟨n, hn, rfl⟩ := bind_range h; omega

theorem nameNum_nonneg {n : CName} (h : ∀ c ∈ n, IsIdChar c) : 0 ≤ nameNum n := by
  unfold nameNum
  split
  · omega
  · rename_i r l hl
    have he := (lastPart_some.mp hl).1
    split
    · rename_i v hv
      exact parseInt32_nonneg (fun c hc => h c (by rw [he]; simp [hc])) hv
    · omega

theorem nameStem_idChar {n : CName} (h : ∀ c ∈ n, IsIdChar c) : ∀ c ∈ nameStem n, IsIdChar c := by
  unfold nameStem
  split
  · exact h
  · rename_i r l hl
    have he := (lastPart_some.mp hl).1
    split
    · intro c hc; exact h c (by rw [he]; simp [hc])
    · exact h

theorem next_idChar {n : CName} (h : ∀ c ∈ n, IsIdChar c) (hv : nameNum n < 2147483647) : (∀ c ∈ nextCount n, IsIdChar c) ∧ nameNum (nextCount n) = nameNum n + 1 := by
  have h0 := nameNum_nonneg h
  have hw : wrapInc (nameNum n) = nameNum n + 1 := by unfold wrapInc; rw [if_neg (by omega)]
  refine ⟨?_, by rw [nameNum_next, hw]⟩
  rw [nextCount_eq, hw]
  intro c hc
  rw [List.mem_append, List.mem_cons] at hc
  rcases hc with hc | rfl | hc
  · exact nameStem_idChar h c hc
  · exact Or.inr (Or.inr rfl)
  · unfold intText at hc; rw [if_neg (by omega)] at hc; exact toDigits_idChar hc

theorem avoid_idChar {n : CName} (h : ∀ c ∈ n, IsIdChar c) (hv : nameNum n < 2147483647) :
    (∀ c ∈ avoidKeyword n, IsIdChar c) ∧ nameNum (avoidKeyword n) ≤ nameNum n + 1 := by
  unfold avoidKeyword; split
  · have := next_idChar h hv; exact ⟨this.1, by omega⟩
  · exact ⟨h, by omega⟩

theorem validTypeName_idChar : ∀ (f : Nat) (tp : CName) (t : Taken) (u p n : CName), (∀ c ∈ u, IsIdChar c) → LetterFirst u → (∀ c ∈ p, IsIdChar c) →
    Prefixed tp p → nameNum p + 2 * f ≤ 2147483647 → validTypeName f tp t u p = some n → (∀ c ∈ n, IsIdChar c) ∧ Prefixed tp n
  | 0, _, _, _, _, _, _, _, _, _, _, h => by cases h
  | f + 1, tp, t, u, p, n, hu, hl, hp, hpp, hv, h => by
    have ha := avoid_idChar hp (by omega)
    have hap := prefixed_avoid hpp
    unfold validTypeName at h
    split at h
    · cases h; exact ⟨ha.1, hap⟩
    · split at h
      · have hn := next_idChar ha.1 (by omega)
        exact validTypeName_idChar f _ _ _ _ _ hu hl hn.1 (prefixed_next hap) (by omega) h
      · have hw := (withUnit_stem (u := u) hap).2
        refine validTypeName_idChar f _ _ _ _ _ hu hl ?_ (prefixed_withUnit hl hap) (by omega) h
        obtain ⟨c, rest, he, hc⟩ := hap
        rw [he] at ha
        rw [he, withUnit_eq]
        intro x hx
        simp only [List.mem_append, List.mem_cons] at hx
        rcases hx with hx | hx | rfl | rfl | hx
        · exact ha.1 x (by simp [hx])
        · exact hu x hx
        · exact Or.inr (Or.inr rfl)
        · exact Or.inl hc
        · exact ha.1 x (by simp [hx])

theorem reserveTypeNames_idChar (f : Nat) (tp : CName) : ∀ (reqs : List (CName × CName)) (t : Taken) (ns : List CName) (t' : Taken),
    (∀ r ∈ reqs, (∀ c ∈ r.1, IsIdChar c) ∧ LetterFirst r.1 ∧ (∀ c ∈ r.2, IsIdChar c) ∧ Prefixed tp r.2 ∧ nameNum r.2 + 2 * f ≤ 2147483647) →
    reserveTypeNames f tp t reqs = some (ns, t') → ∀ n ∈ ns, (∀ c ∈ n, IsIdChar c) ∧ Prefixed tp n
  | [], t, ns, t', _, h => by cases h; simp
  | (u, p) :: reqs, t, ns, t', hr, h => by
    have hp := hr (u, p) (by simp)
    unfold reserveTypeNames reserveTypeName at h
    cases hv : validTypeName f tp t u p with
    | none => simp [hv] at h
    | some n =>
      have hn := validTypeName_idChar _ _ _ _ _ _ hp.1 hp.2.1 hp.2.2.1 hp.2.2.2.1 hp.2.2.2.2 hv
      simp only [hv] at h
      cases hr' : reserveTypeNames f tp (t.add u n) reqs with
      | none => simp [hr'] at h
      | some q =>
        obtain ⟨ns', t''⟩ := q
        simp only [hr', Option.some.injEq, Prod.mk.injEq] at h
        obtain ⟨rfl, rfl⟩ := h
        intro x hx
        rcases List.mem_cons.mp hx with rfl | hx
        · exact hn
        · exact reserveTypeNames_idChar f tp reqs _ _ _ (fun r h => hr r (List.mem_cons_of_mem _ h)) hr' x hx

/-! ## From names of ASN.1 -/

theorem toC_append (a b : CName) : toC (a ++ b) = toC a ++ toC b := by
  induction a with
  | nil => rfl
  | cons c a ih =>
    simp only [List.cons_append, toC, ih]
    split
    · rfl
    · split <;> rfl

theorem idChar_plain {c : Char} (h : IsIdChar c) : c ≠ '#' ∧ ¬(c = '-' ∨ c = '.' ∨ c = '(' ∨ c = ')') := by
  constructor
  · rintro rfl; revert h; unfold IsIdChar IsLetter; decide
  · rintro (rfl | rfl | rfl | rfl) <;> (revert h; unfold IsIdChar IsLetter; decide)

theorem toC_idChars {l : CName} (h : ∀ c ∈ l, IsIdChar c) : toC l = l := by
  induction l with
  | nil => rfl
  | cons c l ih =>
    have := idChar_plain (h c (by simp))
    rw [toC, if_neg this.1, if_neg this.2, ih fun x hx => h x (List.mem_cons_of_mem _ hx)]

theorem toC_asn1Chars {l : CName} (h : ∀ x ∈ l, IsLetter x ∨ ('0' ≤ x ∧ x ≤ '9') ∨ x = '-') : ∀ x ∈ toC l, IsIdChar x := by
  induction l with
  | nil => simp [toC]
  | cons c l ih =>
    have ih := ih fun x hx => h x (List.mem_cons_of_mem _ hx)
    have hc := h c (by simp)
    by_cases hm : c = '-'
    · subst hm
      intro x hx
      rw [toC, if_neg (by decide), if_pos (by decide), List.mem_cons] at hx
      rcases hx with rfl | hx
      · exact Or.inr (Or.inr rfl)
      · exact ih x hx
    · have hid : IsIdChar c := by
        rcases hc with h | h | h
        · exact Or.inl h
        · exact Or.inr (Or.inl h)
        · exact absurd h hm
      have := idChar_plain hid
      rw [toC, if_neg this.1, if_neg this.2]
      intro x hx
      rcases List.mem_cons.mp hx with rfl | hx
      · exact hid
      · exact ih x hx

theorem toC_asn1 {n : CName} (h : IsAsn1Name n) : LetterFirst (toC n) ∧ ∀ x ∈ toC n, IsIdChar x := by
  cases n with
  | nil => exact absurd h (by simp [IsAsn1Name])
  | cons c cs =>
    have hid := idChar_plain (Or.inl h.1 : IsIdChar c)
    refine ⟨⟨c, toC cs, by rw [toC, if_neg hid.1, if_neg hid.2], h.1⟩, toC_asn1Chars ?_⟩
    intro x hx
    rcases List.mem_cons.mp hx with rfl | hx
    · exact Or.inl h.1
    · exact h.2 x hx

theorem typeRequests_ok {tp : CName} {ms : List (CName × List CName)} (htp : ∀ c ∈ tp, IsIdChar c)
    (hm : ∀ m ∈ ms, IsAsn1Name m.1 ∧ ∀ t ∈ m.2, IsAsn1Name t) : ∀ r ∈ typeRequests tp ms,
    (∀ c ∈ r.1, IsIdChar c) ∧ LetterFirst r.1 ∧ (∀ c ∈ r.2, IsIdChar c) ∧ Prefixed tp r.2 := by
  intro r hr
  unfold typeRequests at hr
  obtain ⟨m, h1, h2⟩ := List.mem_flatMap.mp hr
  obtain ⟨t, h3, rfl⟩ := List.mem_map.mp h2
  have hm := hm m h1
  have ha := toC_asn1 hm.1
  have hb := toC_asn1 (hm.2 t h3)
  simp only [toC_append, toC_idChars htp]
  obtain ⟨d, us, he, hd⟩ := hb.1
  refine ⟨ha.2, ha.1, ?_, ⟨d, us, by rw [he], hd⟩⟩
  intro c hc
  rcases List.mem_append.mp hc with hc | hc
  · exact htp c hc
  · exact hb.2 c hc

theorem ofDigitChars_lt {l : CName} (h : ∀ c ∈ l, c.isDigit = true) : ∀ a, Nat.ofDigitChars 10 l a < (a + 1) * 10 ^ l.length := by
  induction l with
  | nil => intro a; simp
  | cons c l ih =>
    intro a
    rw [Nat.ofDigitChars_cons]
    have hc := h c (by simp)
    have h1 := ih (fun x hx => h x (List.mem_cons_of_mem _ hx)) (10 * a + (c.toNat - '0'.toNat))
    have h2 : c.toNat - '0'.toNat < 10 := by
      simp only [Char.isDigit, Bool.and_eq_true, decide_eq_true_eq, ge_iff_le, UInt32.le_iff_toNat_le] at hc
      simp only [Char.toNat]; simp at *; omega
    rw [List.length_cons, Nat.pow_succ, Nat.mul_comm (10 ^ l.length) 10, ← Nat.mul_assoc]
    exact Nat.lt_of_lt_of_le h1 (Nat.mul_le_mul_right _ (by omega))

theorem parseNat_lt {l : CName} {n k : Nat} (hl : (∀ c ∈ l, c.isDigit = true) → l.length ≤ k) (h : parseNat l = some n) : n < 10 ^ k := by
  unfold parseNat at h
  split at h
  · rename_i hd
    have hd := List.all_eq_true.mp hd.2
    cases h
    have := ofDigitChars_lt hd 0
    rw [Nat.zero_add, Nat.one_mul] at this
    exact Nat.lt_of_lt_of_le this (Nat.pow_le_pow_right (by omega) (hl hd))
  · cases h

theorem shortNumber_num {n : CName} (hn : ∀ c ∈ n, IsIdChar c) (h : ShortNumber n) : nameNum n < 100000000 := by
  unfold nameNum
  split
  · omega
  · rename_i r l hl
    have he := (lastPart_some.mp hl).1
    split
    · rename_i v hv
      have hs := h r l he
      unfold parseInt32 at hv
      split at hv
      · exact absurd rfl (idChar_not_sign (hn '-' (by rw [he]; simp))).1
      · exact absurd rfl (idChar_not_sign (hn '+' (by rw [he]; simp))).2
      · cases hp : parseNat l with
        | none => rw [hp] at hv; cases hv
        | some k =>
          have := parseNat_lt (k := 8) hs hp
          rw [hp, Option.bind_some] at hv
          split at hv
          · cases hv; omega
          · cases hv
    · omega

/-! ## Names of functions -/

/-- What is put behind the name of a type. -/
def functionEnds : List CName :=
  ["_Encode", "_Decode", "_ACN_Encode", "_ACN_Decode", "_XER_Encode", "_XER_Decode", "_Initialize", "_IsConstraintValid", "_Equal"].map String.toList

/-- The words at the end of names of types that lead to equal names. -/
def badEnds : List CName := ["_Encode", "_Decode", "_ACN", "_XER", "_Initialize", "_IsConstraintValid", "_Equal"].map String.toList

theorem functionNames_eq (t : CName) : functionNames t = functionEnds.map fun s => t ++ s := by
  unfold functionNames functionEnds; rw [List.map_map]; rfl

theorem functionEnds_suffix : ∀ s ∈ functionEnds, ∀ s' ∈ functionEnds, s <:+ s' → s = s' ∨ ∃ w ∈ badEnds, s' = w ++ s := by decide +kernel
theorem functionEnds_bad : ∀ s ∈ functionEnds, ∃ w ∈ badEnds, w <:+ s := by decide +kernel
theorem functionEnds_nodup : functionEnds.Nodup := by decide +kernel

theorem functionNames_inj_le {t t' s s' : CName} (hs : s ∈ functionEnds) (hs' : s' ∈ functionEnds) (ht : ∀ w ∈ badEnds, ¬w <:+ t) (hl : s.length ≤ s'.length)
    (h : t ++ s = t' ++ s') : t = t' ∧ s = s' := by
  have h1 : s <:+ s' := List.suffix_of_suffix_length_le (List.suffix_append t s) (h ▸ List.suffix_append t' s') hl
  rcases functionEnds_suffix s hs s' hs' h1 with rfl | ⟨w, hw, rfl⟩
  · exact ⟨List.append_cancel_right h, rfl⟩
  · rw [← List.append_assoc] at h
    exact absurd (List.append_cancel_right h ▸ List.suffix_append t' w) (ht w hw)

theorem functionNames_inj {t t' s s' : CName} (hs : s ∈ functionEnds) (hs' : s' ∈ functionEnds) (ht : ∀ w ∈ badEnds, ¬w <:+ t)
    (ht' : ∀ w ∈ badEnds, ¬w <:+ t') (h : t ++ s = t' ++ s') : t = t' ∧ s = s' := by
  by_cases hl : s.length ≤ s'.length
  · exact functionNames_inj_le hs hs' ht hl h
  · have := functionNames_inj_le hs' hs ht' (by omega) h.symm; exact ⟨this.1.symm, this.2.symm⟩

theorem functionNames_nodup {names : List CName} (hd : names.Nodup)
    (hn : ∀ n ∈ names, ∀ s ∈ ["_Encode", "_Decode", "_ACN", "_XER", "_Initialize", "_IsConstraintValid", "_Equal"], ¬(s.toList <:+ n)) :
    (names ++ names.flatMap functionNames).Nodup := by
  have hb : ∀ n ∈ names, ∀ w ∈ badEnds, ¬w <:+ n := by
    intro n h w hw
    obtain ⟨s, hs, rfl⟩ := List.mem_map.mp hw
    exact hn n h s hs
  rw [List.nodup_append]
  refine ⟨hd, ?_, ?_⟩
  · rw [List.Nodup, List.pairwise_flatMap]
    refine ⟨fun t ht => ?_, ?_⟩
    · rw [functionNames_eq, List.pairwise_map]
      exact List.Pairwise.imp (fun h he => h (List.append_cancel_left he)) functionEnds_nodup
    · refine List.Pairwise.imp_of_mem ?_ hd
      intro t t' ht ht' hne x hx y hy hxy
      rw [functionNames_eq] at hx hy
      obtain ⟨s, hs, rfl⟩ := List.mem_map.mp hx
      obtain ⟨s', hs', rfl⟩ := List.mem_map.mp hy
      exact hne (functionNames_inj hs hs' (hb t ht) (hb t' ht') hxy).1
  · intro a ha b hb' hab
    subst hab
    obtain ⟨t, ht, hx⟩ := List.mem_flatMap.mp hb'
    rw [functionNames_eq] at hx
    obtain ⟨s, hs, rfl⟩ := List.mem_map.mp hx
    obtain ⟨w, hw, hws⟩ := functionEnds_bad s hs
    exact hb _ ha w hw (hws.trans (List.suffix_append t s))

end Asn1
