import Verif.Proof.Names
/-!
# Lemmas on the choice of type names: the rounds
-/
namespace Asn1

/-! ## Names that are taken -/

/-- The names that are taken. -/
def Taken.names (t : Taken) : List CName := t.map Prod.fst

theorem Taken.find_none {t : Taken} {n : CName} : t.find n = none ↔ n ∉ t.names := by
  unfold Taken.find Taken.names
  rw [Option.map_eq_none_iff, List.find?_eq_none]
  simp only [List.mem_map, not_exists, not_and, decide_eq_true_eq]

theorem Taken.find_some {t : Taken} {n : CName} {us : List CName} (h : t.find n = some us) : n ∈ t.names := by
  apply Classical.byContradiction
  intro hn; rw [Taken.find_none.mpr hn] at h; cases h

theorem Taken.names_add {t : Taken} {u n : CName} (h : n ∉ t.names) : (t.add u n).names = n :: t.names := by
  unfold Taken.add; rw [Taken.find_none.mpr h]; rfl

theorem keywords_underscore : ∀ k ∈ cKeywords, '_' ∉ k := by decide

theorem nextCount_underscore (n : CName) : '_' ∈ nextCount n := by rw [nextCount_eq]; simp

theorem nextCount_keyword (n : CName) : nextCount n ∉ cKeywords := fun h => keywords_underscore _ h (nextCount_underscore n)

theorem avoidKeyword_keyword (n : CName) : avoidKeyword n ∉ cKeywords := by
  unfold avoidKeyword
  split
  · exact nextCount_keyword n
  · rename_i h; simpa using h

theorem avoidKeyword_id {n : CName} (h : n ∉ cKeywords) : avoidKeyword n = n := by
  unfold avoidKeyword; rw [if_neg (by simpa using h)]

/-- The name that is found is free and no keyword. -/
theorem validTypeName_free : ∀ (f : Nat) (tp : CName) (t : Taken) (u p n : CName), validTypeName f tp t u p = some n →
    n ∉ t.names ∧ n ∉ cKeywords
  | 0, _, _, _, _, _, h => by cases h
  | f + 1, tp, t, u, p, n, h => by
    unfold validTypeName at h
    split at h
    · rename_i hf; cases h; exact ⟨Taken.find_none.mp hf, avoidKeyword_keyword p⟩
    · split at h
      · exact validTypeName_free f _ _ _ _ _ h
      · exact validTypeName_free f _ _ _ _ _ h

theorem reserveTypeNames_free (f : Nat) (tp : CName) : ∀ (reqs : List (CName × CName)) (t : Taken) (ns : List CName) (t' : Taken),
    reserveTypeNames f tp t reqs = some (ns, t') → ns.Nodup ∧ (∀ n ∈ ns, n ∉ t.names ∧ n ∉ cKeywords) ∧ ns.length = reqs.length
  | [], t, ns, t', h => by cases h; exact ⟨List.nodup_nil, by simp, rfl⟩
  | (u, p) :: reqs, t, ns, t', h => by
    unfold reserveTypeNames reserveTypeName at h
    cases hv : validTypeName f tp t u p with
    | none => simp [hv] at h
    | some n =>
      have hn := validTypeName_free _ _ _ _ _ _ hv
      simp only [hv] at h
      cases hr : reserveTypeNames f tp (t.add u n) reqs with
      | none => simp [hr] at h
      | some p =>
        obtain ⟨ns', t''⟩ := p
        simp only [hr, Option.some.injEq, Prod.mk.injEq] at h
        obtain ⟨rfl, rfl⟩ := h
        obtain ⟨h1, h2, h3⟩ := reserveTypeNames_free f tp reqs _ _ _ hr
        rw [Taken.names_add hn.1] at h2
        refine ⟨List.nodup_cons.mpr ⟨fun hm => (h2 n hm).1 (by simp), h1⟩, ?_, by simp [h3]⟩
        intro x hx
        rcases List.mem_cons.mp hx with rfl | hx
        · exact hn
        · exact ⟨fun hm => (h2 x hx).1 (List.mem_cons_of_mem _ hm), (h2 x hx).2⟩

/-! ## The rounds come to an end -/

theorem letter_facts {c : Char} (h : IsLetter c) : c.isDigit = false ∧ c ≠ '_' ∧ c ≠ '-' ∧ c ≠ '+' := by
  unfold IsLetter at h
  refine ⟨?_, ?_, ?_, ?_⟩
  · rw [Bool.eq_false_iff]; intro hd
    simp only [Char.isDigit, Bool.and_eq_true, decide_eq_true_eq, ge_iff_le, Char.le_def, UInt32.le_iff_toNat_le] at *
    simp at *
    omega
  all_goals
    rintro rfl; revert h; decide

theorem parseNat_letter {l : CName} {c : Char} (hc : IsLetter c) (h : c ∈ l) : parseNat l = none := by
  unfold parseNat
  rw [if_neg]
  rintro ⟨_, ha⟩
  rw [List.all_eq_true] at ha
  have := ha c h
  rw [(letter_facts hc).1] at this; cases this

theorem parseInt32_letter {l : CName} {c : Char} (hc : IsLetter c) (h : c ∈ l) : parseInt32 l = none := by
  have hf := letter_facts hc
  unfold parseInt32
  split
  · rw [parseNat_letter hc (List.mem_of_ne_of_mem hf.2.2.1 h)]; rfl
  · rw [parseNat_letter hc (List.mem_of_ne_of_mem hf.2.2.2 h)]; rfl
  · rw [parseNat_letter hc h]; rfl

/-- A name that begins with the type prefix and a letter. -/
def Prefixed (tp n : CName) : Prop := ∃ c rest, n = tp ++ c :: rest ∧ IsLetter c

theorem prefixed_next {tp n : CName} (h : Prefixed tp n) : Prefixed tp (nextCount n) := by
  obtain ⟨c, rest, rfl, hc⟩ := h
  unfold nextCount
  cases hl : lastPart (tp ++ c :: rest) with
  | none => exact ⟨c, rest ++ ['_', '1'], by simp, hc⟩
  | some p =>
    obtain ⟨r, l⟩ := p
    simp only
    cases hp : parseInt32 l with
    | none => exact ⟨c, rest ++ ['_', '1'], by simp, hc⟩
    | some v =>
      simp only
      have he := (lastPart_some.mp hl).1
      rcases List.append_eq_append_iff.mp he with ⟨a, rfl, h2⟩ | ⟨a, rfl, h2⟩
      · cases a with
        | nil => simp only [List.nil_append, List.cons.injEq] at h2; exact absurd h2.1 (letter_facts hc).2.1
        | cons d a =>
          simp only [List.cons_append, List.cons.injEq] at h2
          obtain ⟨rfl, rfl⟩ := h2
          exact ⟨c, a ++ '_' :: intText (wrapInc v), by simp, hc⟩
      · have hm : c ∈ '_' :: l := by rw [h2]; simp
        rw [parseInt32_letter hc (List.mem_of_ne_of_mem (letter_facts hc).2.1 hm)] at hp; cases hp

theorem prefixed_avoid {tp n : CName} (h : Prefixed tp n) : Prefixed tp (avoidKeyword n) := by
  unfold avoidKeyword; split
  · exact prefixed_next h
  · exact h

theorem withUnit_eq {tp u : CName} {c : Char} {rest : CName} : withUnit tp u (tp ++ c :: rest) = tp ++ (u ++ '_' :: c :: rest) := by
  unfold withUnit
  rw [if_pos (by rw [List.isPrefixOf_iff_prefix]; exact List.prefix_append _ _)]; simp

/-- A name that begins with a letter. -/
def LetterFirst (u : CName) : Prop := ∃ d us, u = d :: us ∧ IsLetter d

theorem prefixed_withUnit {tp u n : CName} (hu : LetterFirst u) (h : Prefixed tp n) : Prefixed tp (withUnit tp u n) := by
  obtain ⟨c, rest, rfl, hc⟩ := h
  obtain ⟨d, us, rfl, hd⟩ := hu
  exact ⟨d, us ++ '_' :: c :: rest, by rw [withUnit_eq]; simp, hd⟩

theorem nameStem_le (n : CName) : (nameStem n).length ≤ n.length := by
  unfold nameStem
  split
  · exact Nat.le_refl _
  · rename_i r l h
    have he := (lastPart_some.mp h).1
    split
    · rw [he]; simp
    · exact Nat.le_refl _

theorem withUnit_stem {tp u n : CName} (h : Prefixed tp n) :
    (nameStem n).length < (nameStem (withUnit tp u n)).length ∧ nameNum (withUnit tp u n) = nameNum n := by
  obtain ⟨c, rest, rfl, hc⟩ := h
  rw [withUnit_eq]
  cases hl : lastPart (c :: rest) with
  | none =>
    have h1 : lastPart (tp ++ (u ++ '_' :: c :: rest)) = some (tp ++ u, c :: rest) :=
      lastPart_some.mpr ⟨by simp, lastPart_none.mp hl⟩
    have h2 : parseInt32 (c :: rest) = none := parseInt32_letter hc (by simp)
    have h3 : nameStem (tp ++ (u ++ '_' :: c :: rest)) = tp ++ (u ++ '_' :: c :: rest) := by simp only [nameStem, h1, h2]
    have h4 : nameNum (tp ++ (u ++ '_' :: c :: rest)) = 0 := by simp only [nameNum, h1, h2]
    refine ⟨?_, ?_⟩
    · rw [h3]
      have := nameStem_le (tp ++ c :: rest)
      simp at *; omega
    · rw [h4]
      unfold nameNum
      cases h5 : lastPart (tp ++ c :: rest) with
      | none => rfl
      | some p =>
        obtain ⟨r, l⟩ := p
        have he := lastPart_some.mp h5
        have hm : c ∈ l := by
          rcases List.append_eq_append_iff.mp he.1 with ⟨a, rfl, h6⟩ | ⟨a, rfl, h6⟩
          · have : '_' ∈ c :: rest := by rw [h6]; simp
            exact absurd this (lastPart_none.mp hl)
          · have : c ∈ '_' :: l := by rw [h6]; simp
            exact List.mem_of_ne_of_mem (letter_facts hc).2.1 this
        simp only [parseInt32_letter hc hm]
  | some p =>
    obtain ⟨r, l⟩ := p
    have he := lastPart_some.mp hl
    have h1 : lastPart (tp ++ c :: rest) = some (tp ++ r, l) := lastPart_some.mpr ⟨by rw [he.1]; simp, he.2⟩
    have h2 : lastPart (tp ++ (u ++ '_' :: c :: rest)) = some (tp ++ u ++ '_' :: r, l) := lastPart_some.mpr ⟨by rw [he.1]; simp, he.2⟩
    unfold nameStem nameNum
    rw [h1, h2]
    simp only
    cases parseInt32 l <;> simp <;> omega

theorem nameStem_avoid (n : CName) : nameStem (avoidKeyword n) = nameStem n := by
  unfold avoidKeyword; split
  · exact nameStem_next n
  · rfl

theorem validTypeName_avoid (f : Nat) (tp : CName) (t : Taken) (u n : CName) :
    validTypeName f tp t u (avoidKeyword n) = validTypeName f tp t u n := by
  cases f with
  | zero => rfl
  | succ f => unfold validTypeName; rw [avoidKeyword_id (avoidKeyword_keyword n)]

/-- Some number of rounds suffices. -/
theorem validTypeName_ends (tp : CName) (t : Taken) (u : CName) (hu : LetterFirst u) (ht : t.names.length < 4294967295) (L : Nat)
    (hL : ∀ k ∈ t.names, k.length ≤ L) : ∀ (m : Nat) (n : CName), Prefixed tp n → L + 1 - (nameStem n).length ≤ m →
    ∃ f r, validTypeName f tp t u n = some r ∧ Prefixed tp r := by
  intro m
  induction m with
  | zero =>
    intro n hn hm
    refine ⟨1, avoidKeyword n, ?_, prefixed_avoid hn⟩
    have hf : t.find (avoidKeyword n) = none := by
      rw [Taken.find_none]; intro hk
      have h1 := hL _ hk
      have h2 := nameStem_le (avoidKeyword n)
      rw [nameStem_avoid] at h2
      omega
    unfold validTypeName; rw [hf]
  | succ m ih =>
    have inner : ∀ (k : Nat) (n : CName), n ∉ cKeywords → Prefixed tp n → L + 1 - (nameStem n).length ≤ m + 1 → nextCounts k n ∉ t.names →
        ∃ f r, validTypeName f tp t u n = some r ∧ Prefixed tp r := by
      intro k
      induction k with
      | zero =>
        intro n hk hn _ hfree
        refine ⟨1, n, ?_, hn⟩
        unfold validTypeName; rw [avoidKeyword_id hk, (Taken.find_none (n := n)).mpr hfree]
      | succ k ihk =>
        intro n hk hn hm hfree
        cases hf : t.find n with
        | none =>
          refine ⟨1, n, ?_, hn⟩
          unfold validTypeName; rw [avoidKeyword_id hk, hf]
        | some us =>
          by_cases hus : us.contains u = true
          · obtain ⟨f, r, h1, h2⟩ := ihk (nextCount n) (nextCount_keyword n) (prefixed_next hn) (by rw [nameStem_next]; exact hm) hfree
            refine ⟨f + 1, r, ?_, h2⟩
            unfold validTypeName; rw [avoidKeyword_id hk, hf]
            simp only [hus, if_true]; exact h1
          · have hs := (withUnit_stem (u := u) hn).1
            have hle := hL _ (Taken.find_some hf)
            have hst := nameStem_le n
            obtain ⟨f, r, h1, h2⟩ := ih (withUnit tp u n) (prefixed_withUnit hu hn) (by omega)
            refine ⟨f + 1, r, ?_, h2⟩
            unfold validTypeName; rw [avoidKeyword_id hk, hf]
            simp only [hus]; exact h1
    intro n hn hm
    obtain ⟨k, _, hk⟩ := exists_free t.names (avoidKeyword n) ht
    obtain ⟨f, r, h1, h2⟩ := inner k (avoidKeyword n) (avoidKeyword_keyword n) (prefixed_avoid hn) (by rw [nameStem_avoid]; exact hm) hk
    exact ⟨f, r, by rw [← validTypeName_avoid]; exact h1, h2⟩

theorem validTypeName_mono : ∀ (f g : Nat) (tp : CName) (t : Taken) (u p n : CName), f ≤ g → validTypeName f tp t u p = some n →
    validTypeName g tp t u p = some n
  | 0, _, _, _, _, _, _, _, h => by cases h
  | f + 1, 0, _, _, _, _, _, hg, _ => by omega
  | f + 1, g + 1, tp, t, u, p, n, hg, h => by
    unfold validTypeName at h ⊢
    split at h
    · exact h
    · split at h
      · rename_i hc; rw [if_pos hc]; exact validTypeName_mono f g _ _ _ _ _ (by omega) h
      · rename_i hc; rw [if_neg hc]; exact validTypeName_mono f g _ _ _ _ _ (by omega) h

theorem exists_length_bound (l : List CName) : ∃ L, ∀ k ∈ l, k.length ≤ L := by
  induction l with
  | nil => exact ⟨0, by simp⟩
  | cons x l ih =>
    obtain ⟨L, h⟩ := ih
    refine ⟨max L x.length, ?_⟩
    intro k hk
    rcases List.mem_cons.mp hk with rfl | hk
    · omega
    · have := h k hk; omega

theorem reserveTypeNames_ends (tp : CName) : ∀ (reqs : List (CName × CName)) (t : Taken), t.names.length + reqs.length < 4294967296 →
    (∀ r ∈ reqs, LetterFirst r.1 ∧ Prefixed tp r.2) → ∃ F, ∀ f, F ≤ f → ∃ ns t', reserveTypeNames f tp t reqs = some (ns, t') ∧ ∀ n ∈ ns, Prefixed tp n
  | [], t, _, _ => ⟨0, fun f _ => ⟨[], t, rfl, by simp⟩⟩
  | (u, p) :: reqs, t, hlen, hr => by
    have hp := hr (u, p) (by simp)
    obtain ⟨L, hL⟩ := exists_length_bound t.names
    simp only [List.length_cons] at hlen
    obtain ⟨f1, n, h1, h2⟩ := validTypeName_ends tp t u hp.1 (by omega) L hL (L + 1) p hp.2 (by omega)
    have hfree := (validTypeName_free _ _ _ _ _ _ h1).1
    obtain ⟨F, hF⟩ := reserveTypeNames_ends tp reqs (t.add u n) (by rw [Taken.names_add hfree, List.length_cons]; omega)
      (fun r hr' => hr r (List.mem_cons_of_mem _ hr'))
    refine ⟨max f1 F, fun f hf => ?_⟩
    obtain ⟨ns, t', h3, h4⟩ := hF f (by omega)
    refine ⟨n :: ns, t', ?_, ?_⟩
    · unfold reserveTypeNames reserveTypeName
      rw [validTypeName_mono f1 f _ _ _ _ _ (by omega) h1]
      simp only [h3]
    · intro x hx
      rcases List.mem_cons.mp hx with rfl | hx
      · exact h2
      · exact h4 x hx

/-- Proposals that are free, different and no keywords are taken as they are. -/
theorem reserveTypeNames_same (f : Nat) (tp : CName) : ∀ (reqs : List (CName × CName)) (t : Taken), (reqs.map Prod.snd).Nodup →
    (∀ r ∈ reqs, r.2 ∉ t.names ∧ r.2 ∉ cKeywords) → ∃ t', reserveTypeNames (f + 1) tp t reqs = some (reqs.map Prod.snd, t')
  | [], t, _, _ => ⟨t, rfl⟩
  | (u, p) :: reqs, t, hnd, hr => by
    have hp := hr (u, p) (by simp)
    rw [List.map_cons, List.nodup_cons] at hnd
    have hv : validTypeName (f + 1) tp t u p = some p := by
      unfold validTypeName; rw [avoidKeyword_id hp.2, Taken.find_none.mpr hp.1]
    obtain ⟨t', h⟩ := reserveTypeNames_same f tp reqs (t.add u p) hnd.2 (fun r hr' => by
      rw [Taken.names_add hp.1]
      refine ⟨fun hm => ?_, (hr r (List.mem_cons_of_mem _ hr')).2⟩
      rcases List.mem_cons.mp hm with h1 | h1
      · exact hnd.1 (h1 ▸ List.mem_map_of_mem hr')
      · exact (hr r (List.mem_cons_of_mem _ hr')).1 h1)
    refine ⟨t', ?_⟩
    unfold reserveTypeNames reserveTypeName
    rw [hv]; simp only [h, List.map_cons]

end Asn1
