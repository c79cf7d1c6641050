import Verif.Model.FieldNames
import Verif.Proof.ChoiceNames
import Verif.Proof.Names
import Verif.Spec.FieldNames
/-!
# Lemmas on the renaming of components
-/
namespace Asn1

theorem keyword_lower : ∀ k ∈ cKeywords, ∀ c ∈ k, ('a' ≤ c ∧ c ≤ 'z') := by decide +kernel

theorem keyword_underscore {k : CName} (h : k ∈ cKeywords) : '_' ∉ k := fun hc => by
  have := keyword_lower k h '_' hc
  exact absurd this (by decide)

theorem prefixed_not_keyword (x n : CName) : x ++ '_' :: n ∉ cKeywords := fun h => keyword_underscore h (by simp)

/-- What a component is called in the end. -/
def renamedField (e : Enumerant) : Enumerant :=
  if cKeywords.contains e.name then
    match (e.key.reverse.map toC).dropWhile (containsText e.name) with
    | [] => e
    | x :: _ => { e with name := x ++ '_' :: e.name }
  else e

theorem toC_capital {n : CName} (h : Capital n) : Capital (toC n) := by
  obtain ⟨c, cs, rfl, h1, h2⟩ := h
  refine ⟨c, toC cs, ?_, h1, h2⟩
  have n1 : c ≠ '#' := by rintro rfl; revert h1; decide
  have n2 : ¬ (c = '-' ∨ c = '.' ∨ c = '(' ∨ c = ')') := by
    rintro (rfl | rfl | rfl | rfl) <;> revert h1 <;> decide
  show (if c = '#' then _ else if c = '-' ∨ c = '.' ∨ c = '(' ∨ c = ')' then _ else _) = _
  rw [if_neg n1, if_neg n2]

theorem capital_not_in_keyword {k x : CName} (h : k ∈ cKeywords) (hx : Capital x) : containsText k x = false := by
  cases hc : containsText k x with
  | false => rfl
  | true =>
    obtain ⟨c, cs, rfl, h1, h2⟩ := hx
    have := keyword_lower k h c ((containsText_iff.1 hc).subset (by simp))
    have h3 : c.toNat ≤ 'Z'.toNat := h2
    have h4 : 'a'.toNat ≤ c.toNat := this.1
    have : 'Z'.toNat < 'a'.toNat := by decide
    omega

theorem dropWhile_cons_of {α : Type} {p : α → Bool} : ∀ {l : List α} {a : α}, a ∈ l → p a = false → ∃ x l', l.dropWhile p = x :: l' ∧ x ∈ l
  | [], a, h, _ => by cases h
  | b :: l, a, h, hp => by
    rw [List.dropWhile_cons]
    cases hb : p b with
    | false => exact ⟨b, l, by simp, by simp⟩
    | true =>
      rcases List.mem_cons.1 h with rfl | h
      · rw [hp] at hb; cases hb
      · obtain ⟨x, l', h1, h2⟩ := dropWhile_cons_of h hp
        exact ⟨x, l', by simpa using h1, by simp [h2]⟩

theorem renamedField_keyword {e : Enumerant} (h : e.name ∈ cKeywords) (hk : ∃ q ∈ e.key, Capital q) :
    ∃ x l, (e.key.reverse.map toC).dropWhile (containsText e.name) = x :: l ∧ (∃ q ∈ e.key, x = toC q) ∧
      renamedField e = { e with name := x ++ '_' :: e.name } := by
  obtain ⟨q, hq, hc⟩ := hk
  obtain ⟨x, l, h1, h2⟩ := dropWhile_cons_of (p := containsText e.name) (l := e.key.reverse.map toC) (a := toC q)
    (List.mem_map.2 ⟨q, by simpa using hq, rfl⟩) (capital_not_in_keyword h (toC_capital hc))
  obtain ⟨q', hq', rfl⟩ := List.mem_map.1 h2
  refine ⟨toC q', l, h1, ⟨q', by simpa using hq', rfl⟩, ?_⟩
  unfold renamedField
  rw [if_pos (List.contains_iff_mem.2 h), h1]

/-- Which of the names of the key stands in front: the innermost that is not part of the name. -/
theorem renamedField_innermost {e : Enumerant} (h : e.name ∈ cKeywords) (hk : ∃ q ∈ e.key, Capital q) :
    ∃ outer q inner, e.key = outer ++ q :: inner ∧ ¬ toC q <:+: e.name ∧ (∀ r ∈ inner, toC r <:+: e.name) ∧
      (renamedField e).name = toC q ++ '_' :: e.name := by
  obtain ⟨x, l, h1, -, h3⟩ := renamedField_keyword h hk
  rw [List.dropWhile_map] at h1
  cases hd : e.key.reverse.dropWhile (containsText e.name ∘ toC) with
  | nil => rw [hd] at h1; cases h1
  | cons q rest =>
    rw [hd, List.map_cons, List.cons.injEq] at h1
    have hsplit := List.takeWhile_append_dropWhile (p := containsText e.name ∘ toC) (l := e.key.reverse)
    rw [hd] at hsplit
    refine ⟨rest.reverse, q, (e.key.reverse.takeWhile (containsText e.name ∘ toC)).reverse, ?_, ?_, ?_, ?_⟩
    · have := congrArg List.reverse hsplit
      rw [List.reverse_reverse] at this
      exact this.symm.trans (by simp)
    · intro hc
      have hn := List.head_dropWhile_not (containsText e.name ∘ toC) (l := e.key.reverse) (by rw [hd]; simp)
      simp only [hd, List.head_cons, Function.comp_apply] at hn
      rw [containsText_iff.2 hc] at hn
      cases hn
    · intro r hr
      have := List.all_eq_true.1 (List.all_takeWhile (p := containsText e.name ∘ toC) (l := e.key.reverse)) r (List.mem_reverse.1 hr)
      exact containsText_iff.1 this
    · rw [h3, h1.1]

theorem renamedField_other {e : Enumerant} (h : e.name ∉ cKeywords) : renamedField e = e := by
  unfold renamedField
  rw [if_neg (fun c => h (List.contains_iff_mem.1 c))]

theorem renamedField_free {e : Enumerant} (hk : ∃ q ∈ e.key, Capital q) : (renamedField e).name ∉ cKeywords := by
  by_cases h : e.name ∈ cKeywords
  · obtain ⟨x, l, -, -, h3⟩ := renamedField_keyword h hk
    rw [h3]
    exact prefixed_not_keyword x e.name
  · rw [renamedField_other h]; exact h

theorem badFieldNames_nil {items : List Enumerant} : badFieldNames items = [] ↔ ∀ e ∈ items, e.name ∉ cKeywords := by
  unfold badFieldNames
  rw [List.filter_eq_nil_iff]
  constructor
  · intro h e he hc
    exact h e.name (List.mem_map.2 ⟨e, he, rfl⟩) (List.contains_iff_mem.2 hc)
  · intro h n hn hc
    obtain ⟨e, he, rfl⟩ := List.mem_map.1 hn
    exact h e he (List.contains_iff_mem.1 hc)

theorem copyField_eq {items : List Enumerant} {e : Enumerant} (he : e ∈ items) (hk : ∃ q ∈ e.key, Capital q) :
    copyField (badFieldNames items) e = some (renamedField e) := by
  unfold copyField
  by_cases h : e.name ∈ cKeywords
  · obtain ⟨x, l, h1, -, h3⟩ := renamedField_keyword h hk
    rw [if_pos, h1, h3]
    rw [List.contains_iff_mem]
    exact List.mem_filter.2 ⟨List.mem_map.2 ⟨e, he, rfl⟩, List.contains_iff_mem.2 h⟩
  · rw [if_neg, renamedField_other h]
    rw [List.contains_iff_mem]
    intro hc
    exact h (List.contains_iff_mem.1 (List.mem_filter.1 hc).2)

theorem mapM_some_map {α β : Type} {f : α → Option β} {g : α → β} : ∀ (l : List α), (∀ a ∈ l, f a = some (g a)) → l.mapM f = some (l.map g)
  | [], _ => rfl
  | a :: l, h => by
    rw [List.mapM_cons, h a (by simp), mapM_some_map l fun b hb => h b (by simp [hb])]
    rfl

theorem handleFields_eq {items : List Enumerant} (hk : ∀ e ∈ items, ∃ q ∈ e.key, Capital q) (rounds : Nat) (hr : 2 ≤ rounds) :
    handleFields rounds items = .done (items.map renamedField) := by
  obtain ⟨n, rfl⟩ : ∃ n, rounds = n + 1 + 1 := ⟨rounds - 2, by omega⟩
  unfold handleFields
  by_cases hb : badFieldNames items = []
  · rw [if_pos hb]
    have : items.map renamedField = items := by
      conv => rhs; rw [← List.map_id items]
      exact List.map_congr_left fun e he => renamedField_other (badFieldNames_nil.1 hb e he)
    rw [this]
  · rw [if_neg hb, mapM_some_map (g := renamedField) items fun e he => copyField_eq he (hk e he)]
    show handleFields (n + 1) _ = _
    unfold handleFields
    rw [if_pos]
    refine badFieldNames_nil.2 fun e' he' => ?_
    obtain ⟨e, he, rfl⟩ := List.mem_map.1 he'
    exact renamedField_free (hk e he)

theorem last_part_inj {x y a b : CName} (ha : '_' ∉ a) (hb : '_' ∉ b) (h : x ++ '_' :: a = y ++ '_' :: b) : a = b := by
  have h1 := (lastPart_some (l := x ++ '_' :: a) (r := x) (s := a)).2 ⟨rfl, ha⟩
  have h2 := (lastPart_some (l := y ++ '_' :: b) (r := y) (s := b)).2 ⟨rfl, hb⟩
  rw [h, h2] at h1
  simp only [Option.some.injEq, Prod.mk.injEq] at h1
  exact h1.2.symm

theorem renamedField_distinct {a b : Enumerant} (ha : ∃ q ∈ a.key, Capital q) (hb : ∃ q ∈ b.key, Capital q) (hne : a.name ≠ b.name)
    (h1 : ∀ q ∈ a.key, b.name ≠ toC q ++ '_' :: a.name) (h2 : ∀ q ∈ b.key, a.name ≠ toC q ++ '_' :: b.name) :
    (renamedField a).name ≠ (renamedField b).name := by
  by_cases ka : a.name ∈ cKeywords <;> by_cases kb : b.name ∈ cKeywords
  · obtain ⟨x, l, -, -, e1⟩ := renamedField_keyword ka ha
    obtain ⟨y, l', -, -, e2⟩ := renamedField_keyword kb hb
    rw [e1, e2]
    exact fun h => hne (last_part_inj (keyword_underscore ka) (keyword_underscore kb) h)
  · obtain ⟨x, l, -, ⟨q, hq, rfl⟩, e1⟩ := renamedField_keyword ka ha
    rw [e1, renamedField_other kb]
    exact fun h => h1 q hq h.symm
  · obtain ⟨x, l, -, ⟨q, hq, rfl⟩, e1⟩ := renamedField_keyword kb hb
    rw [e1, renamedField_other ka]
    exact fun h => h2 q hq h
  · rw [renamedField_other ka, renamedField_other kb]
    exact hne

theorem toC_name_char {c : Char} (h : IsLetter c ∨ ('0' ≤ c ∧ c ≤ '9') ∨ c = '-') (cs : CName) :
    toC (c :: cs) = (if c = '-' then '_' else c) :: toC cs ∧ c ≠ '_' := by
  have n0 : c ≠ '_' := by
    rintro rfl; revert h; decide
  have n1 : c ≠ '#' := by rintro rfl; revert h; decide
  have n2 : ¬ (c = '.' ∨ c = '(' ∨ c = ')') := by
    rintro (rfl | rfl | rfl) <;> revert h <;> decide
  refine ⟨?_, n0⟩
  show (if c = '#' then _ else if c = '-' ∨ c = '.' ∨ c = '(' ∨ c = ')' then _ else _) = _
  rw [if_neg n1]
  by_cases hd : c = '-'
  · rw [if_pos (Or.inl hd), if_pos hd]
  · rw [if_neg (fun h => h.elim hd n2), if_neg hd]

theorem toC_inj_chars : ∀ {x y : CName}, (∀ c ∈ x, IsLetter c ∨ ('0' ≤ c ∧ c ≤ '9') ∨ c = '-') →
    (∀ c ∈ y, IsLetter c ∨ ('0' ≤ c ∧ c ≤ '9') ∨ c = '-') → toC x = toC y → x = y
  | [], [], _, _, _ => rfl
  | [], d :: ds, _, hy, h => by rw [(toC_name_char (hy d (by simp)) ds).1] at h; cases h
  | c :: cs, [], hx, _, h => by rw [(toC_name_char (hx c (by simp)) cs).1] at h; cases h
  | c :: cs, d :: ds, hx, hy, h => by
    obtain ⟨e1, n1⟩ := toC_name_char (hx c (by simp)) cs
    obtain ⟨e2, n2⟩ := toC_name_char (hy d (by simp)) ds
    rw [e1, e2] at h
    simp only [List.cons.injEq] at h
    have ih := toC_inj_chars (fun z hz => hx z (by simp [hz])) (fun z hz => hy z (by simp [hz])) h.2
    have hcd : c = d := by
      have h1 := h.1
      split at h1 <;> split at h1
      · rename_i a b; rw [a, b]
      · exact absurd h1.symm n2
      · exact absurd h1 n1
      · exact h1
    rw [hcd, ih]

theorem toC_inj {x y : CName} (hx : IsAsn1Name x) (hy : IsAsn1Name y) (h : toC x = toC y) : x = y := by
  have key : ∀ {z : CName}, IsAsn1Name z → ∀ c ∈ z, IsLetter c ∨ ('0' ≤ c ∧ c ≤ '9') ∨ c = '-' := by
    intro z hz c hc
    cases z with
    | nil => cases hc
    | cons d ds =>
      rcases List.mem_cons.1 hc with rfl | hc
      · exact Or.inl hz.1
      · exact hz.2 c hc
  exact toC_inj_chars (key hx) (key hy) h

theorem groups_nodup {α : Type} (f : α → CName) (l : List α) :
    ((groupsBy f l).filter fun g => g.2.length > 1).isEmpty = true ↔ (l.map f).Nodup := by
  rw [List.isEmpty_iff, List.filter_eq_nil_iff, List.nodup_iff_count]
  have hc : ∀ k, (l.filter fun a => f a == k).length = (l.map f).count k := by
    intro k
    rw [List.count, List.countP_map, List.countP_eq_length_filter]
    rfl
  constructor
  · intro h k
    by_cases hk : k ∈ l.map f
    · have := h (k, l.filter fun a => f a == k) (List.mem_map.2 ⟨k, List.mem_eraseDups.2 hk, rfl⟩)
      simp only [hc, decide_eq_true_eq] at this
      omega
    · rw [List.count_eq_zero.2 hk]; omega
  · intro h g hg
    obtain ⟨k, -, rfl⟩ := List.mem_map.1 hg
    have := h k
    simp only [hc, decide_eq_true_eq]
    omega

theorem renamedField_exist {e : Enumerant} (hk : ∃ q ∈ e.key, Capital q) (h : (renamedField e).name = "exist".toList) :
    e.name = "exist".toList := by
  by_cases hc : e.name ∈ cKeywords
  · obtain ⟨x, l, -, -, h3⟩ := renamedField_keyword hc hk
    rw [h3] at h
    have h4 : '_' ∈ "exist".toList := by rw [← h]; simp
    exact absurd h4 (by decide +kernel)
  · rw [renamedField_other hc] at h; exact h

theorem nodup_map_of {α : Type} {f g : α → CName} : ∀ {l : List α}, (l.map f).Nodup → (∀ a ∈ l, ∀ b ∈ l, f a ≠ f b → g a ≠ g b) → (l.map g).Nodup
  | [], _, _ => List.nodup_nil
  | a :: l, h, hg => by
    rw [List.map_cons, List.nodup_cons] at h ⊢
    refine ⟨fun hm => ?_, nodup_map_of h.2 fun x hx y hy => hg x (by simp [hx]) y (by simp [hy])⟩
    obtain ⟨b, hb, he⟩ := List.mem_map.1 hm
    refine hg a (by simp) b (by simp [hb]) (fun e => h.1 (e ▸ List.mem_map.2 ⟨b, hb, rfl⟩)) he.symm

end Asn1
