import Verif.Model.ChoiceNames
import Verif.Proof.Names4
/-!
# Lemmas on the renaming of alternatives
-/
namespace Asn1

/-- A name that is a name of C already. -/
def IsC (x : CName) : Prop := ∀ c ∈ x, c ≠ '#' ∧ c ≠ '-' ∧ c ≠ '.' ∧ c ≠ '(' ∧ c ≠ ')'

theorem toC_of_isC : ∀ {x : CName}, IsC x → toC x = x
  | [], _ => rfl
  | c :: cs, h => by
    have hc := h c (by simp)
    have ih := toC_of_isC (x := cs) fun d hd => h d (by simp [hd])
    simp [toC, hc, ih]

theorem isC_toC : ∀ x : CName, IsC (toC x)
  | [] => by intro c hc; cases hc
  | c :: cs => by
    have ih := isC_toC cs
    unfold toC
    split
    · intro d hd
      simp only [List.mem_cons] at hd
      rcases hd with rfl | rfl | rfl | hd
      · decide
      · decide
      · decide
      · exact ih d hd
    · split
      · intro d hd
        rcases List.mem_cons.1 hd with rfl | hd
        · decide
        · exact ih d hd
      · rename_i h1 h2
        intro d hd
        rcases List.mem_cons.1 hd with rfl | hd
        · simp only [not_or] at h2
          exact ⟨h1, h2.1, h2.2.1, h2.2.2.1, h2.2.2.2⟩
        · exact ih d hd

theorem copyChoice_eq {dups : List CName} {e : Enumerant} (h : IsC e.name) :
    copyChoice dups e = copyItem (if dups.any (icompare e.name) then [e.name] else []) e := by
  unfold copyChoice copyItem
  by_cases hd : dups.any (icompare e.name) = true
  · rw [if_pos hd, if_pos hd, if_pos (by simp)]
    cases hx : (e.key.reverse.map toC).dropWhile (containsText e.name) with
    | nil => rfl
    | cons x xs =>
      have hm : x ∈ e.key.reverse.map toC :=
        (List.dropWhile_sublist (containsText e.name)).subset (by rw [hx]; simp)
      obtain ⟨k, -, rfl⟩ := List.mem_map.1 hm
      have : IsC (toC k ++ '_' :: e.name) := by
        intro c hc
        simp only [List.mem_append, List.mem_cons] at hc
        rcases hc with hc | rfl | hc
        · exact isC_toC k c hc
        · decide
        · exact h c hc
      simp only [toC_of_isC this]
  · rw [if_neg hd, if_neg hd, if_neg (by simp), toC_of_isC h]

theorem copyChoice_isC {dups : List CName} {e e' : Enumerant} (h : copyChoice dups e = some e') : IsC e'.name := by
  unfold copyChoice at h
  split at h
  · split at h
    · cases h
    · cases h; exact isC_toC _
  · cases h; exact isC_toC _

/-! ## Duplicates -/

theorem keepFold_nil : ∀ {l : List CName}, keepDuplicatesFold [] l = [] ↔ (l.map (List.map Char.toLower)).Nodup
  | [] => by simp [keepDuplicatesFold]
  | x :: xs => by
    unfold keepDuplicatesFold
    rw [if_neg (by simp)]
    have hf : (xs.filter fun y => !([] : List CName).contains y) = xs := by simp
    have hany : xs.any (icompare x) = true ↔ x.map Char.toLower ∈ xs.map (List.map Char.toLower) := by
      simp only [List.any_eq_true, icompare, beq_iff_eq, List.mem_map]
      constructor
      · rintro ⟨y, hy, e⟩; exact ⟨y, hy, e.symm⟩
      · rintro ⟨y, hy, e⟩; exact ⟨y, hy, e.symm⟩
    rw [hf, List.map_cons, List.nodup_cons]
    by_cases h : xs.any (icompare x) = true
    · rw [if_pos h]
      simp [hany.1 h]
    · rw [if_neg h, keepFold_nil (l := xs)]
      have : x.map Char.toLower ∉ xs.map (List.map Char.toLower) := fun hc => h (hany.2 hc)
      simp only [this, not_false_eq_true, true_and]

theorem keepFold_mem : ∀ {gone l : List CName} {x : CName}, x ∈ keepDuplicatesFold gone l → x ∈ l
  | _, [], _, h => by cases h
  | gone, y :: l, x, h => by
    unfold keepDuplicatesFold at h
    split at h
    · exact List.mem_cons_of_mem _ (keepFold_mem h)
    · split at h
      · rcases List.mem_cons.1 h with rfl | h
        · simp
        · exact List.mem_cons_of_mem _ (keepFold_mem h)
      · exact List.mem_cons_of_mem _ (keepFold_mem h)

theorem mapM_cons_some' {f : Enumerant → Option Enumerant} {e : Enumerant} {es l : List Enumerant} (h : (e :: es).mapM f = some l) :
    ∃ e' es', f e = some e' ∧ es.mapM f = some es' ∧ l = e' :: es' := by
  rw [List.mapM_cons] at h
  cases h1 : f e with
  | none => rw [h1] at h; cases h
  | some e' =>
    cases h2 : es.mapM f with
    | none => rw [h1, h2] at h; cases h
    | some es' => rw [h1, h2] at h; cases h; exact ⟨e', es', rfl, rfl, rfl⟩

theorem copyChoices {dups : List CName} : ∀ (items items' : List Enumerant), (∀ e ∈ items, IsC e.name) →
    items.mapM (copyChoice dups) = some items' →
    SameEnumerants items items' ∧ (∀ e ∈ items', IsC e.name) ∧ roomOfAll items' ≤ roomOfAll items ∧
      ((∃ e ∈ items, dups.any (icompare e.name) = true) → roomOfAll items' < roomOfAll items)
  | [], l, _, h => by cases h; exact ⟨trivial, by simp, Nat.le_refl _, by simp⟩
  | e :: es, l, hc, h => by
    obtain ⟨e', es', h1, h2, rfl⟩ := mapM_cons_some' h
    obtain ⟨b1, b2, b3, b4⟩ := copyChoices es es' (fun x hx => hc x (by simp [hx])) h2
    have hC := copyChoice_isC h1
    rw [copyChoice_eq (hc e (by simp))] at h1
    have a1 := copyItem_same h1
    have a2 := copyItem_room h1
    refine ⟨⟨a1.1, a1.2, b1⟩, ?_, ?_, ?_⟩
    · intro x hx
      rcases List.mem_cons.1 hx with rfl | hx
      · exact hC
      · exact b2 x hx
    · simp only [roomOfAll]; omega
    · rintro ⟨x, hx, hd⟩
      simp only [roomOfAll]
      rcases List.mem_cons.1 hx with rfl | hx
      · have := a2.2 (by rw [if_pos hd]; simp)
        omega
      · have := b4 ⟨x, hx, hd⟩
        omega

theorem handleChoices_done : ∀ (f : Nat) (items items' : List Enumerant), (∀ e ∈ items, IsC e.name) → handleChoices f items = .done items' →
    doubleChoiceNames items' = [] ∧ SameEnumerants items items' ∧ ∀ e ∈ items', IsC e.name
  | 0, _, _, _, h => by cases h
  | f + 1, items, items', hc, h => by
    unfold handleChoices at h
    split at h
    · rename_i hd; cases h; exact ⟨hd, sameEnumerants_refl _, hc⟩
    · split at h
      · cases h
      · rename_i l hl
        obtain ⟨b1, b2, -, -⟩ := copyChoices _ _ hc hl
        obtain ⟨c1, c2, c3⟩ := handleChoices_done f _ _ b2 h
        exact ⟨c1, sameEnumerants_trans _ _ _ b1 c2, c3⟩

theorem handleChoices_ends : ∀ (f : Nat) (items : List Enumerant), (∀ e ∈ items, IsC e.name) → roomOfAll items < f →
    handleChoices f items ≠ .running
  | 0, _, _, h => by omega
  | f + 1, items, hc, h => by
    unfold handleChoices
    split
    · simp
    · rename_i hd
      split
      · simp
      · rename_i l hl
        obtain ⟨-, b2, -, b4⟩ := copyChoices _ _ hc hl
        have hex : ∃ e ∈ items, (doubleChoiceNames items).any (icompare e.name) = true := by
          obtain ⟨x, hx⟩ := List.exists_mem_of_ne_nil _ hd
          obtain ⟨e, he, rfl⟩ := List.mem_map.1 (keepFold_mem hx)
          exact ⟨e, he, List.any_eq_true.2 ⟨_, hx, by simp [icompare]⟩⟩
        have := b4 hex
        exact handleChoices_ends f l b2 (by omega)

theorem copyChoices_crash {dups : List CName} : ∀ (items : List Enumerant), items.mapM (copyChoice dups) = none →
    ∃ e ∈ items, dups.any (icompare e.name) = true ∧ ∀ k ∈ e.key, toC k <:+: e.name
  | [], h => by cases h
  | e :: es, h => by
    cases h1 : copyChoice dups e with
    | none =>
      refine ⟨e, by simp, ?_⟩
      unfold copyChoice at h1
      split at h1
      · rename_i hd
        split at h1
        · rename_i hx
          refine ⟨hd, fun k hk => ?_⟩
          have := dropWhile_nil hx (toC k) (List.mem_map_of_mem (List.mem_reverse.mpr hk))
          exact containsText_iff.mp this
        · cases h1
      · cases h1
    | some e' =>
      cases h2 : es.mapM (copyChoice dups) with
      | none =>
        obtain ⟨x, hx, h3⟩ := copyChoices_crash es h2
        exact ⟨x, List.mem_cons_of_mem _ hx, h3⟩
      | some es' => rw [List.mapM_cons, h1, h2] at h; cases h

end Asn1
