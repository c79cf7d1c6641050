import Verif.Spec.Names
/-!
# Lemmas on the renaming of enumerants
-/
namespace Asn1

theorem mem_keepDuplicatesBut {x : CName} : ∀ (l skip : List CName), x ∈ keepDuplicatesBut skip l ↔ x ∉ skip ∧ 2 ≤ l.count x
  | [], skip => by simp [keepDuplicatesBut]
  | y :: l, skip => by
    unfold keepDuplicatesBut
    have hmem : x ∈ l ↔ 1 ≤ l.count x := by rw [← List.count_pos_iff]; omega
    by_cases hs : skip.contains y = true
    · rw [if_pos hs, mem_keepDuplicatesBut l skip, List.count_cons]
      have hs' : y ∈ skip := by simpa using hs
      by_cases hxy : y = x
      · subst hxy; simp [hs']
      · simp [hxy]
    · rw [if_neg hs]
      have hs' : y ∉ skip := by simpa using hs
      by_cases hc : l.contains y = true
      · rw [if_pos hc, List.mem_cons, mem_keepDuplicatesBut l (y :: skip), List.count_cons]
        have hc' : y ∈ l := by simpa using hc
        by_cases hxy : y = x
        · subst hxy; have := hmem.mp hc'; simp [hs']; omega
        · simp [hxy, Ne.symm hxy]
      · rw [if_neg hc, mem_keepDuplicatesBut l skip, List.count_cons]
        have hc' : y ∉ l := by simpa using hc
        by_cases hxy : y = x
        · subst hxy; rw [hmem] at hc'; simp only [BEq.rfl, if_true]; constructor <;> (rintro ⟨_, _⟩; omega)
        · simp [hxy]

theorem mem_keepDuplicates {x : CName} {l : List CName} : x ∈ keepDuplicates l ↔ 2 ≤ l.count x := by
  unfold keepDuplicates; rw [mem_keepDuplicatesBut]; simp

theorem keepDuplicates_nil {l : List CName} : keepDuplicates l = [] ↔ l.Nodup := by
  rw [List.eq_nil_iff_forall_not_mem, List.nodup_iff_count]
  constructor
  · intro h a; have := h a; rw [mem_keepDuplicates] at this; omega
  · intro h a; rw [mem_keepDuplicates]; have := h a; omega

theorem keywords_nodup : cKeywords.Nodup := by decide

/-! ## What has finished is free of duplicates -/

theorem handleEnums_done : ∀ (f : Nat) (values : List CName) (items items' : List Enumerant), handleEnums f values items = .done items' →
    doubleEnumNames items' values = []
  | 0, _, _, _, h => by cases h
  | f + 1, values, items, items', h => by
    unfold handleEnums at h
    split at h
    · rename_i hd; cases h; exact hd
    · split at h
      · cases h
      · exact handleEnums_done f _ _ _ h

theorem copyItem_same {dups : List CName} {e e' : Enumerant} (h : copyItem dups e = some e') : e'.key = e.key ∧ e.name <:+ e'.name := by
  unfold copyItem at h
  split at h
  · split at h
    · cases h
    · rename_i x _ _; cases h; exact ⟨rfl, ⟨x ++ ['_'], by simp⟩⟩
  · cases h; exact ⟨rfl, List.suffix_refl _⟩

theorem sameEnumerants_refl : ∀ (l : List Enumerant), SameEnumerants l l
  | [] => trivial
  | _ :: l => ⟨rfl, List.suffix_refl _, sameEnumerants_refl l⟩

theorem sameEnumerants_trans : ∀ (a b c : List Enumerant), SameEnumerants a b → SameEnumerants b c → SameEnumerants a c
  | [], [], [], _, _ => trivial
  | x :: a, y :: b, z :: c, h1, h2 => ⟨h2.1.trans h1.1, h1.2.1.trans h2.2.1, sameEnumerants_trans a b c h1.2.2 h2.2.2⟩
  | [], [], _ :: _, _, h => absurd h (by simp [SameEnumerants])
  | [], _ :: _, _, h, _ => absurd h (by simp [SameEnumerants])
  | _ :: _, [], _, h, _ => absurd h (by simp [SameEnumerants])
  | _ :: _, _ :: _, [], _, h => absurd h (by simp [SameEnumerants])

theorem mapM_cons_some {dups : List CName} {e : Enumerant} {es l : List Enumerant} (h : (e :: es).mapM (copyItem dups) = some l) :
    ∃ e' es', copyItem dups e = some e' ∧ es.mapM (copyItem dups) = some es' ∧ l = e' :: es' := by
  rw [List.mapM_cons] at h
  cases h1 : copyItem dups e with
  | none => rw [h1] at h; cases h
  | some e' =>
    cases h2 : es.mapM (copyItem dups) with
    | none => rw [h1, h2] at h; cases h
    | some es' => rw [h1, h2] at h; cases h; exact ⟨e', es', rfl, rfl, rfl⟩

theorem copyItems_same {dups : List CName} : ∀ (items items' : List Enumerant), items.mapM (copyItem dups) = some items' → SameEnumerants items items'
  | [], l, h => by cases h; trivial
  | e :: es, l, h => by
    obtain ⟨e', es', h1, h2, rfl⟩ := mapM_cons_some h
    have := copyItem_same h1
    exact ⟨this.1, this.2, copyItems_same es es' h2⟩

theorem handleEnums_same : ∀ (f : Nat) (values : List CName) (items items' : List Enumerant), handleEnums f values items = .done items' →
    SameEnumerants items items'
  | 0, _, _, _, h => by cases h
  | f + 1, values, items, items', h => by
    unfold handleEnums at h
    split at h
    · cases h; exact sameEnumerants_refl _
    · split at h
      · cases h
      · rename_i l hl
        exact sameEnumerants_trans _ _ _ (copyItems_same _ _ hl) (handleEnums_same f _ _ _ h)

/-! ## The rounds come to an end -/

theorem containsText_iff {y : CName} : ∀ {x : CName}, containsText x y = true ↔ y <:+: x
  | [] => by simp [containsText]
  | c :: cs => by
    unfold containsText
    rw [Bool.or_eq_true, List.isPrefixOf_iff_prefix, containsText_iff (x := cs), List.infix_cons_iff]

theorem dropWhile_le {p q : CName → Bool} (h : ∀ y, p y = true → q y = true) : ∀ (l : List CName), (l.dropWhile q).length ≤ (l.dropWhile p).length
  | [] => by simp
  | x :: l => by
    have ih := dropWhile_le h l
    by_cases hp : p x = true
    · rw [List.dropWhile_cons, List.dropWhile_cons, if_pos hp, if_pos (h x hp)]; exact ih
    · rw [List.dropWhile_cons, List.dropWhile_cons, if_neg hp]
      split
      · have h1 : (l.dropWhile q).length ≤ l.length := List.Sublist.length_le (List.dropWhile_sublist q)
        simp; omega
      · simp

theorem dropWhile_lt {p q : CName → Bool} (h : ∀ y, p y = true → q y = true) {x : CName} {r : List CName} (hx : q x = true) : ∀ (l : List CName),
    l.dropWhile p = x :: r → (l.dropWhile q).length < (l.dropWhile p).length
  | [], hd => by cases hd
  | y :: l, hd => by
    by_cases hp : p y = true
    · rw [List.dropWhile_cons, if_pos hp] at hd
      rw [List.dropWhile_cons, List.dropWhile_cons, if_pos hp, if_pos (h y hp)]
      exact dropWhile_lt h hx l hd
    · rw [List.dropWhile_cons, if_neg hp] at hd
      have hy := (List.cons.inj hd).1
      rw [List.dropWhile_cons, List.dropWhile_cons, if_neg hp, if_pos (hy ▸ hx)]
      have h1 : (l.dropWhile q).length ≤ l.length := List.Sublist.length_le (List.dropWhile_sublist q)
      simp; omega

/-- How many parts of the key can still be put in front of the name. -/
def roomOf (e : Enumerant) : Nat := ((e.key.reverse.map toC).dropWhile (containsText e.name)).length

/-- The same for all enumerants together. -/
def roomOfAll : List Enumerant → Nat
  | [] => 0
  | e :: es => roomOf e + roomOfAll es

theorem copyItem_room {dups : List CName} {e e' : Enumerant} (h : copyItem dups e = some e') :
    roomOf e' ≤ roomOf e ∧ (e.name ∈ dups → roomOf e' < roomOf e) := by
  unfold copyItem at h
  by_cases hd : dups.contains e.name = true
  · rw [if_pos hd] at h
    split at h
    · cases h
    · rename_i x r hx
      cases h
      have hmono : ∀ y, containsText e.name y = true → containsText (x ++ '_' :: e.name) y = true := by
        intro y hy
        rw [containsText_iff] at hy ⊢
        exact hy.trans ⟨x ++ ['_'], [], by simp⟩
      have hlt : roomOf { e with name := x ++ '_' :: e.name } < roomOf e :=
        dropWhile_lt hmono (containsText_iff.mpr ⟨[], '_' :: e.name, by simp⟩) _ hx
      exact ⟨Nat.le_of_lt hlt, fun _ => hlt⟩
  · rw [if_neg hd] at h; cases h
    exact ⟨Nat.le_refl _, fun hm => absurd (by simpa using hm) hd⟩

theorem copyItems_room {dups : List CName} : ∀ (items items' : List Enumerant), items.mapM (copyItem dups) = some items' →
    roomOfAll items' ≤ roomOfAll items ∧ ((∃ e ∈ items, e.name ∈ dups) → roomOfAll items' < roomOfAll items)
  | [], l, h => by cases h; exact ⟨Nat.le_refl _, by simp⟩
  | e :: es, l, h => by
    obtain ⟨e', es', h1, h2, rfl⟩ := mapM_cons_some h
    have ha := copyItem_room h1
    have hb := copyItems_room es es' h2
    simp only [roomOfAll]
    refine ⟨by omega, ?_⟩
    rintro ⟨x, hx, hd⟩
    rcases List.mem_cons.mp hx with rfl | hx
    · have := ha.2 hd; omega
    · have := hb.2 ⟨x, hx, hd⟩; omega

theorem double_item {values : List CName} {items : List Enumerant} (hv : (values ++ cKeywords).Nodup) (h : doubleEnumNames items values ≠ []) :
    ∃ e ∈ items, e.name ∈ doubleEnumNames items values := by
  obtain ⟨x, hx⟩ := List.exists_mem_of_ne_nil _ h
  have hc : 2 ≤ (items.map Enumerant.name ++ values ++ cKeywords).count x := mem_keepDuplicates.mp hx
  rw [List.append_assoc, List.count_append] at hc
  have h1 := List.nodup_iff_count.mp hv x
  have h2 : 0 < (items.map Enumerant.name).count x := by omega
  obtain ⟨e, he, rfl⟩ := List.mem_map.mp (List.count_pos_iff.mp h2)
  exact ⟨e, he, hx⟩

theorem handleEnums_ends (values : List CName) (hv : (values ++ cKeywords).Nodup) : ∀ (f : Nat) (items : List Enumerant), roomOfAll items < f →
    handleEnums f values items ≠ .running
  | 0, _, h => by omega
  | f + 1, items, h => by
    unfold handleEnums
    split
    · simp
    · rename_i hd
      split
      · simp
      · rename_i l hl
        have := (copyItems_room _ _ hl).2 (double_item hv hd)
        exact handleEnums_ends values hv f l (by omega)

theorem handleEnums_never {values : List CName} (hv : ¬(values ++ cKeywords).Nodup) (f : Nat) (items items' : List Enumerant) :
    handleEnums f values items ≠ .done items' := by
  intro h
  have := keepDuplicates_nil.mp (handleEnums_done _ _ _ _ h)
  rw [List.append_assoc, List.nodup_append] at this
  exact hv this.2.1

theorem handleEnums_nothing {values : List CName} (hv : ¬(values ++ cKeywords).Nodup) : ∀ f, handleEnums f values [] = .running
  | 0 => rfl
  | f + 1 => by
    unfold handleEnums
    rw [if_neg]
    · exact handleEnums_nothing hv f
    · intro h; have := keepDuplicates_nil.mp h; simp at this; exact hv (by simpa [List.nodup_append] using this)

theorem dropWhile_nil {p : CName → Bool} : ∀ {l : List CName}, l.dropWhile p = [] → ∀ x ∈ l, p x = true
  | [], _, _, hx => by cases hx
  | y :: l, h, x, hx => by
    rw [List.dropWhile_cons] at h
    split at h
    · rename_i hp
      rcases List.mem_cons.mp hx with rfl | hx
      · exact hp
      · exact dropWhile_nil h x hx
    · cases h

/-- A stop by an exception: some enumerant has a name that occurs twice and that contains every part of its key. -/
theorem copyItems_crash {dups : List CName} : ∀ (items : List Enumerant), items.mapM (copyItem dups) = none →
    ∃ e ∈ items, e.name ∈ dups ∧ ∀ k ∈ e.key, toC k <:+: e.name
  | [], h => by cases h
  | e :: es, h => by
    cases h1 : copyItem dups e with
    | none =>
      refine ⟨e, by simp, ?_⟩
      unfold copyItem at h1
      split at h1
      · rename_i hd
        split at h1
        · rename_i hx
          refine ⟨by simpa using hd, fun k hk => ?_⟩
          have := dropWhile_nil hx (toC k) (List.mem_map_of_mem (List.mem_reverse.mpr hk))
          exact containsText_iff.mp this
        · cases h1
      · cases h1
    | some e' =>
      cases h2 : es.mapM (copyItem dups) with
      | none =>
        obtain ⟨x, hx, h3⟩ := copyItems_crash es h2
        exact ⟨x, List.mem_cons_of_mem _ hx, h3⟩
      | some es' => rw [List.mapM_cons, h1, h2] at h; cases h

end Asn1
