import Verif.Proof.AcnScopeRun
/-
Lemmas for C102: conditions of alternatives exclude each other; a type means the same inside
another one.
-/
namespace Asn1

/-! ### Conditions -/

theorem sorted_keys {σ : List String → Int} {τ : List String → String} {cs : List SCond}
    (h : ∀ c ∈ cs, c.Holds σ τ) : condKeys cs = (condPaths cs).map
      fun k => (k.1, pathText k.2, if k.1 = 1 then toString (σ k.2) else τ k.2) := by
  unfold condKeys condPaths
  rw [sortBy_map, List.map_map]
  apply List.map_congr_left
  intro c hc
  have := h c ((mem_sortBy _ _ _).1 hc)
  cases c with
  | int p v => simp only [SCond.Holds] at this; subst this; rfl
  | str p v => simp only [SCond.Holds] at this; subst this; rfl

theorem nodup_filter_index {α β : Type} (p : α → Bool) (f : α → β) : ∀ {l : List α}, ((l.filter p).map f).Nodup →
    ∀ {i j : Nat} {a b : α}, l[i]? = some a → l[j]? = some b → p a = true → p b = true → f a = f b → i = j
  | [], _, i, j, a, b, h, _, _, _, _ => by simp at h
  | c :: l, hn, 0, 0, a, b, _, _, _, _, _ => rfl
  | c :: l, hn, 0, j + 1, a, b, h, g, pa, pb, e => by
    simp at h g; subst h
    rw [List.filter_cons, if_pos pa, List.map_cons, List.nodup_cons] at hn
    exact absurd (List.mem_map.2 ⟨b, List.mem_filter.2 ⟨List.mem_of_getElem? g, pb⟩, e.symm⟩) hn.1
  | c :: l, hn, i + 1, 0, a, b, h, g, pa, pb, e => by
    simp at h g; subst g
    rw [List.filter_cons, if_pos pb, List.map_cons, List.nodup_cons] at hn
    exact absurd (List.mem_map.2 ⟨a, List.mem_filter.2 ⟨List.mem_of_getElem? h, pa⟩, e⟩) hn.1
  | c :: l, hn, i + 1, j + 1, a, b, h, g, pa, pb, e => by
    simp at h g
    have : ((l.filter p).map f).Nodup := by
      rw [List.filter_cons] at hn
      split at hn
      · rw [List.map_cons, List.nodup_cons] at hn; exact hn.2
      · exact hn
    rw [nodup_filter_index p f this h g pa pb e]

theorem condPaths_nil {cs : List SCond} (h : condPaths cs = []) : cs = [] := by
  cases cs with
  | nil => rfl
  | cons c cs =>
    have : (c.kindNo, c.path) ∈ condPaths (c :: cs) := List.mem_map.2 ⟨c, (mem_sortBy _ _ _).2 (by simp), rfl⟩
    rw [h] at this; cases this

theorem when_facts {R root fin} (ha : root.Arity) (h : checkTas R root = some fin) {around id ps d alts}
    (ho : Occ root around id (.mk ps (.choice d alts))) :
    (∃ p, d = some p ∧ ∀ a ∈ alts, a.conds = []) ∨
    (((alts.filter fun a => !a.conds.isEmpty).map fun a => condKeys a.conds).Nodup ∧
      ∀ a ∈ alts, ∀ b ∈ alts, condPaths a.conds = condPaths b.conds) := by
  obtain ⟨st, st', h1, _⟩ := checked ha h ho
  obtain ⟨st1, st2, h3, _⟩ := choice_parts ho h1
  unfold choiceWhen at h3
  cases d with
  | some p =>
    simp only [] at h3
    split at h3
    · rename_i he
      refine .inl ⟨p, rfl, fun a ham => ?_⟩
      simpa using List.all_eq_true.1 he a ham
    · cases h3
  | none =>
    simp only [] at h3
    split at h3
    · rename_i hn
      refine .inr ⟨hn, ?_⟩
      cases alts with
      | nil => simp
      | cons c rest =>
        simp only [] at h3
        split at h3
        · rename_i he
          have hall : ∀ a ∈ c :: rest, condPaths a.conds = condPaths c.conds := by
            intro a ham
            rcases List.mem_cons.1 ham with rfl | ham
            · rfl
            · exact eq_of_beq (List.all_eq_true.1 he a ham)
          intro a ham b hbm
          rw [hall a ham, hall b hbm]
        · cases h3
    · cases h3

/-! ### Inside another type -/

theorem occ_trans {root ar id t} (ho : Occ root ar id t) {ar' id' u} (h : Occ t ar' id' u) :
    Occ root (ar'.map (SPlace.shift id) ++ ar) (id ++ id') u := by
  induction h with
  | root => simpa using ho
  | ref _ ih => exact .ref ih
  | child _ hm ih =>
    rw [← List.append_assoc]
    exact .child ih hm
  | elem _ ih =>
    rw [← List.append_assoc]
    exact .elem ih
  | alt _ hm ih =>
    rw [← List.append_assoc]
    exact .alt ih hm

theorem refers_trans {root ar id t} (ho : Occ root ar id t) {first who scope around path need}
    (h : Refers t first who scope around path need) :
    Refers root first (id ++ who) (scope.map (SPlace.shift id) ++ ar) (around.map (SPlace.shift id) ++ ar) path need := by
  cases h with
  | size h hz => exact .size (occ_trans ho h) hz
  | present h hm =>
    rw [← List.append_assoc]
    exact .present (occ_trans ho h) hm
  | select h => exact .select (occ_trans ho h)
  | when h hc => exact .when (occ_trans ho h) hc
  | whenOther h hb hc => exact .whenOther (occ_trans ho h) hb hc
  | arg h hm => exact .arg (occ_trans ho h) hm

theorem denotes_trans {strict scope around path tgt} {id : SId} {ar : List SPlace}
    (hcap : ∀ q ∈ ar, ∀ x xs, path = x :: xs → q.2.param x = none)
    (h : PathMeans strict scope around path tgt) :
    PathMeans strict (scope.map (SPlace.shift id) ++ ar) (around.map (SPlace.shift id) ++ ar) path (tgt.shift id) := by
  have inner : ∀ {P : STy → Prop} {l : List SPlace}, (∀ q ∈ l, P q.2) → ∀ q ∈ l.map (SPlace.shift id), P q.2 := by
    intro P l h q hq
    obtain ⟨r, hr, rfl⟩ := List.mem_map.1 hq
    exact h r hr
  cases h with
  | @param x xs i o t outer p e h1 h2 =>
    refine .param (inner := i.map (SPlace.shift id)) (t := t) (outer := outer.map (SPlace.shift id) ++ ar) ?_
      (inner (P := fun t => t.param x = none) h1) h2
    rw [e]; simp [SPlace.shift]
  | @field x xs i s t outer f hn e h1 h2 h3 =>
    have : STarget.shift id (.field (s ++ x :: xs) f) = .field ((id ++ s) ++ x :: xs) f := by
      simp [STarget.shift]
    rw [this]
    refine .field (inner := i.map (SPlace.shift id)) (t := t) (outer := outer.map (SPlace.shift id) ++ ar) ?_ ?_
      (inner (P := fun t => t.hasComponent x = false) h1) h2 h3
    · intro q hq
      rcases List.mem_append.1 hq with hq | hq
      · exact inner (P := fun t => t.param x = none) hn q hq
      · exact hcap q hq x xs rfl
    · rw [e]; simp [SPlace.shift]

end Asn1
