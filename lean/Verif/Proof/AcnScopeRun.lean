import Verif.Proof.AcnScope
/-
Lemmas for C102: the order of places, and the order in which a decoder meets them.
-/
namespace Asn1

/-! ### Positions -/

theorem posFrom_split : ∀ (l : List SId) (n : Nat) (a b : SId) (i j : Nat), posFrom n l a = some i →
    posFrom n l b = some j → (i < j → ∃ l1 l2, l = l1 ++ l2 ∧ a ∈ l1 ∧ b ∈ l2) ∧ n ≤ j ∧ (i = j → a = b) ∧ a ∈ l
  | [], n, a, b, i, j, h, _ => by simp [posFrom] at h
  | c :: l, n, a, b, i, j, ha, hb => by
    unfold posFrom at ha hb
    cases h1 : posFrom (n + 1) l a with
    | some i' =>
      rw [h1] at ha; cases ha
      have haa := posFrom_split l (n + 1) a a i i h1 h1
      cases h2 : posFrom (n + 1) l b with
      | some j' =>
        rw [h2] at hb; cases hb
        obtain ⟨g1, g2, g3, g4⟩ := posFrom_split l (n + 1) a b i j h1 h2
        refine ⟨fun hlt => ?_, by omega, g3, by simp [g4]⟩
        obtain ⟨l1, l2, rfl, m1, m2⟩ := g1 hlt
        exact ⟨c :: l1, l2, rfl, by simp [m1], m2⟩
      | none =>
        rw [h2] at hb
        simp only [] at hb
        split at hb
        · cases hb
          exact ⟨fun hlt => by omega, Nat.le_refl _, fun e => by omega, by simp [haa.2.2.2]⟩
        · cases hb
    | none =>
      rw [h1] at ha
      simp only [] at ha
      split at ha
      · rename_i hca
        cases ha
        cases h2 : posFrom (n + 1) l b with
        | some j' =>
          rw [h2] at hb; cases hb
          have hbb := posFrom_split l (n + 1) b b j j h2 h2
          refine ⟨fun _ => ⟨[c], l, rfl, by simp [hca], hbb.2.2.2⟩, by omega, fun e => by omega, by simp [hca]⟩
        | none =>
          rw [h2] at hb
          simp only [] at hb
          split at hb
          · rename_i hcb
            cases hb
            exact ⟨fun hlt => by omega, Nat.le_refl _, fun _ => by rw [← hca, hcb], by simp [hca]⟩
          · cases hb
      · cases ha

/-- `a` is before `b`. -/
def Precedes (l : List SId) (a b : SId) : Prop := ∃ l1 l2, l = l1 ++ l2 ∧ a ∈ l1 ∧ b ∈ l2

theorem precedes_infix {u l w : List SId} {a b : SId} (hn : (u ++ l ++ w).Nodup) (ha : a ∈ l) (hb : b ∈ l)
    (h : Precedes (u ++ l ++ w) a b) : Precedes l a b := by
  obtain ⟨l1, l2, e, h1, h2⟩ := h
  obtain ⟨p, q, rfl⟩ := List.append_of_mem ha
  -- `b` is before or after the first `a`
  rcases List.mem_append.1 hb with hbp | hbq
  · exfalso
    obtain ⟨p1, p2, rfl⟩ := List.append_of_mem hbp
    -- b ... a in the whole list, and a in l1, b in l2
    have hbw : ∃ x y z, l1 ++ l2 = x ++ b :: y ++ a :: z := ⟨u ++ p1, p2, q ++ w, by rw [← e]; simp⟩
    obtain ⟨x, y, z, e2⟩ := hbw
    rw [e, e2] at hn
    obtain ⟨r1, r2, rfl⟩ := List.append_of_mem h1
    obtain ⟨s1, s2, rfl⟩ := List.append_of_mem h2
    have hn2 : (r1 ++ a :: r2 ++ (s1 ++ b :: s2)).Nodup := by rw [e2]; exact hn
    have hsub : List.Sublist [a, b] (r1 ++ a :: r2 ++ (s1 ++ b :: s2)) :=
      List.Sublist.append (l₁ := [a]) (r₁ := [b]) (by simp) (by simp)
    rw [e2] at hsub
    -- in x ++ b :: y ++ a :: z with no duplicates there is no a before b
    have hax : a ∉ x ∧ a ∉ y ∧ a ≠ b ∧ b ∉ z ∧ b ∉ y := by
      rw [List.append_assoc, List.nodup_append] at hn
      obtain ⟨n1, n2, n3⟩ := hn
      rw [List.cons_append, List.nodup_cons] at n2
      obtain ⟨m1, m2⟩ := n2
      rw [List.nodup_append] at m2
      refine ⟨fun h => n3 a h a (by simp) rfl, fun h => m2.2.2 a h a (by simp) rfl, ?_, ?_, ?_⟩
      · rintro rfl; exact m1 (by simp)
      · intro h; exact m1 (by simp [h])
      · intro h; exact m1 (by simp [h])
    rw [List.append_assoc, List.sublist_append_iff] at hsub
    obtain ⟨k1, k2, ek, q1, q2⟩ := hsub
    have : k1 = [] := by
      cases k1 with
      | nil => rfl
      | cons c k =>
        simp at ek
        exact absurd (q1.subset (by rw [ek.1]; simp)) hax.1
    subst this
    simp at ek; subst ek
    rw [List.cons_append] at q2
    have q3 : List.Sublist [a, b] (y ++ a :: z) := by
      cases q2 with
      | cons _ h => exact h
      | cons_cons _ h => exact absurd rfl hax.2.2.1
    rw [List.sublist_append_iff] at q3
    obtain ⟨k1, k2, ek, q1, q2⟩ := q3
    have : k1 = [] := by
      cases k1 with
      | nil => rfl
      | cons c k =>
        simp at ek
        exact absurd (q1.subset (by rw [ek.1]; simp)) hax.2.1
    subst this
    simp at ek; subst ek
    have hbz : b ∈ z := by
      cases q2 with
      | cons _ h => exact h.subset (by simp)
      | cons_cons _ h => exact h.subset (by simp)
    exact hax.2.2.2.1 hbz
  · rcases List.mem_cons.1 hbq with rfl | hbq
    · exfalso
      rw [e, List.nodup_append] at hn
      exact hn.2.2 b h1 b h2 rfl
    · exact ⟨p ++ [a], q, by simp, by simp, hbq⟩

/-! ### Places -/

mutual
theorem places_head (id : SId) : ∀ t : STy, ∃ l, places id t = id :: l ∧ ∀ e ∈ l, ∃ x xs, e = id ++ x :: xs
  | .mk _ (.leaf _) => ⟨[], by rw [places], by simp⟩
  | .mk _ (.seqOf _ t) => by
    refine ⟨_, by rw [places], ?_⟩
    intro e he
    obtain ⟨l, h1, h2⟩ := places_head (id ++ ["#"]) t
    rw [h1] at he
    rcases List.mem_cons.1 he with rfl | he
    · exact ⟨"#", [], rfl⟩
    · obtain ⟨x, xs, rfl⟩ := h2 e he
      exact ⟨"#", x :: xs, by simp⟩
  | .mk _ (.seq ch) => by
    refine ⟨_, by rw [places], ?_⟩
    intro e he
    obtain ⟨c, _, xs, rfl⟩ := placesCh_mem id ch e he
    exact ⟨_, _, rfl⟩
  | .mk _ (.choice _ alts) => by
    refine ⟨_, by rw [places], ?_⟩
    intro e he
    obtain ⟨c, _, xs, rfl⟩ := placesAlt_mem id alts e he
    exact ⟨_, _, rfl⟩
  | .mk _ (.ref _ _ t) => by
    rw [places]
    exact places_head id t
theorem placesCh_mem (id : SId) : ∀ (ch : List SChild) (e : SId), e ∈ placesCh id ch →
    ∃ c ∈ ch, ∃ xs, e = id ++ c.name :: xs
  | [], e, h => by simp [placesCh] at h
  | .asn n o t :: ch, e, h => by
    rw [placesCh, List.mem_append] at h
    rcases h with h | h
    · obtain ⟨l, h1, h2⟩ := places_head (id ++ [n]) t
      rw [h1] at h
      refine ⟨.asn n o t, by simp, ?_⟩
      rcases List.mem_cons.1 h with rfl | h
      · exact ⟨[], rfl⟩
      · obtain ⟨x, xs, rfl⟩ := h2 e h
        exact ⟨x :: xs, by simp [SChild.name]⟩
    · obtain ⟨c, hc, xs, rfl⟩ := placesCh_mem id ch e h
      exact ⟨c, by simp [hc], xs, rfl⟩
  | .acn n f :: ch, e, h => by
    rw [placesCh, List.mem_cons] at h
    rcases h with rfl | h
    · exact ⟨.acn n f, by simp, [], rfl⟩
    · obtain ⟨c, hc, xs, rfl⟩ := placesCh_mem id ch e h
      exact ⟨c, by simp [hc], xs, rfl⟩
theorem placesAlt_mem (id : SId) : ∀ (alts : List SAlt) (e : SId), e ∈ placesAlt id alts →
    ∃ c ∈ alts, ∃ xs, e = id ++ c.name :: xs
  | [], e, h => by simp [placesAlt] at h
  | .mk n c t :: alts, e, h => by
    rw [placesAlt, List.mem_append] at h
    rcases h with h | h
    · obtain ⟨l, h1, h2⟩ := places_head (id ++ [n]) t
      rw [h1] at h
      refine ⟨.mk n c t, by simp, ?_⟩
      rcases List.mem_cons.1 h with rfl | h
      · exact ⟨[], rfl⟩
      · obtain ⟨x, xs, rfl⟩ := h2 e h
        exact ⟨x :: xs, by simp [SAlt.name]⟩
    · obtain ⟨c, hc, xs, rfl⟩ := placesAlt_mem id alts e h
      exact ⟨c, by simp [hc], xs, rfl⟩
end

theorem places_pre {id e : SId} {t : STy} (h : e ∈ places id t) : ∃ xs, e = id ++ xs := by
  obtain ⟨l, h1, h2⟩ := places_head id t
  rw [h1] at h
  rcases List.mem_cons.1 h with rfl | h
  · exact ⟨[], by simp⟩
  · obtain ⟨x, xs, rfl⟩ := h2 e h
    exact ⟨_, rfl⟩

theorem self_notMem {id : SId} {l : List SId} (h : ∀ e ∈ l, ∃ x xs, e = id ++ x :: xs) : id ∉ l := by
  intro hm
  obtain ⟨x, xs, e⟩ := h id hm
  have := congrArg List.length e
  simp at this

theorem name_eq {id : SId} {a b : String} {xs ys : List String} (h : id ++ a :: xs = id ++ b :: ys) : a = b ∧ xs = ys := by
  simpa using h

mutual
theorem places_nodup (id : SId) : ∀ t : STy, t.distinct = true → (places id t).Nodup
  | .mk _ (.leaf _), _ => by rw [places]; simp
  | .mk _ (.seqOf z t), h => by
    have h' : t.distinct = true := by simpa [STy.distinct, SKind.distinct] using h
    rw [places, List.nodup_cons]
    refine ⟨self_notMem ?_, places_nodup _ t h'⟩
    intro e he
    obtain ⟨xs, rfl⟩ := places_pre he
    exact ⟨"#", xs, by simp⟩
  | .mk _ (.seq ch), h => by
    have h' : (ch.map SChild.name).Nodup ∧ childrenDistinct ch = true := by
      simpa [STy.distinct, SKind.distinct] using h
    rw [places, List.nodup_cons]
    refine ⟨self_notMem ?_, placesCh_nodup id ch h'.1 h'.2⟩
    intro e he
    obtain ⟨c, _, xs, rfl⟩ := placesCh_mem id ch e he
    exact ⟨_, _, rfl⟩
  | .mk _ (.choice d alts), h => by
    have h' : (alts.map SAlt.name).Nodup ∧ altsDistinct alts = true := by
      simpa [STy.distinct, SKind.distinct] using h
    rw [places, List.nodup_cons]
    refine ⟨self_notMem ?_, placesAlt_nodup id alts h'.1 h'.2⟩
    intro e he
    obtain ⟨c, _, xs, rfl⟩ := placesAlt_mem id alts e he
    exact ⟨_, _, rfl⟩
  | .mk _ (.ref _ _ t), h => by
    have h' : t.distinct = true := by simpa [STy.distinct, SKind.distinct] using h
    rw [places]
    exact places_nodup id t h'
theorem placesCh_nodup (id : SId) : ∀ ch : List SChild, (ch.map SChild.name).Nodup → childrenDistinct ch = true →
    (placesCh id ch).Nodup
  | [], _, _ => by simp [placesCh]
  | .asn n o t :: ch, hn, hd => by
    rw [childrenDistinct, Bool.and_eq_true] at hd
    rw [List.map_cons, List.nodup_cons] at hn
    rw [placesCh, List.nodup_append]
    refine ⟨places_nodup _ t hd.1, placesCh_nodup id ch hn.2 hd.2, ?_⟩
    rintro a ha b hb rfl
    obtain ⟨xs, rfl⟩ := places_pre ha
    obtain ⟨c, hc, ys, e⟩ := placesCh_mem id ch _ hb
    rw [List.append_assoc, List.singleton_append] at e
    exact hn.1 (List.mem_map.2 ⟨_, hc, (name_eq e).1.symm⟩)
  | .acn n f :: ch, hn, hd => by
    rw [childrenDistinct] at hd
    rw [List.map_cons, List.nodup_cons] at hn
    rw [placesCh, List.nodup_cons]
    refine ⟨?_, placesCh_nodup id ch hn.2 hd⟩
    intro hb
    obtain ⟨c, hc, ys, e⟩ := placesCh_mem id ch _ hb
    exact hn.1 (List.mem_map.2 ⟨_, hc, (name_eq e).1.symm⟩)
theorem placesAlt_nodup (id : SId) : ∀ alts : List SAlt, (alts.map SAlt.name).Nodup → altsDistinct alts = true →
    (placesAlt id alts).Nodup
  | [], _, _ => by simp [placesAlt]
  | .mk n c t :: alts, hn, hd => by
    rw [altsDistinct, Bool.and_eq_true] at hd
    rw [List.map_cons, List.nodup_cons] at hn
    rw [placesAlt, List.nodup_append]
    refine ⟨places_nodup _ t hd.1, placesAlt_nodup id alts hn.2 hd.2, ?_⟩
    rintro a ha b hb rfl
    obtain ⟨xs, rfl⟩ := places_pre ha
    obtain ⟨c, hc, ys, e⟩ := placesAlt_mem id alts _ hb
    rw [List.append_assoc, List.singleton_append] at e
    exact hn.1 (List.mem_map.2 ⟨_, hc, (name_eq e).1.symm⟩)
end

theorem childrenDistinct_mem : ∀ {ch : List SChild} {n o t}, childrenDistinct ch = true → SChild.asn n o t ∈ ch → t.distinct = true
  | .asn n' o' t' :: ch, n, o, t, hd, hm => by
    rw [childrenDistinct, Bool.and_eq_true] at hd
    rcases List.mem_cons.1 hm with e | hm
    · cases e; exact hd.1
    · exact childrenDistinct_mem hd.2 hm
  | .acn n' f :: ch, n, o, t, hd, hm => by
    rw [childrenDistinct] at hd
    rcases List.mem_cons.1 hm with e | hm
    · cases e
    · exact childrenDistinct_mem hd hm

theorem altsDistinct_mem : ∀ {alts : List SAlt} {n c t}, altsDistinct alts = true → SAlt.mk n c t ∈ alts → t.distinct = true
  | .mk n' o' t' :: ch, n, o, t, hd, hm => by
    rw [altsDistinct, Bool.and_eq_true] at hd
    rcases List.mem_cons.1 hm with e | hm
    · cases e; exact hd.1
    · exact altsDistinct_mem hd.2 hm

theorem seq_distinct {ps ch} (h : (STy.mk ps (.seq ch)).distinct = true) :
    (ch.map SChild.name).Nodup ∧ childrenDistinct ch = true := by
  simpa [STy.distinct, SKind.distinct] using h

theorem choice_distinct {ps d alts} (h : (STy.mk ps (.choice d alts)).distinct = true) :
    (alts.map SAlt.name).Nodup ∧ altsDistinct alts = true := by
  simpa [STy.distinct, SKind.distinct] using h

theorem occ_distinct {root around id t} (hd : root.distinct = true) (h : Occ root around id t) : t.distinct = true := by
  induction h with
  | root => exact hd
  | ref _ ih => simpa [STy.distinct, SKind.distinct] using ih
  | child _ hm ih => exact childrenDistinct_mem (seq_distinct ih).2 hm
  | elem _ ih => simpa [STy.distinct, SKind.distinct] using ih
  | alt _ hm ih => exact altsDistinct_mem (choice_distinct ih).2 hm

theorem placesCh_asn {id : SId} {n o t} : ∀ {ch : List SChild}, SChild.asn n o t ∈ ch →
    ∃ u w, placesCh id ch = u ++ places (id ++ [n]) t ++ w
  | .asn n' o' t' :: ch, hm => by
    rcases List.mem_cons.1 hm with e | hm
    · cases e; exact ⟨[], placesCh id ch, by rw [placesCh]; simp⟩
    · obtain ⟨u, w, e⟩ := placesCh_asn hm
      exact ⟨places (id ++ [n']) t' ++ u, w, by rw [placesCh, e]; simp⟩
  | .acn n' f :: ch, hm => by
    rcases List.mem_cons.1 hm with e | hm
    · cases e
    · obtain ⟨u, w, e⟩ := placesCh_asn hm
      exact ⟨(id ++ [n']) :: u, w, by rw [placesCh, e]; simp⟩

theorem placesCh_acn {id : SId} {n f} : ∀ {ch : List SChild}, SChild.acn n f ∈ ch → id ++ [n] ∈ placesCh id ch
  | .asn n' o' t' :: ch, hm => by
    rcases List.mem_cons.1 hm with e | hm
    · cases e
    · rw [placesCh]; simp [placesCh_acn (id := id) hm]
  | .acn n' f :: ch, hm => by
    rcases List.mem_cons.1 hm with e | hm
    · cases e; rw [placesCh]; simp
    · rw [placesCh]; simp [placesCh_acn (id := id) hm]

theorem placesAlt_alt {id : SId} {n c t} : ∀ {alts : List SAlt}, SAlt.mk n c t ∈ alts →
    ∃ u w, placesAlt id alts = u ++ places (id ++ [n]) t ++ w
  | .mk n' o' t' :: ch, hm => by
    rcases List.mem_cons.1 hm with e | hm
    · cases e; exact ⟨[], placesAlt id ch, by rw [placesAlt]; simp⟩
    · obtain ⟨u, w, e⟩ := placesAlt_alt hm
      exact ⟨places (id ++ [n']) t' ++ u, w, by rw [placesAlt, e]; simp⟩

theorem occ_infix {root around id t} (h : Occ root around id t) :
    ∃ u w, places [] root = u ++ places id t ++ w := by
  induction h with
  | root => exact ⟨[], [], by simp⟩
  | ref _ ih => rw [places] at ih; exact ih
  | @child around id _ _ _ _ _ _ hm ih =>
    obtain ⟨u, w, e⟩ := ih
    obtain ⟨u', w', e'⟩ := placesCh_asn (id := id) hm
    rw [places, e'] at e
    exact ⟨u ++ [id] ++ u', w' ++ w, by rw [e]; simp⟩
  | @elem around id _ _ _ _ ih =>
    obtain ⟨u, w, e⟩ := ih
    rw [places] at e
    exact ⟨u ++ [id], w, by rw [e]; simp⟩
  | @alt around id _ _ _ _ _ _ _ hm ih =>
    obtain ⟨u, w, e⟩ := ih
    obtain ⟨u', w', e'⟩ := placesAlt_alt (id := id) hm
    rw [places, e'] at e
    exact ⟨u ++ [id] ++ u', w' ++ w, by rw [e]; simp⟩

theorem occ_mem {root around id t} (h : Occ root around id t) : id ∈ places [] root := by
  obtain ⟨u, w, e⟩ := occ_infix h
  obtain ⟨l, e', _⟩ := places_head id t
  rw [e, e']; simp

theorem reach_mem {strict t path f} (h : Reach strict t path f) : ∀ s : SId, s ++ path ∈ places s t := by
  induction h with
  | here hm => intro s; rw [places]; simp [placesCh_acn hm]
  | @down ps ch x o t y xs f hm _ _ ih =>
    intro s
    obtain ⟨u, w, e⟩ := placesCh_asn (id := s) hm
    rw [places, e]
    have := ih (s ++ [x])
    rw [List.append_assoc, List.singleton_append] at this
    simp [this]
  | ref _ ih => intro s; rw [places]; exact ih s

/-! ### Runs -/

mutual
theorem run_head : ∀ {id t es}, Run id t es → ∃ l, es = id :: l ∧ ∀ e ∈ l, ∃ x xs, e = id ++ x :: xs
  | _, _, _, .leaf => ⟨[], rfl, by simp⟩
  | _, _, _, .ref h => run_head h
  | id, _, _, .seq h => ⟨_, rfl, fun e he => by
      obtain ⟨c, _, xs, rfl⟩ := runAll_mem h e he
      exact ⟨_, _, rfl⟩⟩
  | id, _, _, .seqOf h => ⟨_, rfl, fun e he => by
      obtain ⟨xs, rfl⟩ := runEach_mem h e he
      exact ⟨"#", xs, by simp⟩⟩
  | id, _, _, .choice (n := n) hm h => ⟨_, rfl, fun e he => by
      obtain ⟨l, rfl, h2⟩ := run_head h
      rcases List.mem_cons.1 he with rfl | he
      · exact ⟨n, [], rfl⟩
      · obtain ⟨x, xs, rfl⟩ := h2 e he
        exact ⟨n, x :: xs, by simp⟩⟩
theorem runAll_mem : ∀ {id ch es}, RunAll id ch es → ∀ e ∈ es, ∃ c ∈ ch, ∃ xs, e = id ++ c.name :: xs
  | _, _, _, .nil, e, he => by simp at he
  | id, _, _, .acn (n := n) (f := f) h, e, he => by
    rcases List.mem_cons.1 he with rfl | he
    · exact ⟨.acn n f, by simp, [], rfl⟩
    · obtain ⟨c, hc, xs, rfl⟩ := runAll_mem h e he
      exact ⟨c, by simp [hc], xs, rfl⟩
  | id, _, _, .asn (n := n) (o := o) (t := t) h g, e, he => by
    rcases List.mem_append.1 he with he | he
    · obtain ⟨l, rfl, h2⟩ := run_head h
      refine ⟨.asn n o t, by simp, ?_⟩
      rcases List.mem_cons.1 he with rfl | he
      · exact ⟨[], rfl⟩
      · obtain ⟨x, xs, rfl⟩ := h2 e he
        exact ⟨x :: xs, by simp [SChild.name]⟩
    · obtain ⟨c, hc, xs, rfl⟩ := runAll_mem g e he
      exact ⟨c, by simp [hc], xs, rfl⟩
  | id, _, _, .absent (n := n) (o := o) (t := t) h, e, he => by
    rcases List.mem_cons.1 he with rfl | he
    · exact ⟨.asn n (some o) t, by simp, [], rfl⟩
    · obtain ⟨c, hc, xs, rfl⟩ := runAll_mem h e he
      exact ⟨c, by simp [hc], xs, rfl⟩
theorem runEach_mem : ∀ {id t es}, RunEach id t es → ∀ e ∈ es, ∃ xs, e = id ++ xs
  | _, _, _, .nil, e, he => by simp at he
  | id, _, _, .cons h g, e, he => by
    rcases List.mem_append.1 he with he | he
    · obtain ⟨l, rfl, h2⟩ := run_head h
      rcases List.mem_cons.1 he with rfl | he
      · exact ⟨[], by simp⟩
      · obtain ⟨x, xs, rfl⟩ := h2 e he
        exact ⟨_, rfl⟩
    · exact runEach_mem g e he
end

mutual
theorem run_sub : ∀ {id t es}, Run id t es → ∀ e ∈ es, e ∈ places id t
  | _, _, _, .leaf, e, he => by rw [places]; exact he
  | _, _, _, .ref h, e, he => by rw [places]; exact run_sub h e he
  | id, _, _, .seq h, e, he => by
    rw [places]
    rcases List.mem_cons.1 he with rfl | he
    · simp
    · exact List.mem_cons_of_mem _ (runAll_sub h e he)
  | id, _, _, .seqOf h, e, he => by
    rw [places]
    rcases List.mem_cons.1 he with rfl | he
    · simp
    · exact List.mem_cons_of_mem _ (runEach_sub h e he)
  | id, _, _, .choice hm h, e, he => by
    rw [places]
    rcases List.mem_cons.1 he with rfl | he
    · simp
    · obtain ⟨u, w, e'⟩ := placesAlt_alt (id := id) hm
      rw [e']
      simp [run_sub h e he]
theorem runAll_sub : ∀ {id ch es}, RunAll id ch es → ∀ e ∈ es, e ∈ placesCh id ch
  | _, _, _, .nil, e, he => by simp at he
  | id, _, _, .acn h, e, he => by
    rw [placesCh]
    rcases List.mem_cons.1 he with rfl | he
    · simp
    · exact List.mem_cons_of_mem _ (runAll_sub h e he)
  | id, _, _, .asn h g, e, he => by
    rw [placesCh, List.mem_append]
    rcases List.mem_append.1 he with he | he
    · exact .inl (run_sub h e he)
    · exact .inr (runAll_sub g e he)
  | id, _, _, .absent (n := n) (t := t) h, e, he => by
    rw [placesCh, List.mem_append]
    rcases List.mem_cons.1 he with rfl | he
    · obtain ⟨l, e', _⟩ := places_head (id ++ [n]) t
      rw [e']; simp
    · exact .inr (runAll_sub h e he)
theorem runEach_sub : ∀ {id t es}, RunEach id t es → ∀ e ∈ es, e ∈ places id t
  | _, _, _, .nil, e, he => by simp at he
  | id, _, _, .cons h g, e, he => by
    rcases List.mem_append.1 he with he | he
    · exact run_sub h e he
    · exact runEach_sub g e he
end

theorem runAll_append {id : SId} {c2 : List SChild} : ∀ {c1 : List SChild} {es}, RunAll id (c1 ++ c2) es →
    ∃ e1 e2, es = e1 ++ e2 ∧ RunAll id c1 e1 ∧ RunAll id c2 e2
  | [], es, h => ⟨[], es, rfl, .nil, h⟩
  | .acn n f :: c1, _, .acn h => by
    obtain ⟨e1, e2, rfl, h1, h2⟩ := runAll_append h
    exact ⟨_ :: e1, e2, rfl, .acn h1, h2⟩
  | .asn n o t :: c1, _, .asn h g => by
    obtain ⟨e1, e2, rfl, h1, h2⟩ := runAll_append g
    exact ⟨_ ++ e1, e2, by simp, .asn h h1, h2⟩
  | .asn n _ t :: c1, _, .absent h => by
    obtain ⟨e1, e2, rfl, h1, h2⟩ := runAll_append h
    exact ⟨_ :: e1, e2, rfl, .absent h1, h2⟩

theorem runAll_split {id : SId} {c : SChild} {ch : List SChild} {es} (hm : c ∈ ch) (h : RunAll id ch es) :
    ∃ c1 c2 e1 e e2, ch = c1 ++ c :: c2 ∧ es = e1 ++ e ++ e2 ∧ RunAll id c1 e1 ∧ RunAll id [c] e ∧ RunAll id c2 e2 := by
  obtain ⟨c1, c2, rfl⟩ := List.append_of_mem hm
  obtain ⟨e1, e', rfl, h1, h2⟩ := runAll_append h
  obtain ⟨e, e2, rfl, h3, h4⟩ := runAll_append (c1 := [c]) h2
  exact ⟨c1, c2, e1, e, e2, rfl, by simp, h1, h3, h4⟩

theorem placesCh_append (id : SId) (c2 : List SChild) : ∀ c1 : List SChild, placesCh id (c1 ++ c2) = placesCh id c1 ++ placesCh id c2
  | [] => by simp [placesCh]
  | .asn n o t :: c1 => by rw [List.cons_append, placesCh, placesCh, placesCh_append id c2 c1]; simp
  | .acn n f :: c1 => by rw [List.cons_append, placesCh, placesCh, placesCh_append id c2 c1]; simp

theorem runAll_acn {id n f e} (h : RunAll id [.acn n f] e) : e = [id ++ [n]] := by
  cases h with
  | acn h => cases h; rfl

theorem runAll_asn {id n o t e} (h : RunAll id [.asn n o t] e) : Run (id ++ [n]) t e ∨ (o ≠ none ∧ e = [id ++ [n]]) := by
  cases h with
  | asn h g => cases g; simpa using .inl h
  | absent h => cases h; exact .inr ⟨by simp, rfl⟩

/-- A determinant on a path without OPTIONAL components is met. -/
theorem reach_run {t path f} (hr : Reach true t path f) : ∀ {s es}, Run s t es → s ++ path ∈ es := by
  induction hr with
  | here hm =>
    intro s es h
    cases h with
    | seq h =>
      obtain ⟨c1, c2, e1, e, e2, _, rfl, _, h1, _⟩ := runAll_split hm h
      rw [runAll_acn h1]; simp
  | @down ps ch x o t y xs f hm ho _ ih =>
    intro s es h
    cases h with
    | seq h =>
      obtain ⟨c1, c2, e1, e, e2, _, rfl, _, h1, _⟩ := runAll_split hm h
      rcases runAll_asn h1 with h2 | ⟨h2, _⟩
      · have := ih h2
        rw [List.append_assoc, List.singleton_append] at this
        simp [this]
      · exact absurd (ho rfl) h2
  | ref _ ih =>
    intro s es h
    cases h with
    | ref h => exact ih h

theorem precedes_contra {l : List SId} {a b : SId} (hn : l.Nodup) (h : Precedes l a b) {u w : List SId} (e : l = u ++ w)
    (hb : b ∈ u) (ha : a ∈ w) : False := by
  obtain ⟨l1, l2, e', h1, h2⟩ := h
  have e2 : u ++ w = l1 ++ l2 := by rw [← e, e']
  rw [e] at hn
  rw [List.append_eq_append_iff] at e2
  rcases e2 with ⟨k, rfl, rfl⟩ | ⟨k, rfl, rfl⟩
  · -- l1 = u ++ k, w = k ++ l2 : b in u and in l2
    rw [List.nodup_append] at hn
    exact hn.2.2 b hb b (by simp [h2]) rfl
  · rw [List.nodup_append] at hn
    exact hn.2.2 a (by simp [h1]) a ha rfl

theorem precedes_ne {l : List SId} {a b : SId} (hn : l.Nodup) (h : Precedes l a b) : a ≠ b := by
  rintro rfl
  obtain ⟨l1, l2, rfl, h1, h2⟩ := h
  rw [List.nodup_append] at hn
  exact hn.2.2 a h1 a h2 rfl

theorem locate {m l2 e1 e e2 : List SId} {b : SId} (h : m ++ b :: l2 = e1 ++ e ++ e2) :
    b ∈ e1 ∨ (∃ k k', e = k ++ b :: k' ∧ m = e1 ++ k) ∨ ∃ k, m = e1 ++ e ++ k := by
  rw [List.append_assoc, List.append_eq_append_iff] at h
  rcases h with ⟨k, rfl, h⟩ | ⟨k, rfl, h⟩
  · cases k with
    | nil =>
      simp at h
      cases e with
      | nil => exact .inr (.inr ⟨[], by simp⟩)
      | cons c e =>
        simp at h
        exact .inr (.inl ⟨[], e, by simp [h.1], by simp⟩)
    | cons c k =>
      simp at h
      exact .inl (by simp [h.1])
  · rw [eq_comm, List.append_eq_append_iff] at h
    rcases h with ⟨j, rfl, h⟩ | ⟨j, rfl, h⟩
    · cases j with
      | nil => exact .inr (.inr ⟨[], by simp⟩)
      | cons c j =>
        simp at h
        exact .inr (.inl ⟨k, j, by simp [h.1], rfl⟩)
    · exact .inr (.inr ⟨j, by simp⟩)

/-- Inside the SEQUENCE: the determinant is met before the type. -/
theorem reach_before {t path f} (hr : Reach true t path f) : ∀ {s es l1 b l2}, t.distinct = true →
    Precedes (places s t) (s ++ path) b → Run s t es → es = l1 ++ b :: l2 →
    ∃ m, l1 = s :: m ∧ s ++ path ∈ m := by
  have start : ∀ {s l l1 b l2 es'} {a : SId}, (s :: l).Nodup → Precedes (s :: l) a b → s :: es' = l1 ++ b :: l2 →
      ∃ m, l1 = s :: m ∧ es' = m ++ b :: l2 := by
    intro s l l1 b l2 es' a hn hp e
    cases l1 with
    | nil =>
      simp at e
      obtain ⟨k1, k2, e', h1, h2⟩ := hp
      cases k1 with
      | nil => cases h1
      | cons c k1 =>
        simp at e'
        rw [List.nodup_cons, e'.2] at hn
        exact absurd (by rw [← e.1] at h2; simp [h2]) hn.1
    | cons c m =>
      simp at e
      exact ⟨m, by rw [e.1], e.2⟩
  induction hr with
  | @here ps ch x f hm =>
    intro s es l1 b l2 hd hp h e
    have hn := places_nodup s _ hd
    cases h with
    | seq h =>
      obtain ⟨c1, c2, e1, e0, e2, ec, ee, h1, h2, h3⟩ := runAll_split hm h
      rw [places] at hp hn
      obtain ⟨m, rfl, e'⟩ := start hn hp e
      refine ⟨m, rfl, ?_⟩
      rw [runAll_acn h2] at ee
      rw [ee] at e'
      rcases locate e'.symm with hb | ⟨k, k', hk, rfl⟩ | ⟨k, rfl⟩
      · exfalso
        refine precedes_contra hn hp (u := s :: placesCh s c1) (w := placesCh s (.acn x f :: c2)) ?_ ?_ ?_
        · rw [ec, placesCh_append]; rfl
        · simp [runAll_sub h1 b hb]
        · rw [placesCh]; simp
      · exfalso
        have : s ++ [x] = b := by
          cases k with
          | nil => simp at hk; exact hk.1
          | cons c k => simp at hk
        exact precedes_ne hn hp this
      · simp
  | @down ps ch x o t y xs f hm ho hr ih =>
    intro s es l1 b l2 hd hp h e
    have hn := places_nodup s _ hd
    have hdt := childrenDistinct_mem (seq_distinct hd).2 hm
    cases h with
    | seq h =>
      obtain ⟨c1, c2, e1, e0, e2, ec, ee, h1, h2, h3⟩ := runAll_split hm h
      rw [places] at hp hn
      obtain ⟨m, rfl, e'⟩ := start hn hp e
      refine ⟨m, rfl, ?_⟩
      have hrun : Run (s ++ [x]) t e0 := by
        rcases runAll_asn h2 with h2 | ⟨h2, _⟩
        · exact h2
        · exact absurd (ho rfl) h2
      rw [ee] at e'
      have hf : s ++ x :: y :: xs ∈ places (s ++ [x]) t := by
        have := reach_mem hr (s ++ [x])
        rwa [List.append_assoc, List.singleton_append] at this
      have hpl : s :: placesCh s ch = (s :: placesCh s c1) ++ places (s ++ [x]) t ++ placesCh s c2 := by
        rw [ec, placesCh_append, placesCh]; simp
      rcases locate e'.symm with hb | ⟨k, k', hk, rfl⟩ | ⟨k, rfl⟩
      · exfalso
        refine precedes_contra hn hp (u := s :: placesCh s c1) (w := places (s ++ [x]) t ++ placesCh s c2) ?_ ?_ ?_
        · rw [hpl, List.append_assoc]
        · simp [runAll_sub h1 b hb]
        · simp [hf]
      · have hb : b ∈ places (s ++ [x]) t := run_sub hrun b (by rw [hk]; simp)
        rw [hpl] at hp hn
        have := precedes_infix hn hf hb hp
        rw [show s ++ x :: y :: xs = (s ++ [x]) ++ y :: xs by simp] at this ⊢
        obtain ⟨m', rfl, h5⟩ := ih hdt this hrun hk
        rw [List.mem_append]
        exact .inr (List.mem_cons_of_mem _ h5)
      · have := reach_run hr hrun
        rw [List.append_assoc, List.singleton_append] at this
        simp [this]
  | ref _ ih =>
    intro s es l1 b l2 hd hp h e
    cases h with
    | ref h =>
      rw [places] at hp
      exact ih (by simpa [STy.distinct, SKind.distinct] using hd) hp h e

/-! ### Blocks -/

theorem mem_unique {α β : Type} (f : α → β) : ∀ {l : List α}, (l.map f).Nodup → ∀ {a b : α}, a ∈ l → b ∈ l → f a = f b → a = b
  | [], _, a, b, ha, _, _ => by cases ha
  | c :: l, hn, a, b, ha, hb, e => by
    rw [List.map_cons, List.nodup_cons] at hn
    rcases List.mem_cons.1 ha with ha' | ha'
    · rcases List.mem_cons.1 hb with hb' | hb'
      · rw [ha', hb']
      · exact absurd (List.mem_map.2 ⟨b, hb', by rw [← e, ha']⟩) hn.1
    · rcases List.mem_cons.1 hb with hb' | hb'
      · exact absurd (List.mem_map.2 ⟨a, ha', by rw [e, hb']⟩) hn.1
      · exact mem_unique f hn.2 ha' hb' e

theorem runEach_block {id t b} : ∀ {es l1 l2}, RunEach id t es → es = l1 ++ b :: l2 →
    ∃ u e1 e2, Run id t (e1 ++ b :: e2) ∧ l1 = u ++ e1
  | _, l1, l2, .nil, e => by simp at e
  | _, l1, l2, .cons (es := es) (fs := fs) h g, e => by
    rw [List.append_eq_append_iff] at e
    rcases e with ⟨k, rfl, e⟩ | ⟨k, e', e⟩
    · obtain ⟨u, e1, e2, h1, rfl⟩ := runEach_block g e
      exact ⟨es ++ u, e1, e2, h1, by simp⟩
    · cases k with
      | nil =>
        simp at e e'
        obtain ⟨u, e1, e2, h1, h2⟩ := runEach_block (l1 := []) (l2 := l2) (b := b) g (by simp [e])
        have : u = [] ∧ e1 = [] := by simpa [eq_comm] using h2
        obtain ⟨rfl, rfl⟩ := this
        exact ⟨l1, [], e2, h1, by simp⟩
      | cons c k =>
        simp at e
        obtain ⟨rfl, rfl⟩ := e
        exact ⟨[], l1, k, e' ▸ h, rfl⟩

theorem name_unique_pre {c1 c2 : List SChild} {c c' : SChild} (hn : ((c1 ++ c :: c2).map SChild.name).Nodup)
    (hm : c' ∈ c1 ∨ c' ∈ c2) : c'.name ≠ c.name := by
  intro e
  rw [List.map_append, List.map_cons, List.nodup_append, List.nodup_cons] at hn
  rcases hm with h | h
  · exact hn.2.2 _ (List.mem_map_of_mem h) c.name (by simp) e
  · exact hn.2.1.1 (e ▸ List.mem_map_of_mem h)

/-- Every meeting of a place below `s` happens during a run of the type at `s`. -/
theorem runBlock {root around s t} (hd : root.distinct = true) (ho : Occ root around s t) :
    ∀ {es l1 l2 y ys}, Run [] root es → es = l1 ++ (s ++ y :: ys) :: l2 →
    ∃ u e1 e2, Run s t (e1 ++ (s ++ y :: ys) :: e2) ∧ l1 = u ++ e1 := by
  induction ho with
  | root => intro es l1 l2 y ys h e; exact ⟨[], l1, l2, e ▸ h, rfl⟩
  | ref _ ih =>
    intro es l1 l2 y ys h e
    obtain ⟨u, e1, e2, h1, h2⟩ := ih h e
    cases h1 with
    | ref h1 => exact ⟨u, e1, e2, h1, h2⟩
  | @child around id ps ch n o t ho hm ih =>
    intro es l1 l2 y ys h e
    rw [List.append_assoc, List.singleton_append] at e ⊢
    obtain ⟨u, e1, e2, h1, rfl⟩ := ih h e
    have hds := seq_distinct (occ_distinct hd ho)
    generalize hE : e1 ++ (id ++ n :: y :: ys) :: e2 = E at h1
    cases h1 with
    | seq h1 =>
      cases e1 with
      | nil =>
        simp at hE
      | cons c e1 =>
        rw [List.cons_append, List.cons.injEq] at hE
        obtain ⟨rfl, hE⟩ := hE
        obtain ⟨c1, c2, f1, f0, f2, ec, ee, g1, g2, g3⟩ := runAll_split hm h1
        rw [ee] at hE
        have hin : ∀ {cs : List SChild} {fs}, RunAll c cs fs → (c ++ n :: y :: ys) ∈ fs →
            ∃ c' ∈ cs, c'.name = n := by
          intro cs fs g hb
          obtain ⟨c', hc, xs, e⟩ := runAll_mem g _ hb
          exact ⟨c', hc, (name_eq e).1.symm⟩
        rw [ec] at hds
        rcases locate hE with hb | ⟨k, k', hk, rfl⟩ | ⟨k, hk⟩
        · exfalso
          obtain ⟨c', hc, e⟩ := hin g1 hb
          exact name_unique_pre hds.1 (.inl hc) e
        · rcases runAll_asn g2 with g2 | ⟨_, g2⟩
          · rw [hk] at g2
            exact ⟨u ++ c :: f1, k, k', g2, by simp⟩
          · exfalso
            rw [hk] at g2
            cases k with
            | nil => simp at g2
            | cons a k => simp at g2
        · exfalso
          subst hk
          have : (c ++ n :: y :: ys) ∈ f2 := by
            have : (k ++ (c ++ n :: y :: ys) :: e2) = f2 := by simpa using hE
            rw [← this]; simp
          obtain ⟨c', hc, e⟩ := hin g3 this
          exact name_unique_pre hds.1 (.inr hc) e
  | @elem around id ps z t ho ih =>
    intro es l1 l2 y ys h e
    rw [List.append_assoc, List.singleton_append] at e ⊢
    obtain ⟨u, e1, e2, h1, rfl⟩ := ih h e
    generalize hE : e1 ++ (id ++ "#" :: y :: ys) :: e2 = E at h1
    cases h1 with
    | seqOf h1 =>
      cases e1 with
      | nil => simp at hE
      | cons c e1 =>
        rw [List.cons_append, List.cons.injEq] at hE
        obtain ⟨rfl, hE⟩ := hE
        obtain ⟨v, f1, f2, g1, rfl⟩ := runEach_block h1 hE.symm
        exact ⟨u ++ c :: v, f1, f2, g1, by simp⟩
  | @alt around id ps d alts n c t ho hm ih =>
    intro es l1 l2 y ys h e
    rw [List.append_assoc, List.singleton_append] at e ⊢
    obtain ⟨u, e1, e2, h1, rfl⟩ := ih h e
    have hds := choice_distinct (occ_distinct hd ho)
    generalize hE : e1 ++ (id ++ n :: y :: ys) :: e2 = E at h1
    cases h1 with
    | @choice _ _ _ _ n' c' t' es' hm' h1 =>
      cases e1 with
      | nil => simp at hE
      | cons a e1 =>
        rw [List.cons_append, List.cons.injEq] at hE
        obtain ⟨rfl, hE⟩ := hE
        have hb : (a ++ n :: y :: ys) ∈ es' := by rw [← hE]; simp
        have hnn : n = n' := by
          obtain ⟨l, e, h2⟩ := run_head h1
          rw [e] at hb
          rcases List.mem_cons.1 hb with hb | hb
          · exact (name_eq hb).1
          · obtain ⟨x, xs, hb⟩ := h2 _ hb
            rw [List.append_assoc, List.singleton_append] at hb
            exact (name_eq hb).1
        subst hnn
        have := mem_unique SAlt.name hds.1 hm hm' rfl
        cases this
        exact ⟨u ++ [a], e1, e2, hE ▸ h1, by simp⟩

/-! ### What a path means is determined -/

theorem reach_ne {strict t path f} (h : Reach strict t path f) : path ≠ [] := by
  induction h with
  | here => simp
  | down => simp
  | ref _ ih => exact ih

theorem reach_weaken {strict t path f} (h : Reach strict t path f) : Reach false t path f := by
  induction h with
  | here hm => exact .here hm
  | down hm _ _ ih => exact .down hm (by simp) ih
  | ref _ ih => exact .ref ih

theorem reach_unique {a b t path f g} (hd : STy.distinct t = true) (h : Reach a t path f) (k : Reach b t path g) : f = g := by
  induction h with
  | here hm =>
    cases k with
    | here hm' =>
      have := mem_unique SChild.name (seq_distinct hd).1 hm hm' rfl
      cases this; rfl
  | down hm _ _ ih =>
    cases k with
    | down hm' _ k =>
      have := mem_unique SChild.name (seq_distinct hd).1 hm hm' rfl
      cases this
      exact ih (childrenDistinct_mem (seq_distinct hd).2 hm) k
  | ref _ ih =>
    cases k with
    | ref k => exact ih (by simpa [STy.distinct, SKind.distinct] using hd) k

theorem split_unique {α : Type} (P : α → Prop) : ∀ {l1 l2 m1 m2 : List α} {a b : α}, l1 ++ a :: l2 = m1 ++ b :: m2 →
    (∀ x ∈ l1, ¬ P x) → (∀ x ∈ m1, ¬ P x) → P a → P b → a = b
  | [], _, [], _, a, b, e, _, _, _, _ => by simp at e; exact e.1
  | [], _, c :: m1, _, a, b, e, _, h, ha, _ => by
    simp at e
    exact absurd (e.1 ▸ ha) (h c (by simp))
  | c :: l1, _, [], _, a, b, e, h, _, _, hb => by
    simp at e
    exact absurd (e.1 ▸ hb) (h c (by simp))
  | c :: l1, _, d :: m1, _, a, b, e, h1, h2, ha, hb => by
    simp at e
    exact split_unique P e.2 (fun x hx => h1 x (by simp [hx])) (fun x hx => h2 x (by simp [hx])) ha hb

theorem pathDenotes_unique {a b scope around path t1 t2} (hd : ∀ q ∈ around, STy.distinct q.2 = true)
    (h : PathMeans a scope around path t1) (k : PathMeans b scope around path t2) : t1 = t2 := by
  cases h with
  | @param x xs inner o t outer p e h1 h2 =>
    cases k with
    | @param _ _ inner' o' t' outer' p' e' h1' h2' =>
      have := split_unique (fun q : SPlace => q.2.param x ≠ none) (e ▸ e') (fun q hq hn => hn (h1 q hq))
        (fun q hq hn => hn (h1' q hq)) (by simp [h2]) (by simp [h2'])
      cases this
      rw [h2] at h2'
      cases h2'; rfl
    | field hn => exact absurd (hn (o, t) (by rw [e]; simp)) (by simp [h2])
  | @field x xs inner s t outer f hn e h1 h2 h3 =>
    cases k with
    | @param _ _ inner' o' t' outer' p' e' h1' h2' => exact absurd (hn (o', t') (by rw [e']; simp)) (by simp [h2'])
    | @field _ _ inner' s' t' outer' f' hn' e' h1' h2' h3' =>
      have := split_unique (fun q : SPlace => q.2.hasComponent x = true) (e ▸ e') (fun q hq hn => by simp [h1 q hq] at hn)
        (fun q hq hn => by simp [h1' q hq] at hn) h2 h2'
      cases this
      rw [reach_unique (hd (s, t) (by rw [e]; simp)) h3 h3']

theorem denotes_weaken {a scope around path tgt} (h : PathMeans a scope around path tgt) : PathMeans false scope around path tgt := by
  cases h with
  | param e h1 h2 => exact .param e h1 h2
  | field hn e h1 h2 h3 => exact .field hn e h1 h2 (reach_weaken h3)

/-! ### A type is not a determinant -/

theorem occ_rest {root around id t} (hd : root.distinct = true) (ho : Occ root around id t) :
    ∀ q ∈ (id, t) :: around, ∃ p, id = q.1 ++ p ∧ ∀ r f, Reach false q.2 (p ++ r) f → Reach false t r f := by
  have self : ∀ (id : SId) (t : STy), ∃ p, id = id ++ p ∧ ∀ r f, Reach false t (p ++ r) f → Reach false t r f :=
    fun id t => ⟨[], by simp, fun r f h => h⟩
  induction ho with
  | root =>
    intro q hq
    simp at hq; subst hq
    exact self _ _
  | @ref around id ps z args t ho ih =>
    intro q hq
    rcases List.mem_cons.1 hq with rfl | hq
    · exact self _ _
    · obtain ⟨p, e, h⟩ := ih q (by simp [hq])
      refine ⟨p, e, fun r f hr => ?_⟩
      cases h r f hr with
      | ref h => exact h
  | @child around id ps ch n o t ho hm ih =>
    intro q hq
    rcases List.mem_cons.1 hq with rfl | hq
    · exact self _ _
    · obtain ⟨p, e, h⟩ := ih q hq
      refine ⟨p ++ [n], by rw [e]; simp, fun r f hr => ?_⟩
      rw [List.append_assoc] at hr
      have hn := (seq_distinct (occ_distinct hd ho)).1
      generalize hx : [n] ++ r = R at *
      cases h R f hr with
      | here hm' =>
        simp at hx
        obtain ⟨rfl, rfl⟩ := hx
        have := mem_unique SChild.name hn hm hm' rfl
        cases this
      | down hm' _ k =>
        simp at hx
        obtain ⟨rfl, rfl⟩ := hx
        have := mem_unique SChild.name hn hm hm' rfl
        cases this
        exact k
  | elem ho ih =>
    intro q hq
    rcases List.mem_cons.1 hq with rfl | hq
    · exact self _ _
    · obtain ⟨p, e, h⟩ := ih q hq
      refine ⟨p ++ ["#"], by rw [e]; simp, fun r f hr => ?_⟩
      rw [List.append_assoc] at hr
      cases h _ f hr
  | @alt around id ps d alts n c t ho hm ih =>
    intro q hq
    rcases List.mem_cons.1 hq with rfl | hq
    · exact self _ _
    · obtain ⟨p, e, h⟩ := ih q hq
      refine ⟨p ++ [n], by rw [e]; simp, fun r f hr => ?_⟩
      rw [List.append_assoc] at hr
      cases h _ f hr

theorem occ_around {root around id t} (ho : Occ root around id t) : ∀ q ∈ around, (∃ ar, Occ root ar q.1 q.2) ∧
    (∃ x xs, id = q.1 ++ x :: xs) ∧ id ∈ places q.1 q.2 := by
  have key : ∀ {around id t}, Occ root around id t → ∀ q ∈ around, ∃ u w, places q.1 q.2 = u ++ places id t ++ w := by
    intro around id t ho
    induction ho with
    | root => simp
    | ref ho ih => intro q hq; have := ih q hq; rwa [places] at this
    | @child around id ps ch n o t ho hm ih =>
      intro q hq
      obtain ⟨u, w, e⟩ := placesCh_asn (id := id) hm
      rcases List.mem_cons.1 hq with rfl | hq
      · exact ⟨id :: u, w, by rw [places, e]; simp⟩
      · obtain ⟨u', w', e'⟩ := ih q hq
        rw [places, e] at e'
        exact ⟨u' ++ id :: u, w ++ w', by rw [e']; simp⟩
    | @elem around id ps z t ho ih =>
      intro q hq
      rcases List.mem_cons.1 hq with rfl | hq
      · exact ⟨[id], [], by rw [places]; simp⟩
      · obtain ⟨u', w', e'⟩ := ih q hq
        rw [places] at e'
        exact ⟨u' ++ [id], w', by rw [e']; simp⟩
    | @alt around id ps d alts n c t ho hm ih =>
      intro q hq
      obtain ⟨u, w, e⟩ := placesAlt_alt (id := id) hm
      rcases List.mem_cons.1 hq with rfl | hq
      · exact ⟨id :: u, w, by rw [places, e]; simp⟩
      · obtain ⟨u', w', e'⟩ := ih q hq
        rw [places, e] at e'
        exact ⟨u' ++ id :: u, w ++ w', by rw [e']; simp⟩
  have hpl : ∀ q ∈ around, id ∈ places q.1 q.2 := by
    intro q hq
    obtain ⟨u, w, e⟩ := key ho q hq
    obtain ⟨l, e', _⟩ := places_head id t
    rw [e, e']; simp
  have rest : ∀ q ∈ around, (∃ ar, Occ root ar q.1 q.2) ∧ (∃ x xs, id = q.1 ++ x :: xs) := by
    clear hpl key
    induction ho with
    | root => simp
    | ref _ ih => exact ih
    | child ho hm ih =>
      intro q hq
      rcases List.mem_cons.1 hq with rfl | hq
      · exact ⟨⟨_, ho⟩, _, _, rfl⟩
      · obtain ⟨h1, x, xs, rfl⟩ := ih q hq
        exact ⟨h1, x, xs ++ [_], by simp; rfl⟩
    | elem ho ih =>
      intro q hq
      rcases List.mem_cons.1 hq with rfl | hq
      · exact ⟨⟨_, ho⟩, _, _, rfl⟩
      · obtain ⟨h1, x, xs, rfl⟩ := ih q hq
        exact ⟨h1, x, xs ++ [_], by simp; rfl⟩
    | alt ho hm ih =>
      intro q hq
      rcases List.mem_cons.1 hq with rfl | hq
      · exact ⟨⟨_, ho⟩, _, _, rfl⟩
      · obtain ⟨h1, x, xs, rfl⟩ := ih q hq
        exact ⟨h1, x, xs ++ [_], by simp; rfl⟩
  exact fun q hq => ⟨(rest q hq).1, (rest q hq).2, hpl q hq⟩

theorem refers_occ {root first who scope around path need} (h : Refers root first who scope around path need) :
    ∃ t, Occ root around who t := by
  cases h with
  | size ho _ => exact ⟨_, ho⟩
  | present ho hm => exact ⟨_, .child ho hm⟩
  | select ho => exact ⟨_, ho⟩
  | when ho _ => exact ⟨_, ho⟩
  | whenOther ho _ _ => exact ⟨_, ho⟩
  | arg ho _ => exact ⟨_, ho⟩

/-- The determinant is met before the type that needs it. -/
theorem met_before {R root fin} (hd : root.distinct = true) (ha : root.Arity) (h : checkTas R root = some fin)
    {first who scope around path need s f es l1 l2} (hr : Refers root first who scope around path need)
    (hden : PathMeans true scope around path (.field (s ++ path) f)) (hrun : Run [] root es)
    (he : es = l1 ++ who :: l2) : ∃ u m, l1 = u ++ s :: m ∧ s ∉ m ∧ s ++ path ∈ m := by
  obtain ⟨t, ho⟩ := refers_occ hr
  obtain ⟨d, _, tgt, _, h1, _, _, h4⟩ := refers_good ha h hr
  have hdq : ∀ q ∈ around, STy.distinct q.2 = true := fun q hq => by
    obtain ⟨⟨ar, hq'⟩, _⟩ := occ_around ho q hq
    exact occ_distinct hd hq'
  have := pathDenotes_unique hdq h1 hden
  subst this
  obtain ⟨i, j, hi, hj, hij⟩ := h4
  generalize htgt : STarget.field (s ++ path) f = tgt at hden
  cases hden with
  | param => cases htgt
  | @field x xs inner s' S outer f' hn e g1 g2 g3 =>
    rw [STarget.field.injEq] at htgt
    obtain ⟨hs, rfl⟩ := htgt
    have hs := List.append_cancel_right hs
    subst hs
    have hS : (s, S) ∈ around := by rw [e]; simp
    obtain ⟨⟨ar, hoS⟩, ⟨y, ys, hy⟩, hmem⟩ := occ_around ho _ hS
    simp only [] at hoS hy hmem
    have hne : s ++ x :: xs ≠ who := by
      obtain ⟨p, e1, e2⟩ := occ_rest hd ho (s, S) (by simp [hS])
      simp only [] at e1 e2
      rintro rfl
      have := List.append_cancel_left e1
      refine reach_ne (e2 [] f ?_) rfl
      rw [← this, List.append_nil]
      exact reach_weaken g3
    obtain ⟨k1, _, k3, _⟩ := posFrom_split _ _ _ _ _ _ hi hj
    have hlt : i < j := by
      rcases Nat.lt_or_eq_of_le hij with h | h
      · exact h
      · exact absurd (k3 h) hne
    have hprec : Precedes (places [] root) (s ++ x :: xs) who := k1 hlt
    obtain ⟨u, w, einf⟩ := occ_infix hoS
    have hnd := places_nodup [] root hd
    rw [einf] at hnd hprec
    have hprec' := precedes_infix hnd (reach_mem g3 s) hmem hprec
    subst hy
    obtain ⟨v, e1, e2, hb, rfl⟩ := runBlock hd hoS hrun he
    obtain ⟨m, rfl, hm⟩ := reach_before g3 (occ_distinct hd hoS) hprec' hb rfl
    refine ⟨v, m, rfl, ?_, hm⟩
    obtain ⟨l, el, hl⟩ := run_head hb
    simp at el
    intro hsm
    exact self_notMem hl (by rw [← el]; simp [hsm])

end Asn1
