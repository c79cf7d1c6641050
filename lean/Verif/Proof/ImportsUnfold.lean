import Verif.Proof.ImportsMeaning
/-! # Lemmas for C104: replacing references by the types that they mean -/
namespace Asn1

theorem InOrder.induct {α : Type} [DecidableEq α] {entries : List (α × List α)}
    (h : InOrder (fun d n => decide (d = n) = true) entries) {Φ : α → Prop}
    (step : ∀ e ∈ entries, (∀ d ∈ e.2, Φ d) → Φ e.1) : ∀ e ∈ entries, Φ e.1 := by
  have key : ∀ (before after : List (α × List α)), entries = before ++ after → ∀ e ∈ before, Φ e.1 := by
    intro before
    induction before using List.reverseRecOn with
    | nil => intro _ _ e he; cases he
    | append_singleton l a ih =>
      intro after hea e he
      have hb := ih (a :: after) (by simpa using hea)
      rcases List.mem_append.1 he with h1 | h1
      · exact hb e h1
      · obtain rfl := List.mem_singleton.1 h1
        refine step e (by rw [hea]; simp) fun d hd => ?_
        obtain ⟨b, hbl, hdb⟩ := h l e after (by simpa using hea) d hd
        rw [of_decide_eq_true hdb]
        exact hb b hbl
  exact fun e he => key entries [] (by simp) e he

/-- What holds of the types that the references in it name, and follows for it, holds of every type assignment. -/
theorem NamesOk.induct {P : List IModule} (ok : NamesOk P) {Φ : String → String → Prop}
    (step : ∀ m ∈ P, ∀ n t, (n, t) ∈ m.types → (∀ r ∈ t.refs, Φ (refContent m r).1 r.name) → Φ m.name n) :
    ∀ m ∈ P, ∀ n t, (n, t) ∈ m.types → Φ m.name n := by
  obtain ⟨l, hl⟩ := ok.sorted
  obtain ⟨entries, hp, _, ho⟩ := sortNodes_ok _ hl
  have hmem : ∀ e, e ∈ entries ↔ e ∈ allTasses P := fun e => by
    rw [hp.mem_iff]; simp [allEntries]
  have := InOrder.induct (Φ := fun p => Φ p.1 p.2) ho (by
    intro e he hd
    obtain ⟨m, hm, h⟩ := List.mem_flatMap.1 ((hmem e).1 he)
    obtain ⟨⟨n, t⟩, ht, rfl⟩ := List.mem_map.1 h
    refine step m hm n t ht fun r hr => ?_
    have := hd (refContent m r) (List.mem_map_of_mem hr)
    rwa [refContent_snd] at this)
  intro m hm n t ht
  exact this ((m.name, n), t.refs.map (refContent m)) ((hmem _).2 (List.mem_flatMap.2 ⟨m, hm, List.mem_map.2 ⟨(n, t), ht, rfl⟩⟩))

variable {P : List IModule}

mutual
theorem expandJ_ends_of {Q : List JModule} {m : IModule} : ∀ t : ITy,
    (∀ r ∈ t.refs, ∃ j u N, (∀ k, getType Q (k + 1) (refContent m r).1 r.name = some j) ∧ ∀ n, N ≤ n → expandJ Q n j = some u) →
    ∃ u N, ∀ n, N ≤ n → expandJ Q n (toJ m t) = some u
  | .ref r, h => by
    obtain ⟨j, u, N, hg, he⟩ := h r (by simp [ITy.refs])
    refine ⟨u, N + 1, fun n hn => ?_⟩
    obtain ⟨k, rfl⟩ : ∃ k, n = k + 1 := ⟨n - 1, by omega⟩
    rw [toJ, expandJ, refContent_snd, hg k]
    exact he k (by omega)
  | .node kids, h => by
    obtain ⟨us, N, he⟩ := expandJL_ends_of kids (by simpa only [ITy.refs] using h)
    refine ⟨.node us, N + 1, fun n hn => ?_⟩
    obtain ⟨k, rfl⟩ : ∃ k, n = k + 1 := ⟨n - 1, by omega⟩
    rw [toJ, expandJ, he k (by omega)]
    rfl
theorem expandJL_ends_of {Q : List JModule} {m : IModule} : ∀ ts : List ITy,
    (∀ r ∈ ITy.refsL ts, ∃ j u N, (∀ k, getType Q (k + 1) (refContent m r).1 r.name = some j) ∧ ∀ n, N ≤ n → expandJ Q n j = some u) →
    ∃ us N, ∀ n, N ≤ n → expandJL Q n (toJL m ts) = some us
  | [], _ => ⟨[], 1, fun n hn => by
      obtain ⟨k, rfl⟩ : ∃ k, n = k + 1 := ⟨n - 1, by omega⟩
      rw [toJL, expandJL]⟩
  | t :: ts, h => by
    obtain ⟨u, N, he⟩ := expandJ_ends_of t fun r hr => h r (by rw [ITy.refsL]; exact List.mem_append.2 (.inl hr))
    obtain ⟨us, N', he'⟩ := expandJL_ends_of ts fun r hr => h r (by rw [ITy.refsL]; exact List.mem_append.2 (.inr hr))
    refine ⟨u :: us, N + N' + 1, fun n hn => ?_⟩
    obtain ⟨k, rfl⟩ : ∃ k, n = k + 1 := ⟨n - 1, by omega⟩
    rw [toJL, expandJL, he k (by omega), he' k (by omega)]
    rfl
end

/-- Replacing references ends for every type assignment. -/
theorem NamesOk.ends (ok : NamesOk P) {m : IModule} (hm : m ∈ P) {n : String} {t : ITy} (ht : (n, t) ∈ m.types) :
    ∃ u N, ∀ k, N ≤ k → expandJ (treeOf P) k (toJ m t) = some u := by
  have := ok.induct (Φ := fun M n => ∀ m ∈ P, m.name = M → ∀ t, (n, t) ∈ m.types →
      ∃ u N, ∀ k, N ≤ k → expandJ (treeOf P) k (toJ m t) = some u) (by
    intro m hm n t ht ih m' hm' e t' ht'
    obtain rfl := module_inj ok.names hm hm' e.symm
    obtain rfl := defines_unique ok hm rfl ht ⟨m, hm, rfl, ht'⟩
    refine expandJ_ends_of t' fun r hr => ?_
    obtain ⟨s, m2, hm2, e2, hs⟩ := ok.target_def hm (.inl ⟨n, t', ht, (t'.has_iff r).2 hr⟩)
    obtain ⟨u, N, h⟩ := ih r hr m2 hm2 e2 s hs
    exact ⟨toJ m2 s, u, N, fun k => e2 ▸ getType_def ok hm2 hs k, h⟩)
  exact this m hm n t ht m hm rfl t ht

/-- The same for the types of value assignments. -/
theorem NamesOk.ends_value (ok : NamesOk P) {m : IModule} (hm : m ∈ P) {n : String} {t : ITy} (ht : (n, t) ∈ m.values) :
    ∃ u N, ∀ k, N ≤ k → expandJ (treeOf P) k (toJ m t) = some u := by
  refine expandJ_ends_of t fun r hr => ?_
  obtain ⟨s, m2, hm2, e2, hs⟩ := ok.target_def hm (.inr ⟨n, t, ht, (t.has_iff r).2 hr⟩)
  obtain ⟨u, N, h⟩ := ok.ends hm2 hs
  exact ⟨toJ m2 s, u, N, fun k => e2 ▸ getType_def ok hm2 hs k, h⟩

mutual
theorem unfolds_of {m : IModule} : ∀ t : ITy, (∀ r ∈ t.refs, ∃ m' s u, TypeDenotes P (r.scope m) r.name m'.name ∧ m' ∈ P ∧
    (r.name, s) ∈ m'.types ∧ Unfolds P m' s u) → ∃ u, Unfolds P m t u
  | .ref r, h => by
    obtain ⟨m', s, u, h1, h2, h3, h4⟩ := h r (by simp [ITy.refs])
    exact ⟨u, .ref h1 h2 h3 h4⟩
  | .node kids, h => by
    obtain ⟨us, hu⟩ := unfoldsL_of kids (by simpa only [ITy.refs] using h)
    exact ⟨_, .node hu⟩
theorem unfoldsL_of {m : IModule} : ∀ ts : List ITy, (∀ r ∈ ITy.refsL ts, ∃ m' s u, TypeDenotes P (r.scope m) r.name m'.name ∧ m' ∈ P ∧
    (r.name, s) ∈ m'.types ∧ Unfolds P m' s u) → ∃ us, UnfoldsL P m ts us
  | [], _ => ⟨[], .nil⟩
  | t :: ts, h => by
    obtain ⟨u, hu⟩ := unfolds_of t fun r hr => h r (by rw [ITy.refsL]; exact List.mem_append.2 (.inl hr))
    obtain ⟨us, hus⟩ := unfoldsL_of ts fun r hr => h r (by rw [ITy.refsL]; exact List.mem_append.2 (.inr hr))
    exact ⟨u :: us, .cons hu hus⟩
end

/-- Every type assignment can be written without references. -/
theorem NamesOk.unfolds (ok : NamesOk P) (ha : ∀ m ∈ P, ∀ r, m.UsesInType r → ¬ r.Ambiguous m) {m : IModule}
    (hm : m ∈ P) {n : String} {t : ITy} (ht : (n, t) ∈ m.types) : ∃ u, Unfolds P m t u := by
  have := ok.induct (Φ := fun M n => ∀ m ∈ P, m.name = M → ∀ t, (n, t) ∈ m.types → ∃ u, Unfolds P m t u) (by
    intro m hm n t ht ih m' hm' e t' ht'
    obtain rfl := module_inj ok.names hm hm' e.symm
    obtain rfl := defines_unique ok hm rfl ht ⟨m, hm, rfl, ht'⟩
    refine unfolds_of t' fun r hr => ?_
    have hu : m.UsesInType r := ⟨n, t', ht, (t'.has_iff r).2 hr⟩
    obtain ⟨s, m2, hm2, e2, hs⟩ := ok.target_def hm (.inl hu)
    obtain ⟨u, h⟩ := ih r hr m2 hm2 e2 s hs
    exact ⟨m2, s, u, e2 ▸ ok.target_denotes hm (.inl hu) (ha m hm r hu), hm2, hs, h⟩)
  exact this m hm n t ht m hm rfl t ht

mutual
theorem expandJ_eq (ok : NamesOk P) (hc : DistinctClauses P) : ∀ {m : IModule} {t : ITy} {u : FTy}, Unfolds P m t u → m ∈ P →
    (∀ r ∈ t.refs, m.UsesInType r ∨ m.UsesInValue r ∧ ¬ r.Ambiguous m) →
    ∃ N, ∀ n, N ≤ n → expandJ (treeOf P) n (toJ m t) = some u
  | m, _, u, .ref (r := r) (m' := m') (t := s) hd hm' hs hu, hm, hr => by
    have he : (refContent m r).1 = m'.name := by
      rcases hr r (by simp [ITy.refs]) with h | ⟨h, ha⟩
      · exact ok.target_eq_type hc hm h hd
      · exact ok.target_eq hc hm (.inr h) ha hd
    obtain ⟨N, h⟩ := expandJ_eq ok hc hu hm' fun r' hr' => .inl ⟨_, s, hs, (s.has_iff r').2 hr'⟩
    refine ⟨N + 1, fun n hn => ?_⟩
    obtain ⟨k, rfl⟩ : ∃ k, n = k + 1 := ⟨n - 1, by omega⟩
    rw [toJ, expandJ, refContent_snd, he, getType_def ok hm' hs k]
    exact h k (by omega)
  | m, _, _, .node hu, hm, hr => by
    obtain ⟨N, h⟩ := expandJL_eq ok hc hu hm (by simpa only [ITy.refs] using hr)
    refine ⟨N + 1, fun n hn => ?_⟩
    obtain ⟨k, rfl⟩ : ∃ k, n = k + 1 := ⟨n - 1, by omega⟩
    rw [toJ, expandJ, h k (by omega)]
    rfl
theorem expandJL_eq (ok : NamesOk P) (hc : DistinctClauses P) : ∀ {m : IModule} {ts : List ITy} {us : List FTy},
    UnfoldsL P m ts us → m ∈ P → (∀ r ∈ ITy.refsL ts, m.UsesInType r ∨ m.UsesInValue r ∧ ¬ r.Ambiguous m) →
    ∃ N, ∀ n, N ≤ n → expandJL (treeOf P) n (toJL m ts) = some us
  | m, _, _, .nil, _, _ => ⟨1, fun n hn => by
      obtain ⟨k, rfl⟩ : ∃ k, n = k + 1 := ⟨n - 1, by omega⟩
      rw [toJL, expandJL]⟩
  | m, _, _, .cons hu hus, hm, hr => by
    obtain ⟨N, h⟩ := expandJ_eq ok hc hu hm fun r hr' => hr r (by rw [ITy.refsL]; exact List.mem_append.2 (.inl hr'))
    obtain ⟨N', h'⟩ := expandJL_eq ok hc hus hm fun r hr' => hr r (by rw [ITy.refsL]; exact List.mem_append.2 (.inr hr'))
    refine ⟨N + N' + 1, fun n hn => ?_⟩
    obtain ⟨k, rfl⟩ : ∃ k, n = k + 1 := ⟨n - 1, by omega⟩
    rw [toJL, expandJL, h k (by omega), h' k (by omega)]
    rfl
end

theorem getActualType_of_expandJ {Q : List JModule} : ∀ (n : Nat) (t : JTy) (u : FTy), expandJ Q n t = some u →
    ∃ kids, getActualType Q n t = some (.node kids)
  | 0, _, _, h => by cases h
  | n + 1, .ref md s, u, h => by
    rw [expandJ] at h
    obtain ⟨j, hj, h⟩ := Option.bind_eq_some_iff.1 h
    obtain ⟨kids, hk⟩ := getActualType_of_expandJ n j u h
    exact ⟨kids, by rw [getActualType, hj]; exact hk⟩
  | n + 1, .node kids, _, _ => ⟨kids, rfl⟩

/-- The value assignment that a reference finds is the one that it means. -/
theorem NamesOk.value_eq (ok : NamesOk P) (hc : DistinctClauses P) {m : IModule} (hm : m ∈ P) {v : String} {D : String}
    (hd : ValueDenotes P m.name v D) (k : Nat) :
    getValue (treeOf P) (k + 1) (valContent m v).1 (valContent m v).2 = some D := by
  rw [valContent_snd]
  rcases valContent_cases m v with ⟨i, hi, e, h⟩ | ⟨e, hno⟩
  · rw [e, ok.valueDenotes_import hc hm hi h hd]
    exact getValue_def ok (ok.import_value hc hm hi h) _
  · rw [e]
    generalize hM : m.name = M at hd
    cases hd with
    | own h => exact getValue_def ok h _
    | @imported m' i n D hm' hi hn hd =>
      obtain rfl := module_inj ok.names hm hm' hM
      exact absurd hn (hno i hi)

end Asn1
