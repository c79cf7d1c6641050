import Verif.Model.Imports
import Verif.Proof.Topo
/-! # Lemmas for C104 -/
namespace Asn1

mutual
theorem ITy.has_iff : ∀ (t : ITy) (r : IRef), t.Has r ↔ r ∈ t.refs
  | .ref s, r => by
    simp only [ITy.refs, List.mem_singleton]
    exact ⟨fun h => (by cases h; rfl), fun h => (by subst h; exact .ref)⟩
  | .node kids, r => by
    simp only [ITy.refs, ← ITy.hasL_iff kids r]
    exact ⟨fun h => (by cases h; assumption), .node⟩
theorem ITy.hasL_iff : ∀ (ts : List ITy) (r : IRef), ITy.HasL ts r ↔ r ∈ ITy.refsL ts
  | [], r => ⟨fun h => (by cases h), fun h => (by simp [ITy.refsL] at h)⟩
  | t :: ts, r => by
    simp only [ITy.refsL, List.mem_append, ← ITy.has_iff t r, ← ITy.hasL_iff ts r]
    refine ⟨fun h => ?_, fun h => h.elim .here .there⟩
    cases h with
    | here h => exact .inl h
    | there h => exact .inr h
end

theorem refContent_snd (m : IModule) (r : IRef) : (refContent m r).2 = r.name := by
  unfold refContent
  cases r.qual with
  | some M => rfl
  | none => dsimp only; split <;> rfl

theorem valContent_snd (m : IModule) (v : String) : (valContent m v).2 = v := by
  unfold valContent
  split <;> rfl

theorem mem_groupByKey {α β : Type} [BEq β] [LawfulBEq β] (f : α → β) (l : List α) (g : β × List α) :
    g ∈ groupByKey f l ↔ ∃ a ∈ l, g = (f a, l.filter fun b => f b == f a) := by
  simp only [groupByKey, List.mem_map, List.mem_eraseDups]
  constructor
  · rintro ⟨_, ⟨a, ha, rfl⟩, rfl⟩; exact ⟨a, ha, rfl⟩
  · rintro ⟨a, ha, rfl⟩; exact ⟨_, ⟨a, ha, rfl⟩, rfl⟩

theorem implicitTypes_mem {P : List IModule} {m : IModule} {n : String} {t : ITy} {r : IRef} (hm : m ∈ P)
    (ht : (n, t) ∈ m.types) (hr : r ∈ t.refs) (hne : (refContent m r).1 ≠ m.name) :
    ∃ p ∈ implicitTypes P, p.1 = m.name ∧ ∃ i ∈ p.2, i.frm = (refContent m r).1 ∧ r.name ∈ i.types := by
  have ha : ((m.name, n), t.refs.map (refContent m)) ∈ allTasses P :=
    List.mem_flatMap.2 ⟨m, hm, List.mem_map.2 ⟨(n, t), ht, rfl⟩⟩
  have hd : refContent m r ∈ (t.refs.map (refContent m)).filter fun d => d.1 != m.name :=
    List.mem_filter.2 ⟨List.mem_map.2 ⟨r, hr, rfl⟩, by simpa using hne⟩
  have hu : (m.name, (t.refs.map (refContent m)).filter fun d => d.1 != m.name) ∈
      ((allTasses P).map fun e => (e.1.1, e.2.filter fun d => d.1 != e.1.1)).filter fun e => !e.2.isEmpty := by
    refine List.mem_filter.2 ⟨List.mem_map.2 ⟨_, ha, rfl⟩, ?_⟩
    cases hl : (t.refs.map (refContent m)).filter fun d => d.1 != m.name with
    | nil => rw [hl] at hd; cases hd
    | cons => rfl
  refine ⟨_, List.mem_map.2 ⟨_, (mem_groupByKey _ _ _).2 ⟨_, hu, rfl⟩, rfl⟩, rfl, ?_⟩
  refine ⟨_, List.mem_map.2 ⟨_, (mem_groupByKey _ _ _).2 ⟨refContent m r, ?_, rfl⟩, rfl⟩, rfl, ?_⟩
  · exact List.mem_flatMap.2 ⟨_, List.mem_filter.2 ⟨hu, by simp⟩, hd⟩
  · refine List.mem_eraseDups.2 (List.mem_map.2 ⟨refContent m r, List.mem_filter.2 ⟨?_, by simp⟩, refContent_snd m r⟩)
    exact List.mem_flatMap.2 ⟨_, List.mem_filter.2 ⟨hu, by simp⟩, hd⟩

/-- Every implicit import is the target of a reference in a type assignment. -/
theorem implicitTypes_inv {P : List IModule} {p : String × List IImport} (hp : p ∈ implicitTypes P) {i : IImport}
    (hi : i ∈ p.2) : i.values = [] ∧ ∀ T ∈ i.types, ∃ m ∈ P, m.name = p.1 ∧ i.frm ≠ m.name ∧ ∃ n t, (n, t) ∈ m.types ∧
      ∃ r ∈ t.refs, refContent m r = (i.frm, T) := by
  obtain ⟨g, hg, rfl⟩ := List.mem_map.1 hp
  obtain ⟨a, ha, rfl⟩ := (mem_groupByKey _ _ _).1 hg
  obtain ⟨h, hh, rfl⟩ := List.mem_map.1 hi
  obtain ⟨d, hd, rfl⟩ := (mem_groupByKey _ _ _).1 hh
  refine ⟨rfl, fun T hT => ?_⟩
  obtain ⟨d', hd', rfl⟩ := List.mem_map.1 (List.mem_eraseDups.1 hT)
  obtain ⟨hd1, hd2⟩ := List.mem_filter.1 hd'
  obtain ⟨b, hb, hdb⟩ := List.mem_flatMap.1 hd1
  obtain ⟨hb1, hb2⟩ := List.mem_filter.1 hb
  obtain ⟨hb3, _⟩ := List.mem_filter.1 hb1
  obtain ⟨e, he, rfl⟩ := List.mem_map.1 hb3
  obtain ⟨m, hm, hme⟩ := List.mem_flatMap.1 he
  obtain ⟨nt, hnt, rfl⟩ := List.mem_map.1 hme
  obtain ⟨hdr, hdn⟩ := List.mem_filter.1 hdb
  obtain ⟨r, hr, rfl⟩ := List.mem_map.1 hdr
  have e1 : (refContent m r).1 = d.1 := eq_of_beq hd2
  refine ⟨m, hm, eq_of_beq hb2, ?_, nt.1, nt.2, hnt, r, hr, ?_⟩
  · have : (refContent m r).1 ≠ m.name := by simpa using hdn
    dsimp only
    rwa [← e1]
  · exact Prod.ext e1 rfl

/-- `b` has all that `a` imports. -/
def Covers (a b : List IImport) : Prop :=
  ∀ i ∈ a, ∃ j ∈ b, j.frm = i.frm ∧ (∀ T ∈ i.types, T ∈ j.types) ∧ ∀ v ∈ i.values, v ∈ j.values

theorem Covers.refl (a : List IImport) : Covers a a := fun i hi => ⟨i, hi, rfl, fun _ h => h, fun _ h => h⟩

theorem Covers.trans {a b c : List IImport} (h : Covers a b) (k : Covers b c) : Covers a c := by
  intro i hi
  obtain ⟨j, hj, h1, h2, h3⟩ := h i hi
  obtain ⟨l, hl, k1, k2, k3⟩ := k j hj
  exact ⟨l, hl, k1.trans h1, fun T hT => k2 T (h2 T hT), fun v hv => k3 v (h3 v hv)⟩

theorem frm_inj {cur : List IImport} (hn : (cur.map IImport.frm).Nodup) {i j : IImport} (hi : i ∈ cur) (hj : j ∈ cur)
    (h : i.frm = j.frm) : i = j := by
  induction cur with
  | nil => cases hi
  | cons a l ih =>
    simp only [List.map_cons, List.nodup_cons] at hn
    rcases List.mem_cons.1 hi with e | hi1 <;> rcases List.mem_cons.1 hj with e' | hj1
    · exact e.trans e'.symm
    · exact absurd (List.mem_map_of_mem (f := IImport.frm) hj1) (by rw [← h, e]; exact hn.1)
    · exact absurd (List.mem_map_of_mem (f := IImport.frm) hi1) (by rw [h, e']; exact hn.1)
    · exact ih hn.2 hi1 hj1

theorem mergeImport_spec {cur : List IImport} (hn : (cur.map IImport.frm).Nodup) (i : IImport) (hv : i.values = []) :
    ((mergeImport cur i).map IImport.frm).Nodup ∧ Covers cur (mergeImport cur i) ∧
    (∃ j ∈ mergeImport cur i, j.frm = i.frm ∧ ∀ T ∈ i.types, T ∈ j.types) ∧
    ∀ j ∈ mergeImport cur i, (∀ T ∈ j.types, (∃ k ∈ cur, k.frm = j.frm ∧ T ∈ k.types) ∨ j.frm = i.frm ∧ T ∈ i.types) ∧
      (∀ v ∈ j.values, ∃ k ∈ cur, k.frm = j.frm ∧ v ∈ k.values) ∧ ((∃ k ∈ cur, k.frm = j.frm) ∨ j.frm = i.frm) := by
  unfold mergeImport
  cases hf : cur.find? fun z => z.frm == i.frm with
  | none =>
    have hnone : ∀ z ∈ cur, z.frm ≠ i.frm := by
      intro z hz
      have := List.find?_eq_none.1 hf z hz
      simpa using this
    refine ⟨?_, ?_, ⟨i, List.mem_cons_self .., rfl, fun _ h => h⟩, ?_⟩
    · refine List.nodup_cons.2 ⟨fun h => ?_, hn⟩
      obtain ⟨z, hz, e⟩ := List.mem_map.1 h
      exact hnone z hz e
    · exact fun z hz => ⟨z, List.mem_cons_of_mem _ hz, rfl, fun _ h => h, fun _ h => h⟩
    · intro j hj
      rcases List.mem_cons.1 hj with rfl | hj
      · exact ⟨fun T hT => .inr ⟨rfl, hT⟩, fun v h => (by rw [hv] at h; cases h), .inr rfl⟩
      · exact ⟨fun T hT => .inl ⟨j, hj, rfl, hT⟩, fun v h => ⟨j, hj, rfl, h⟩, .inl ⟨j, hj, rfl⟩⟩
  | some e =>
    have he : e ∈ cur := List.mem_of_find?_eq_some hf
    have hef : e.frm = i.frm := by have := List.find?_some hf; exact eq_of_beq this
    refine ⟨?_, ?_, ⟨_, List.mem_cons_self .., hef, fun T h => List.mem_eraseDups.2 (List.mem_append.2 (.inr h))⟩, ?_⟩
    · refine List.nodup_cons.2 ⟨fun h => ?_, hn.sublist (List.filter_sublist.map _)⟩
      obtain ⟨z, hz, e'⟩ := List.mem_map.1 h
      have := (List.mem_filter.1 hz).2
      simp only [bne_iff_ne, ne_eq] at this
      exact this e'
    · intro z hz
      by_cases hze : z.frm = e.frm
      · have := frm_inj hn hz he hze
        subst this
        exact ⟨_, List.mem_cons_self .., rfl, fun T h => List.mem_eraseDups.2 (List.mem_append.2 (.inl h)), fun _ h => h⟩
      · exact ⟨z, List.mem_cons_of_mem _ (List.mem_filter.2 ⟨hz, by simpa using hze⟩), rfl, fun _ h => h, fun _ h => h⟩
    · intro j hj
      rcases List.mem_cons.1 hj with rfl | hj
      · refine ⟨fun T hT => ?_, fun v h => ⟨e, he, rfl, h⟩, .inl ⟨e, he, rfl⟩⟩
        rcases List.mem_append.1 (List.mem_eraseDups.1 hT) with h | h
        · exact .inl ⟨e, he, rfl, h⟩
        · exact .inr ⟨hef, h⟩
      · have hj := (List.mem_filter.1 hj).1
        exact ⟨fun T hT => .inl ⟨j, hj, rfl, hT⟩, fun v h => ⟨j, hj, rfl, h⟩, .inl ⟨j, hj, rfl⟩⟩

theorem foldl_mergeImport_spec : ∀ (l cur : List IImport), (cur.map IImport.frm).Nodup → (∀ i ∈ l, i.values = []) →
    ((l.foldl mergeImport cur).map IImport.frm).Nodup ∧ Covers cur (l.foldl mergeImport cur) ∧
    (∀ i ∈ l, ∃ j ∈ l.foldl mergeImport cur, j.frm = i.frm ∧ ∀ T ∈ i.types, T ∈ j.types) ∧
    ∀ j ∈ l.foldl mergeImport cur,
      (∀ T ∈ j.types, (∃ k ∈ cur, k.frm = j.frm ∧ T ∈ k.types) ∨ ∃ i ∈ l, j.frm = i.frm ∧ T ∈ i.types) ∧
      (∀ v ∈ j.values, ∃ k ∈ cur, k.frm = j.frm ∧ v ∈ k.values) ∧
      ((∃ k ∈ cur, k.frm = j.frm) ∨ ∃ i ∈ l, j.frm = i.frm)
  | [], cur, hn, _ => ⟨hn, Covers.refl _, fun _ h => (by cases h),
      fun j hj => ⟨fun T hT => .inl ⟨j, hj, rfl, hT⟩, fun v h => ⟨j, hj, rfl, h⟩, .inl ⟨j, hj, rfl⟩⟩⟩
  | i :: l, cur, hn, hv => by
    obtain ⟨s1, s2, s3, s4⟩ := mergeImport_spec hn i (hv i (List.mem_cons_self ..))
    obtain ⟨f1, f2, f3, f4⟩ := foldl_mergeImport_spec l (mergeImport cur i) s1 fun i h => hv i (List.mem_cons_of_mem _ h)
    refine ⟨f1, s2.trans f2, ?_, ?_⟩
    · intro i' hi'
      rcases List.mem_cons.1 hi' with rfl | hi'
      · obtain ⟨j, hj, e, ht⟩ := s3
        obtain ⟨k, hk, e', ht', _⟩ := f2 j hj
        exact ⟨k, hk, e'.trans e, fun T h => ht' T (ht T h)⟩
      · exact f3 i' hi'
    · intro j hj
      obtain ⟨g1, g2, g3⟩ := f4 j hj
      refine ⟨fun T hT => ?_, fun v hv' => ?_, ?_⟩
      · rcases g1 T hT with ⟨k, hk, e, h⟩ | ⟨i', hi', e, h⟩
        · rcases (s4 k hk).1 T h with ⟨k', hk', e', h'⟩ | ⟨e', h'⟩
          · exact .inl ⟨k', hk', e'.trans e, h'⟩
          · exact .inr ⟨i, List.mem_cons_self .., e.symm.trans e', h'⟩
        · exact .inr ⟨i', List.mem_cons_of_mem _ hi', e, h⟩
      · obtain ⟨k, hk, e, h⟩ := g2 v hv'
        obtain ⟨k', hk', e', h'⟩ := (s4 k hk).2.1 v h
        exact ⟨k', hk', e'.trans e, h'⟩
      · rcases g3 with ⟨k, hk, e⟩ | ⟨i', hi', e⟩
        · rcases (s4 k hk).2.2 with ⟨k', hk', e'⟩ | e'
          · exact .inl ⟨k', hk', e'.trans e⟩
          · exact .inr ⟨i, List.mem_cons_self .., e.symm.trans e'⟩
        · exact .inr ⟨i', List.mem_cons_of_mem _ hi', e⟩

/-- The merged imports of a module: all that is written, all that its type assignments use, and nothing else. -/
theorem mergedImports_spec {P : List IModule} {m : IModule} (hn : (m.imports.map IImport.frm).Nodup) :
    ((mergedImports (implicitTypes P) m).map IImport.frm).Nodup ∧ Covers m.imports (mergedImports (implicitTypes P) m) ∧
    (m ∈ P → ∀ r, m.UsesInType r → (refContent m r).1 ≠ m.name →
      ∃ j ∈ mergedImports (implicitTypes P) m, j.frm = (refContent m r).1 ∧ r.name ∈ j.types) ∧
    ∀ j ∈ mergedImports (implicitTypes P) m,
      (∀ T ∈ j.types, (∃ k ∈ m.imports, k.frm = j.frm ∧ T ∈ k.types) ∨
        ∃ m' ∈ P, m'.name = m.name ∧ j.frm ≠ m'.name ∧ ∃ r, m'.UsesInType r ∧ refContent m' r = (j.frm, T)) ∧
      (∀ v ∈ j.values, ∃ k ∈ m.imports, k.frm = j.frm ∧ v ∈ k.values) := by
  obtain ⟨f1, f2, f3, f4⟩ := foldl_mergeImport_spec (((implicitTypes P).filter fun p => p.1 == m.name).flatMap Prod.snd) m.imports hn (by
    intro i hi
    obtain ⟨p, hp, hip⟩ := List.mem_flatMap.1 hi
    exact (implicitTypes_inv (List.mem_filter.1 hp).1 hip).1)
  refine ⟨f1, f2, ?_, ?_⟩
  · rintro hm r ⟨n, t, ht, hr⟩ hne
    obtain ⟨p, hp, hpn, i, hi, e, h⟩ := implicitTypes_mem hm ht ((t.has_iff r).1 hr) hne
    obtain ⟨j, hj, e', h'⟩ := f3 i (List.mem_flatMap.2 ⟨p, List.mem_filter.2 ⟨hp, by simpa using hpn⟩, hi⟩)
    exact ⟨j, hj, e'.trans e, h' _ h⟩
  · intro j hj
    refine ⟨fun T hT => ?_, (f4 j hj).2.1⟩
    rcases (f4 j hj).1 T hT with h | ⟨i, hi, e, h⟩
    · exact .inl h
    · obtain ⟨p, hp, hip⟩ := List.mem_flatMap.1 hi
      obtain ⟨hp1, hp2⟩ := List.mem_filter.1 hp
      obtain ⟨m', hm', e1, e2, n, t, ht, r, hr, hc⟩ := (implicitTypes_inv hp1 hip).2 T h
      exact .inr ⟨m', hm', e1.trans (eq_of_beq hp2), e ▸ e2, r, ⟨n, t, ht, (t.has_iff r).2 hr⟩, by rw [hc, e]⟩

end Asn1
