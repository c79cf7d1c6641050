import Verif.Proof.ImportsAccept
/-! # Lemmas for C104: modules that pass the checks are legal -/
namespace Asn1

variable {P : List IModule}

theorem exports_of {I : List (String × List IImport)} {m : IModule} {n : String} (h : n ∈ (createModule I m).exportedTypes) :
    ∀ e, m.exports = some e → n ∈ e.1 := by
  intro e he
  unfold JModule.exportedTypes at h
  have : (createModule I m).exports = some e := he
  rw [this] at h
  exact h

theorem exportsVars_of {I : List (String × List IImport)} {m : IModule} {n : String} (h : n ∈ (createModule I m).exportedVars) :
    ∀ e, m.exports = some e → n ∈ e.2 := by
  intro e he
  unfold JModule.exportedVars at h
  have : (createModule I m).exports = some e := he
  rw [this] at h
  exact h

theorem tasses_nodup : ∀ {P : List IModule}, (P.map IModule.name).Nodup → (∀ m ∈ P, (m.types.map Prod.fst).Nodup) →
    ((allTasses P).map Prod.fst).Nodup
  | [], _, _ => List.nodup_nil
  | m :: P, hn, ht => by
    simp only [List.map_cons, List.nodup_cons] at hn
    have e : (allTasses (m :: P)).map Prod.fst = (m.types.map Prod.fst).map (fun n => (m.name, n)) ++ (allTasses P).map Prod.fst := by
      simp [allTasses, List.map_map, Function.comp_def]
    rw [e, List.nodup_append]
    refine ⟨(ht m (List.mem_cons_self ..)).map fun a b h => (Prod.mk.inj h).2,
      tasses_nodup hn.2 fun m' h => ht m' (List.mem_cons_of_mem _ h), ?_⟩
    rintro x hx y hy rfl
    obtain ⟨n, _, rfl⟩ := List.mem_map.1 hx
    obtain ⟨z, hz, hze⟩ := List.mem_map.1 hy
    obtain ⟨m', hm', h⟩ := List.mem_flatMap.1 hz
    obtain ⟨w, _, rfl⟩ := List.mem_map.1 h
    exact hn.1 ((Prod.mk.inj hze).1 ▸ List.mem_map_of_mem hm')

theorem NamesOk.refs_legal (ok : NamesOk P) {m : IModule} (hm : m ∈ P) {r : IRef}
    (hr : m.UsesInType r ∨ m.UsesInValue r) (ha : ¬ r.Ambiguous m) :
    (∃ D, TypeDenotes P (r.scope m) r.name D) ∧ (r.scope m ≠ m.name → ExportsType P (r.scope m) r.name) := by
  refine ⟨⟨_, ok.target_denotes hm hr ha⟩, fun hne => ?_⟩
  obtain ⟨m', hm', e, _, he⟩ := ok.refs m hm r hr
  refine ⟨m', hm', ?_, exports_of he⟩
  rw [e]
  rcases refContent_cases m r with ⟨M, hq, e⟩ | ⟨hq, i, hi, e, h⟩ | ⟨hq, e, _⟩
  · rw [e, IRef.scope, hq]; rfl
  · exact absurd (by rw [IRef.scope, hq]; rfl) hne
  · exact absurd (by rw [IRef.scope, hq]; rfl) hne

theorem NamesOk.imports_legal (ok : NamesOk P) (hc : DistinctClauses P) {m : IModule} (hm : m ∈ P) {i : IImport}
    (hi : i ∈ m.imports) : (∃ m' ∈ P, m'.name = i.frm) ∧
    (∀ n ∈ i.types, (∃ D, TypeDenotes P i.frm n D) ∧ ExportsType P i.frm n) ∧
    ∀ v ∈ i.values, (∃ D, ValueDenotes P i.frm v D) ∧ ExportsValue P i.frm v := by
  obtain ⟨j, hj, e, hjt, hjv⟩ := (mergedImports_spec (P := P) (hc m hm)).2.1 i hi
  obtain ⟨m', hm', e', ht, hv⟩ := ok.imports m hm j hj
  refine ⟨⟨m', hm', e'.trans e⟩, fun n hn => ?_, fun v hvi => ?_⟩
  · obtain ⟨t, h⟩ := ok.import_type hc hm hi hn
    exact ⟨⟨_, .own h⟩, m', hm', e'.trans e, exports_of (ht n (hjt n hn)).2⟩
  · exact ⟨⟨_, .own (ok.import_value hc hm hi hvi)⟩, m', hm', e'.trans e, exportsVars_of (hv v (hjv v hvi)).2⟩

theorem NamesOk.legal (ok : NamesOk P) (hc : DistinctClauses P) (hl : ListsOnce P)
    (ha : ∀ m ∈ P, ∀ r, m.UsesInType r ∨ m.UsesInValue r → ¬ r.Ambiguous m) : LegalNames P where
  modules := ok.names
  clauses := hc
  types := by
    intro m hm
    have hcov := (mergedImports_spec (P := P) (hc m hm)).2.1
    refine List.nodup_append.2 ⟨(List.nodup_append.1 (ok.types m hm)).1, ?_, ?_⟩
    · refine flatMap_nodup_of (hc m hm) (fun i hi => (hl m hm i hi).1) fun i hi j hj x hxi hxj => ?_
      obtain ⟨i', hi', e, h, _⟩ := hcov i hi
      obtain ⟨j', hj', e', h', _⟩ := hcov j hj
      rw [← e, ← e', ok.type_clause hm hi' hj' (h x hxi) (h' x hxj)]
    · rintro x hx y hy rfl
      obtain ⟨i, hi, hxi⟩ := List.mem_flatMap.1 hy
      obtain ⟨i', hi', _, h, _⟩ := hcov i hi
      exact ok.type_clash hm hi' (h x hxi) hx
  values := by
    intro m hm
    have hcov := (mergedImports_spec (P := P) (hc m hm)).2.1
    refine List.nodup_append.2 ⟨(List.nodup_append.1 (ok.values m hm)).1, ?_, ?_⟩
    · refine flatMap_nodup_of (hc m hm) (fun i hi => (hl m hm i hi).2) fun i hi j hj x hxi hxj => ?_
      obtain ⟨i', hi', e, _, h⟩ := hcov i hi
      obtain ⟨j', hj', e', _, h'⟩ := hcov j hj
      rw [← e, ← e', ok.value_clause hm hi' hj' (h x hxi) (h' x hxj)]
    · rintro x hx y hy rfl
      obtain ⟨i, hi, hxi⟩ := List.mem_flatMap.1 hy
      obtain ⟨i', hi', _, _, h⟩ := hcov i hi
      exact ok.value_clash hm hi' (h x hxi) hx
  imports := fun m hm i hi => ok.imports_legal hc hm hi
  refs := fun m hm r hr => ok.refs_legal hm hr (ha m hm r hr)

theorem NamesOk.supported (ok : NamesOk P) (hc : DistinctClauses P)
    (ha : ∀ m ∈ P, ∀ r, m.UsesInType r ∨ m.UsesInValue r → ¬ r.Ambiguous m) : SupportedNames P where
  direct := by
    intro m hm
    refine ⟨fun i hi => ⟨fun n hn => ok.import_type hc hm hi hn, fun v hv => ok.import_value hc hm hi hv⟩, fun r hr hq => ?_⟩
    obtain ⟨t, ht⟩ := ok.target_def hm hr
    rcases refContent_cases m r with ⟨M, hq', e⟩ | ⟨hq', _⟩ | ⟨hq', _⟩
    · rw [IRef.scope, hq']; exact ⟨t, e ▸ ht⟩
    · exact absurd hq' hq
    · exact absurd hq' hq
  listed := by
    intro m hm r hr hs t ht e he
    obtain ⟨m', hm', en, _, hex⟩ := ok.refs m hm r hr
    have hd : TypeDenotes P (r.scope m) r.name m.name := by rw [hs]; exact .own ⟨m, hm, rfl, ht⟩
    have := ok.target_eq hc hm hr (ha m hm r hr) hd
    obtain rfl := module_inj ok.names hm hm' (this.symm.trans en.symm)
    exact exports_of hex e he
  notModule := ha
  noClash := by
    intro m hm r M hr hq hM
    have key : ∀ r M, m.UsesInType r → r.qual = some M → M ≠ m.name →
        ∃ j ∈ mergedImports (implicitTypes P) m, j.frm = M ∧ r.name ∈ j.types := by
      intro r M hr hq hM
      have e : (refContent m r).1 = M := by unfold refContent; rw [hq]
      obtain ⟨j, hj, ej, h⟩ := (mergedImports_spec (P := P) (hc m hm)).2.2.1 hm r hr (e ▸ hM)
      exact ⟨j, hj, ej.trans e, h⟩
    obtain ⟨j, hj, ej, hn⟩ := key r M hr hq hM
    refine ⟨fun t ht => ok.type_clash hm hj hn (mem_fst.2 ⟨t, ht⟩), fun i hi hni => ?_, fun r' M' hr' hq' hM' he => ?_⟩
    · obtain ⟨i', hi', e, h, _⟩ := (mergedImports_spec (P := P) (hc m hm)).2.1 i hi
      rw [← e, ok.type_clause hm hi' hj (h _ hni) hn, ej]
    · obtain ⟨j', hj', ej', hn'⟩ := key r' M' hr' hq' hM'
      rw [← ej', ok.type_clause hm hj' hj (he ▸ hn') hn, ej]
  acyclic := by
    obtain ⟨l, hl⟩ := ok.sorted
    have hno := sortNodes_acyclic (by
      rw [List.nil_append]
      exact tasses_nodup ok.names fun m hm => (List.nodup_append.1 (ok.types m hm)).1) hl
    intro hcy
    refine hno (Cyclic.imp id ?_ hcy)
    rintro ⟨aM, an⟩ ⟨bM, bn⟩ ⟨m, hm, en, t, r, ht, hr, e1, hd⟩
    dsimp only at en ht e1 hd
    subst en e1
    have := ok.target_eq_type hc hm ⟨an, t, ht, hr⟩ hd
    refine ⟨t.refs.map (refContent m), List.mem_flatMap.2 ⟨m, hm, List.mem_map.2 ⟨(an, t), ht, rfl⟩⟩, ?_⟩
    exact List.mem_map.2 ⟨r, (t.has_iff r).1 hr, Prod.ext this (refContent_snd m r)⟩
  modAcyclic := by
    obtain ⟨l, hl⟩ := ok.modsorted
    have hno := sortNodes_acyclic (by
      rw [List.nil_append, List.map_map, List.map_map]
      exact ok.names) hl
    intro hcy
    refine hno (Cyclic.imp id ?_ hcy)
    rintro A B ⟨m, hm, rfl, h⟩
    have : ∃ j ∈ mergedImports (implicitTypes P) m, j.frm = B := by
      rcases h with ⟨i, hi, e⟩ | ⟨hne, r, hr, hq⟩
      · obtain ⟨j, hj, e', _⟩ := (mergedImports_spec (P := P) (hc m hm)).2.1 i hi
        exact ⟨j, hj, e'.trans e⟩
      · have e : (refContent m r).1 = B := by unfold refContent; rw [hq]
        obtain ⟨j, hj, ej, _⟩ := (mergedImports_spec (P := P) (hc m hm)).2.2.1 hm r hr (e ▸ hne)
        exact ⟨j, hj, ej.trans e⟩
    obtain ⟨j, hj, rfl⟩ := this
    exact ⟨_, List.mem_map.2 ⟨_, List.mem_map_of_mem hm, rfl⟩, List.mem_map_of_mem hj⟩

end Asn1
