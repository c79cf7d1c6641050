import Verif.Proof.ImportsMeaning
import Verif.Proof.TopoFile
import Mathlib.Data.List.Nodup
/-! # Lemmas for C104: legal modules are accepted -/
namespace Asn1

variable {P : List IModule}

theorem implicit_nonempty {p : String × List IImport} (hp : p ∈ implicitTypes P) {i : IImport} (hi : i ∈ p.2) :
    i.types.Nodup ∧ ∃ T, T ∈ i.types := by
  obtain ⟨g, hg, rfl⟩ := List.mem_map.1 hp
  obtain ⟨a, ha, rfl⟩ := (mem_groupByKey _ _ _).1 hg
  obtain ⟨h, hh, rfl⟩ := List.mem_map.1 hi
  obtain ⟨d, hd, rfl⟩ := (mem_groupByKey _ _ _).1 hh
  refine ⟨eraseDups_nodup _, d.2, List.mem_eraseDups.2 (List.mem_map.2 ⟨d, List.mem_filter.2 ⟨hd, by simp⟩, rfl⟩)⟩

theorem mergeImport_nodups {cur : List IImport} (hcur : ∀ j ∈ cur, j.types.Nodup ∧ j.values.Nodup) {i : IImport}
    (hi : i.types.Nodup) (hv : i.values = []) : ∀ j ∈ mergeImport cur i, j.types.Nodup ∧ j.values.Nodup := by
  unfold mergeImport
  cases hf : cur.find? fun z => z.frm == i.frm with
  | none =>
    intro j hj
    rcases List.mem_cons.1 hj with rfl | hj
    · exact ⟨hi, by rw [hv]; exact List.nodup_nil⟩
    · exact hcur j hj
  | some e =>
    intro j hj
    rcases List.mem_cons.1 hj with rfl | hj
    · exact ⟨eraseDups_nodup _, (hcur e (List.mem_of_find?_eq_some hf)).2⟩
    · exact hcur j (List.mem_filter.1 hj).1

theorem foldl_mergeImport_nodups : ∀ (l cur : List IImport), (∀ j ∈ cur, j.types.Nodup ∧ j.values.Nodup) →
    (∀ i ∈ l, i.types.Nodup ∧ i.values = []) → ∀ j ∈ l.foldl mergeImport cur, j.types.Nodup ∧ j.values.Nodup
  | [], _, hc, _ => hc
  | i :: l, _, hc, hl => foldl_mergeImport_nodups l _
      (mergeImport_nodups hc (hl i (List.mem_cons_self ..)).1 (hl i (List.mem_cons_self ..)).2)
      fun i h => hl i (List.mem_cons_of_mem _ h)

/-- Where the merged imports of a module come from. -/
theorem mergedImports_frm {m : IModule} (hn : (m.imports.map IImport.frm).Nodup) {j : IImport}
    (hj : j ∈ mergedImports (implicitTypes P) m) : (∃ k ∈ m.imports, k.frm = j.frm) ∨ ∃ T, T ∈ j.types := by
  obtain ⟨f1, _, f3, f4⟩ := foldl_mergeImport_spec (((implicitTypes P).filter fun p => p.1 == m.name).flatMap Prod.snd) m.imports hn (by
    intro i hi
    obtain ⟨p, hp, hip⟩ := List.mem_flatMap.1 hi
    exact (implicitTypes_inv (List.mem_filter.1 hp).1 hip).1)
  rcases (f4 j hj).2.2 with h | ⟨i, hi, e⟩
  · exact .inl h
  · obtain ⟨p, hp, hip⟩ := List.mem_flatMap.1 hi
    obtain ⟨_, T, hT⟩ := implicit_nonempty (List.mem_filter.1 hp).1 hip
    obtain ⟨j', hj', e', h⟩ := f3 i hi
    obtain rfl := frm_inj f1 hj hj' (e.trans e'.symm)
    exact .inr ⟨T, h T hT⟩

theorem mergedImports_nodups {m : IModule} (hm : ∀ j ∈ m.imports, j.types.Nodup ∧ j.values.Nodup) :
    ∀ j ∈ mergedImports (implicitTypes P) m, j.types.Nodup ∧ j.values.Nodup := by
  refine foldl_mergeImport_nodups _ _ hm fun i hi => ?_
  obtain ⟨p, hp, hip⟩ := List.mem_flatMap.1 hi
  exact ⟨(implicit_nonempty (List.mem_filter.1 hp).1 hip).1, (implicitTypes_inv (List.mem_filter.1 hp).1 hip).1⟩

theorem flatMap_nodup_of {f : IImport → List String} {l : List IImport} (hn : (l.map IImport.frm).Nodup)
    (h1 : ∀ i ∈ l, (f i).Nodup) (h2 : ∀ i ∈ l, ∀ j ∈ l, ∀ x, x ∈ f i → x ∈ f j → i.frm = j.frm) : (l.flatMap f).Nodup := by
  induction l with
  | nil => exact List.nodup_nil
  | cons a l ih =>
    simp only [List.map_cons, List.nodup_cons] at hn
    rw [List.flatMap_cons, List.nodup_append]
    refine ⟨h1 a (List.mem_cons_self ..), ih hn.2 (fun i h => h1 i (List.mem_cons_of_mem _ h))
      (fun i hi j hj => h2 i (List.mem_cons_of_mem _ hi) j (List.mem_cons_of_mem _ hj)), ?_⟩
    intro x hx y hy e
    obtain ⟨b, hb, hyb⟩ := List.mem_flatMap.1 hy
    have := h2 a (List.mem_cons_self ..) b (List.mem_cons_of_mem _ hb) x hx (e ▸ hyb)
    exact hn.1 (this ▸ List.mem_map_of_mem hb)

theorem Cyclic.imp {α β : Type} {r : α → α → Prop} {s : β → β → Prop} (f : α → β) (h : ∀ a b, r a b → s (f a) (f b))
    (hc : Cyclic r) : Cyclic s := by
  obtain ⟨a, ha⟩ := hc
  exact ⟨f a, ha.lift f (fun x y hxy => h x y hxy)⟩

/-- What a reference is resolved to, in legal modules. -/
theorem legal_target (lg : LegalNames P) (sp : SupportedNames P) {m : IModule} (hm : m ∈ P) {r : IRef}
    (hr : m.UsesInType r ∨ m.UsesInValue r) :
    TypeDenotes P (r.scope m) r.name (refContent m r).1 ∧
    ∃ m' t, m' ∈ P ∧ m'.name = (refContent m r).1 ∧ (r.name, t) ∈ m'.types ∧ ∀ e, m'.exports = some e → r.name ∈ e.1 := by
  rcases refContent_cases m r with ⟨M, hq, e⟩ | ⟨hq, i, hi, e, h⟩ | ⟨hq, e, hno⟩
  · obtain ⟨t, ht⟩ := (sp.direct m hm).2 r hr (by rw [hq]; simp)
    have hs : r.scope m = M := by rw [IRef.scope, hq]; rfl
    rw [hs] at ht ⊢
    rw [e]
    refine ⟨.own ht, ?_⟩
    obtain ⟨m', hm', en, htm⟩ := ht
    refine ⟨m', t, hm', en, htm, ?_⟩
    by_cases hM : M = m.name
    · obtain rfl := module_inj lg.modules hm hm' (hM.symm.trans en.symm)
      exact sp.listed m hm r hr (hs.trans hM) t htm
    · obtain ⟨m2, hm2, en2, hex⟩ := (lg.refs m hm r hr).2 (by rw [hs]; exact hM)
      obtain rfl := module_inj lg.modules hm2 hm' (en2.trans (hs.trans en.symm))
      exact hex
  · have hs : r.scope m = m.name := by rw [IRef.scope, hq]; rfl
    rcases h with h | h
    · obtain ⟨t, m', hm', en, ht⟩ := ((sp.direct m hm).1 i hi).1 _ h
      rw [hs, e]
      refine ⟨.imported hm hi h (.own ⟨m', hm', en, ht⟩), m', t, hm', en, ht, ?_⟩
      obtain ⟨m2, hm2, en2, hex⟩ := ((lg.imports m hm i hi).2.1 _ h).2
      obtain rfl := module_inj lg.modules hm2 hm' (en2.trans en.symm)
      exact hex
    · exact absurd ⟨hq, i, hi, h.symm⟩ (sp.notModule m hm r hr)
  · have hs : r.scope m = m.name := by rw [IRef.scope, hq]; rfl
    obtain ⟨⟨D, hd⟩, _⟩ := lg.refs m hm r hr
    rw [hs] at hd
    have : ∃ t, (r.name, t) ∈ m.types := by
      generalize hM : m.name = M at hd
      cases hd with
      | own h =>
        obtain ⟨m', hm', en, ht⟩ := h
        obtain rfl := module_inj lg.modules hm hm' (hM.trans en.symm)
        exact ⟨_, ht⟩
      | @imported m' i n D hm' hi hn hd =>
        obtain rfl := module_inj lg.modules hm hm' hM
        exact absurd hn (hno i hi).1
    obtain ⟨t, ht⟩ := this
    rw [hs, e]
    exact ⟨.own ⟨m, hm, rfl, ht⟩, m, t, hm, rfl, ht, sp.listed m hm r hr hs t ht⟩

/-- A type that is listed, or all of them, is among the exported types of the module. -/
theorem exportedTypes_of {m : IModule} {I : List (String × List IImport)} {n : String} {t : ITy} (ht : (n, t) ∈ m.types)
    (he : ∀ e, m.exports = some e → n ∈ e.1) : n ∈ (createModule I m).exportedTypes := by
  unfold JModule.exportedTypes
  cases h : m.exports with
  | none =>
    have : (createModule I m).exports = none := h
    rw [this]
    dsimp only
    rw [createModule_types]
    exact List.mem_append.2 (.inl (mem_fst.2 ⟨t, ht⟩))
  | some e =>
    have : (createModule I m).exports = some e := h
    rw [this]
    exact he e h

theorem exportedVars_of {m : IModule} {I : List (String × List IImport)} {n : String} {t : ITy} (ht : (n, t) ∈ m.values)
    (he : ∀ e, m.exports = some e → n ∈ e.2) : n ∈ (createModule I m).exportedVars := by
  unfold JModule.exportedVars
  cases h : m.exports with
  | none =>
    have : (createModule I m).exports = none := h
    rw [this]
    dsimp only
    rw [createModule_values]
    exact mem_fst.2 ⟨t, ht⟩
  | some e =>
    have : (createModule I m).exports = some e := h
    rw [this]
    exact he e h

/-- Where an imported type comes from: it is imported in so many words, or a type assignment names it with its module. -/
theorem legal_source (lg : LegalNames P) {m : IModule} (hm : m ∈ P) {j : IImport}
    (hj : j ∈ mergedImports (implicitTypes P) m) {T : String} (hT : T ∈ j.types) (sp : SupportedNames P) :
    (∃ k ∈ m.imports, k.frm = j.frm ∧ T ∈ k.types) ∨
    ∃ r, m.UsesInType r ∧ r.qual = some j.frm ∧ j.frm ≠ m.name ∧ r.name = T := by
  rcases ((mergedImports_spec (P := P) (lg.clauses m hm)).2.2.2 j hj).1 T hT with h | ⟨m', hm', en, hne, r, hr, hc⟩
  · exact .inl h
  · obtain rfl := module_inj lg.modules hm hm' en.symm
    have hT' : r.name = T := by rw [← refContent_snd m r, hc]
    have h1 : (refContent m r).1 = j.frm := by rw [hc]
    rcases refContent_cases m r with ⟨M, hq, e⟩ | ⟨hq, i, hi, e, h⟩ | ⟨hq, e, hno⟩
    · rw [e] at h1
      exact .inr ⟨r, hr, h1 ▸ hq, hne, hT'⟩
    · rcases h with h | h
      · exact .inl ⟨i, hi, e.symm.trans h1, hT' ▸ h⟩
      · exact absurd ⟨hq, i, hi, h.symm⟩ (sp.notModule m hm r (.inl hr))
    · exact absurd (h1.symm.trans e) hne

theorem legal_namesOk (lg : LegalNames P) (sp : SupportedNames P) : NamesOk P := by
  have hown : ∀ m ∈ P, ∀ i ∈ m.imports, i.types.Nodup ∧ i.values.Nodup := by
    intro m hm i hi
    exact ⟨(List.nodup_flatMap.1 (List.nodup_append.1 (lg.types m hm)).2.1).1 i hi,
      (List.nodup_flatMap.1 (List.nodup_append.1 (lg.values m hm)).2.1).1 i hi⟩
  have hclash : ∀ m ∈ P, ∀ j ∈ mergedImports (implicitTypes P) m, ∀ T ∈ j.types, T ∉ m.types.map Prod.fst := by
    intro m hm j hj T hT hmem
    rcases legal_source lg hm hj hT sp with ⟨k, hk, _, hTk⟩ | ⟨r, hr, hq, hne, rfl⟩
    · exact (List.nodup_append.1 (lg.types m hm)).2.2 T hmem T (List.mem_flatMap.2 ⟨k, hk, hTk⟩) rfl
    · obtain ⟨t, ht⟩ := mem_fst.1 hmem
      exact (sp.noClash m hm r _ hr hq hne).1 t ht
  have hone : ∀ m ∈ P, ∀ i ∈ mergedImports (implicitTypes P) m, ∀ j ∈ mergedImports (implicitTypes P) m, ∀ T,
      T ∈ i.types → T ∈ j.types → i.frm = j.frm := by
    intro m hm i hi j hj T hTi hTj
    rcases legal_source lg hm hi hTi sp with ⟨k, hk, e, hTk⟩ | ⟨r, hr, hq, hne, hrT⟩ <;>
      rcases legal_source lg hm hj hTj sp with ⟨k', hk', e', hTk'⟩ | ⟨r', hr', hq', hne', hrT'⟩
    · have := flatMap_nodup_inj (List.nodup_append.1 (lg.types m hm)).2.1 hk hk' hTk hTk'
      subst this
      exact e.symm.trans e'
    · exact e.symm.trans ((sp.noClash m hm r' _ hr' hq' hne').2.1 k hk (hrT' ▸ hTk))
    · exact (e'.symm.trans ((sp.noClash m hm r _ hr hq hne).2.1 k' hk' (hrT ▸ hTk'))).symm
    · exact (sp.noClash m hm r' _ hr' hq' hne').2.2 r _ hr hq hne (hrT.trans hrT'.symm)
  refine ⟨?_, ?_, lg.modules, ?_, ?_, ?_, ?_, ?_⟩
  · cases hs : sortNodes (fun d n => decide (d = n)) [] (allTasses P) with
    | ok l => exact ⟨l, rfl⟩
    | error u =>
      refine absurd (Cyclic.imp id ?_ (sortNodes_cycle ?_ hs)) sp.acyclic
      · rintro ⟨aM, an⟩ ⟨bM, bn⟩ ⟨l, hl, hb⟩
        obtain ⟨m, hm, h⟩ := List.mem_flatMap.1 hl
        obtain ⟨⟨n, t⟩, ht, he⟩ := List.mem_map.1 h
        simp only [Prod.mk.injEq] at he
        obtain ⟨⟨rfl, rfl⟩, rfl⟩ := he
        obtain ⟨r, hr, hrb⟩ := List.mem_map.1 hb
        have h1 := (legal_target lg sp hm (.inl ⟨n, t, ht, (t.has_iff r).2 hr⟩)).1
        have h2 := refContent_snd m r
        rw [hrb] at h1 h2
        exact ⟨m, hm, rfl, t, r, ht, (t.has_iff r).2 hr, h2.symm, h1⟩
      · intro e he d hd
        obtain ⟨m, hm, h⟩ := List.mem_flatMap.1 he
        obtain ⟨⟨n, t⟩, ht, rfl⟩ := List.mem_map.1 h
        obtain ⟨r, hr, rfl⟩ := List.mem_map.1 hd
        obtain ⟨m', t', hm', en, ht', _⟩ := (legal_target lg sp hm (.inl ⟨n, t, ht, (t.has_iff r).2 hr⟩)).2
        refine .inr ⟨t'.refs.map (refContent m'), List.mem_flatMap.2 ⟨m', hm', List.mem_map.2 ⟨(r.name, t'), ht', ?_⟩⟩⟩
        rw [Prod.mk.injEq]
        exact ⟨Prod.ext en (refContent_snd m r).symm, rfl⟩
  · cases hs : sortNodes (fun d n => decide (d = n)) [] ((treeOf P).map fun m => (m.name, m.imports.map IImport.frm)) with
    | ok l => exact ⟨l, rfl⟩
    | error u =>
      have hfrm : ∀ m ∈ P, ∀ j ∈ mergedImports (implicitTypes P) m,
          (∃ i ∈ m.imports, i.frm = j.frm) ∨ (j.frm ≠ m.name ∧ ∃ r, m.UsesInType r ∧ r.qual = some j.frm) := by
        intro m hm j hj
        rcases mergedImports_frm (lg.clauses m hm) hj with h | ⟨T, hT⟩
        · exact .inl h
        · rcases legal_source lg hm hj hT sp with ⟨k, hk, e, _⟩ | ⟨r, hr, hq, hne, _⟩
          · exact .inl ⟨k, hk, e⟩
          · exact .inr ⟨hne, r, hr, hq⟩
      refine absurd (Cyclic.imp id ?_ (sortNodes_cycle ?_ hs)) sp.modAcyclic
      · rintro a b ⟨l, hl, hb⟩
        obtain ⟨q, hq, he⟩ := List.mem_map.1 hl
        obtain ⟨m, hm, rfl⟩ := List.mem_map.1 hq
        simp only [Prod.mk.injEq] at he
        obtain ⟨rfl, rfl⟩ := he
        obtain ⟨j, hj, rfl⟩ := List.mem_map.1 hb
        exact ⟨m, hm, rfl, hfrm m hm j hj⟩
      · intro e he d hd
        obtain ⟨q, hq, rfl⟩ := List.mem_map.1 he
        obtain ⟨m, hm, rfl⟩ := List.mem_map.1 hq
        obtain ⟨j, hj, rfl⟩ := List.mem_map.1 hd
        have : ∃ m' ∈ P, m'.name = j.frm := by
          rcases hfrm m hm j hj with ⟨i, hi, e⟩ | ⟨hne, r, hr, hq⟩
          · rw [← e]; exact (lg.imports m hm i hi).1
          · obtain ⟨t, m', hm', en, _⟩ := (sp.direct m hm).2 r (.inl hr) (by rw [hq]; simp)
            rw [IRef.scope, hq] at en
            exact ⟨m', hm', en⟩
        obtain ⟨m', hm', en⟩ := this
        exact .inr ⟨_, List.mem_map.2 ⟨createModule (implicitTypes P) m', List.mem_map_of_mem hm', by rw [← en]; rfl⟩⟩
  · simp only [noOrphans, List.all_eq_true, List.any_eq_true, beq_iff_eq]
    intro e he d hd
    obtain ⟨m, hm, h⟩ := List.mem_flatMap.1 he
    obtain ⟨⟨n, t⟩, ht, rfl⟩ := List.mem_map.1 h
    obtain ⟨r, hr, rfl⟩ := List.mem_map.1 hd
    obtain ⟨m', t', hm', en, ht', _⟩ := (legal_target lg sp hm (.inl ⟨n, t, ht, (t.has_iff r).2 hr⟩)).2
    exact ⟨_, List.mem_flatMap.2 ⟨m', hm', List.mem_map.2 ⟨(r.name, t'), ht', rfl⟩⟩, Prod.ext en (refContent_snd m r).symm⟩
  · intro m hm
    refine List.nodup_append.2 ⟨(List.nodup_append.1 (lg.types m hm)).1, ?_, ?_⟩
    · exact flatMap_nodup_of (mergedImports_spec (P := P) (lg.clauses m hm)).1
        (fun i hi => (mergedImports_nodups (hown m hm) i hi).1) (hone m hm)
    · rintro x hx y hy rfl
      obtain ⟨j, hj, hxj⟩ := List.mem_flatMap.1 hy
      exact hclash m hm j hj x hxj hx
  · intro m hm
    have hsrc := fun j hj => ((mergedImports_spec (P := P) (lg.clauses m hm)).2.2.2 j hj).2
    refine List.nodup_append.2 ⟨(List.nodup_append.1 (lg.values m hm)).1, ?_, ?_⟩
    · refine flatMap_nodup_of (mergedImports_spec (P := P) (lg.clauses m hm)).1
        (fun i hi => (mergedImports_nodups (hown m hm) i hi).2) ?_
      intro i hi j hj x hxi hxj
      obtain ⟨k, hk, e, h⟩ := hsrc i hi x hxi
      obtain ⟨k', hk', e', h'⟩ := hsrc j hj x hxj
      have := flatMap_nodup_inj (List.nodup_append.1 (lg.values m hm)).2.1 hk hk' h h'
      subst this
      exact e.symm.trans e'
    · rintro x hx y hy rfl
      obtain ⟨j, hj, hxj⟩ := List.mem_flatMap.1 hy
      obtain ⟨k, hk, _, h⟩ := hsrc j hj x hxj
      exact (List.nodup_append.1 (lg.values m hm)).2.2 x hx x (List.mem_flatMap.2 ⟨k, hk, h⟩) rfl
  · intro m hm r hr
    obtain ⟨_, m', t, hm', en, ht, hex⟩ := legal_target lg sp hm hr
    exact ⟨m', hm', en, mem_fst.2 ⟨t, ht⟩, exportedTypes_of ht hex⟩
  · intro m hm j hj
    have hmod : ∃ m' ∈ P, m'.name = j.frm := by
      rcases mergedImports_frm (lg.clauses m hm) hj with ⟨k, hk, e⟩ | ⟨T, hT⟩
      · rw [← e]; exact (lg.imports m hm k hk).1
      · rcases legal_source lg hm hj hT sp with ⟨k, hk, e, _⟩ | ⟨r, hr, hq, hne, _⟩
        · rw [← e]; exact (lg.imports m hm k hk).1
        · obtain ⟨t, m', hm', en, _⟩ := (sp.direct m hm).2 r (.inl hr) (by rw [hq]; simp)
          rw [IRef.scope, hq] at en
          exact ⟨m', hm', en⟩
    obtain ⟨m', hm', en⟩ := hmod
    refine ⟨m', hm', en, ?_, ?_⟩
    · intro T hT
      rcases legal_source lg hm hj hT sp with ⟨k, hk, e, hTk⟩ | ⟨r, hr, hq, hne, rfl⟩
      · obtain ⟨t, m2, hm2, en2, ht⟩ := ((sp.direct m hm).1 k hk).1 T hTk
        obtain ⟨m3, hm3, en3, hex⟩ := ((lg.imports m hm k hk).2.1 T hTk).2
        obtain rfl := module_inj lg.modules hm' hm2 (en.trans (e.symm.trans en2.symm))
        obtain rfl := module_inj lg.modules hm' hm3 (en.trans (e.symm.trans en3.symm))
        exact ⟨mem_fst.2 ⟨t, ht⟩, exportedTypes_of ht hex⟩
      · obtain ⟨t, m2, hm2, en2, ht⟩ := (sp.direct m hm).2 r (.inl hr) (by rw [hq]; simp)
        have hs : r.scope m = j.frm := by rw [IRef.scope, hq]; rfl
        obtain ⟨m3, hm3, en3, hex⟩ := (lg.refs m hm r (.inl hr)).2 (by rw [hs]; exact hne)
        rw [hs] at en2 en3
        obtain rfl := module_inj lg.modules hm' hm2 (en.trans en2.symm)
        obtain rfl := module_inj lg.modules hm' hm3 (en.trans en3.symm)
        exact ⟨mem_fst.2 ⟨t, ht⟩, exportedTypes_of ht hex⟩
    · intro v hv
      obtain ⟨k, hk, e, hvk⟩ := ((mergedImports_spec (P := P) (lg.clauses m hm)).2.2.2 j hj).2 v hv
      obtain ⟨m2, hm2, en2, t, ht⟩ := ((sp.direct m hm).1 k hk).2 v hvk
      obtain ⟨m3, hm3, en3, hex⟩ := ((lg.imports m hm k hk).2.2 v hvk).2
      obtain rfl := module_inj lg.modules hm' hm2 (en.trans (e.symm.trans en2.symm))
      obtain rfl := module_inj lg.modules hm' hm3 (en.trans (e.symm.trans en3.symm))
      exact ⟨mem_fst.2 ⟨t, ht⟩, exportedVars_of ht hex⟩

end Asn1
