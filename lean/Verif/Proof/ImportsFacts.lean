import Verif.Proof.Imports
/-! # What holds of modules that pass the checks of names (for C104) -/
namespace Asn1

/-- The syntax tree of the modules. -/
abbrev treeOf (P : List IModule) : List JModule := P.map (createModule (implicitTypes P))

theorem findModule_treeOf (P : List IModule) (md : String) :
    findModule (treeOf P) md = (P.find? fun m => m.name == md).map (createModule (implicitTypes P)) := by
  unfold findModule treeOf
  rw [List.find?_map]
  rfl

theorem find_name {P : List IModule} (hn : (P.map IModule.name).Nodup) {m : IModule} (hm : m ∈ P) :
    (P.find? fun m' => m'.name == m.name) = some m := by
  induction P with
  | nil => cases hm
  | cons a l ih =>
    simp only [List.map_cons, List.nodup_cons] at hn
    rcases List.mem_cons.1 hm with e | h
    · subst e; simp
    · have hne : a.name ≠ m.name := fun e => hn.1 (e ▸ List.mem_map_of_mem h)
      rw [List.find?_cons]
      simp only [beq_eq_false_iff_ne.2 hne]
      exact ih hn.2 h

theorem module_inj {P : List IModule} (hn : (P.map IModule.name).Nodup) {m m' : IModule} (hm : m ∈ P) (hm' : m' ∈ P)
    (h : m.name = m'.name) : m = m' := by
  have h1 := find_name hn hm
  rw [h, find_name hn hm'] at h1
  exact (Option.some.inj h1).symm

mutual
theorem checkRefs_iff (Q : List JModule) (m : IModule) : ∀ t : ITy, checkRefs Q (toJ m t) = true ↔
    ∀ r ∈ t.refs, ∃ q, findModule Q (refContent m r).1 = some q ∧ r.name ∈ q.exportedTypes
  | .ref r => by
    simp only [toJ, checkRefs, ITy.refs, List.mem_singleton, forall_eq, refContent_snd]
    cases findModule Q (refContent m r).1 <;> simp
  | .node kids => by
    simp only [toJ, checkRefs, ITy.refs]
    exact checkRefsL_iff Q m kids
theorem checkRefsL_iff (Q : List JModule) (m : IModule) : ∀ ts : List ITy, checkRefsL Q (toJL m ts) = true ↔
    ∀ r ∈ ITy.refsL ts, ∃ q, findModule Q (refContent m r).1 = some q ∧ r.name ∈ q.exportedTypes
  | [] => by simp [toJL, checkRefsL, ITy.refsL]
  | t :: ts => by
    simp only [toJL, checkRefsL, ITy.refsL, Bool.and_eq_true, checkRefs_iff Q m t, checkRefsL_iff Q m ts, List.mem_append]
    exact ⟨fun h r hr => hr.elim (h.1 r) (h.2 r), fun h => ⟨fun r hr => h r (.inl hr), fun r hr => h r (.inr hr)⟩⟩
end

theorem find_name_isSome (l : List (String × JTy)) (n : String) :
    (l.find? fun t => t.1 == n).isSome = true ↔ n ∈ l.map Prod.fst := by
  simp only [List.find?_isSome, beq_iff_eq, List.mem_map]

mutual
theorem specRefs_iff (Q : List JModule) (m : IModule) : ∀ t : ITy, specRefs Q (toJ m t) = true ↔
    ∀ r ∈ t.refs, ∃ q, findModule Q (refContent m r).1 = some q ∧ r.name ∈ q.types.map Prod.fst
  | .ref r => by
    simp only [toJ, specRefs, ITy.refs, List.mem_singleton, forall_eq, refContent_snd]
    cases findModule Q (refContent m r).1 with
    | none => simp
    | some q => simp only [Option.bind_some, find_name_isSome]; simp
  | .node kids => by
    simp only [toJ, specRefs, ITy.refs]
    exact specRefsL_iff Q m kids
theorem specRefsL_iff (Q : List JModule) (m : IModule) : ∀ ts : List ITy, specRefsL Q (toJL m ts) = true ↔
    ∀ r ∈ ITy.refsL ts, ∃ q, findModule Q (refContent m r).1 = some q ∧ r.name ∈ q.types.map Prod.fst
  | [] => by simp [toJL, specRefsL, ITy.refsL]
  | t :: ts => by
    simp only [toJL, specRefsL, ITy.refsL, Bool.and_eq_true, specRefs_iff Q m t, specRefsL_iff Q m ts, List.mem_append]
    exact ⟨fun h r hr => hr.elim (h.1 r) (h.2 r), fun h => ⟨fun r hr => h r (.inl hr), fun r hr => h r (.inr hr)⟩⟩
end

theorem toBool_iff {ε α : Type} (e : Except ε α) : e.toBool = true ↔ ∃ a, e = .ok a := by
  cases e with
  | error e => exact ⟨fun h => (by cases h), fun ⟨a, h⟩ => (by cases h)⟩
  | ok a => exact ⟨fun _ => ⟨a, rfl⟩, fun _ => rfl⟩

theorem createModule_types (I : List (String × List IImport)) (m : IModule) :
    (createModule I m).types.map Prod.fst = m.types.map Prod.fst := by
  simp [createModule, List.map_map, Function.comp_def]

theorem createModule_values (I : List (String × List IImport)) (m : IModule) :
    (createModule I m).values.map Prod.fst = m.values.map Prod.fst := by
  simp [createModule, List.map_map, Function.comp_def]

/-- A reference that is written anywhere in the module. -/
def IModule.Uses (m : IModule) (r : IRef) : Prop := m.UsesInType r ∨ m.UsesInValue r

/-- `resolveNames` in the words of its parts. -/
structure NamesOk (P : List IModule) : Prop where
  sorted : ∃ l, sortNodes (fun d n => decide (d = n)) [] (allTasses P) = .ok l
  modsorted : ∃ l, sortNodes (fun d n => decide (d = n)) [] ((treeOf P).map fun m => (m.name, m.imports.map IImport.frm)) = .ok l
  names : (P.map IModule.name).Nodup
  noOrph : noOrphans P = true
  types : ∀ m ∈ P, (m.types.map Prod.fst ++ (mergedImports (implicitTypes P) m).flatMap IImport.types).Nodup
  values : ∀ m ∈ P, (m.values.map Prod.fst ++ (mergedImports (implicitTypes P) m).flatMap IImport.values).Nodup
  refs : ∀ m ∈ P, ∀ r, m.Uses r → ∃ m' ∈ P, m'.name = (refContent m r).1 ∧ r.name ∈ m'.types.map Prod.fst ∧
    r.name ∈ (createModule (implicitTypes P) m').exportedTypes
  imports : ∀ m ∈ P, ∀ i ∈ mergedImports (implicitTypes P) m, ∃ m' ∈ P, m'.name = i.frm ∧
    (∀ n ∈ i.types, n ∈ m'.types.map Prod.fst ∧ n ∈ (createModule (implicitTypes P) m').exportedTypes) ∧
    ∀ n ∈ i.values, n ∈ m'.values.map Prod.fst ∧ n ∈ (createModule (implicitTypes P) m').exportedVars

theorem findModule_some {P : List IModule} {md : String} {q : JModule} (h : findModule (treeOf P) md = some q) :
    ∃ m ∈ P, m.name = md ∧ q = createModule (implicitTypes P) m := by
  rw [findModule_treeOf] at h
  obtain ⟨m, hm, rfl⟩ := Option.map_eq_some_iff.1 h
  exact ⟨m, List.mem_of_find?_eq_some hm, by have := List.find?_some hm; exact eq_of_beq this, rfl⟩

theorem findModule_mem {P : List IModule} (hn : (P.map IModule.name).Nodup) {m : IModule} (hm : m ∈ P) :
    findModule (treeOf P) m.name = some (createModule (implicitTypes P) m) := by
  rw [findModule_treeOf, find_name hn hm]; rfl

theorem checkImport_iff (Q : List JModule) (i : IImport) : checkImport Q i = true ↔ ∃ q, findModule Q i.frm = some q ∧
    (∀ n ∈ i.types, n ∈ q.types.map Prod.fst ∧ n ∈ q.exportedTypes) ∧
    ∀ n ∈ i.values, n ∈ q.values.map Prod.fst ∧ n ∈ q.exportedVars := by
  unfold checkImport
  cases findModule Q i.frm with
  | none => simp
  | some q => simp

theorem resolveNames_iff {P : List IModule} {Q : List JModule} :
    resolveNames P = some Q ↔ Q = treeOf P ∧ NamesOk P := by
  unfold resolveNames
  constructor
  · intro h
    split at h
    · rename_i h1
      dsimp only at h
      split at h
      · rename_i h2
        refine ⟨(Option.some.inj h).symm, ?_⟩
        simp only [Bool.and_eq_true, List.all_eq_true, checkModules, toBool_iff, decide_eq_true_eq] at h1 h2
        obtain ⟨hsp, ⟨hms, hnames⟩, hchk⟩ := h2
        have hnames : (P.map IModule.name).Nodup := by
          rw [List.map_map] at hnames; exact hnames
        have hck : ∀ m ∈ P, checkNames (treeOf P) (createModule (implicitTypes P) m) = true :=
          fun m hm => hchk _ (List.mem_map_of_mem hm)
        simp only [checkNames, Bool.and_eq_true, decide_eq_true_eq, List.all_eq_true, createModule_types,
          createModule_values] at hck
        refine ⟨h1.2, hms, hnames, h1.1, fun m hm => (hck m hm).1.1.1.1.1.1.2, fun m hm => (hck m hm).1.1.1.2, ?_, ?_⟩
        · intro m hm r hr
          have key : ∃ t : ITy, r ∈ t.refs ∧ checkRefs (treeOf P) (toJ m t) = true ∧ specRefs (treeOf P) (toJ m t) = true := by
            rcases hr with ⟨n, t, ht, hr⟩ | ⟨n, t, ht, hr⟩
            · exact ⟨t, (t.has_iff r).1 hr, (hck m hm).1.1.2 (n, toJ m t) (List.mem_map.2 ⟨(n, t), ht, rfl⟩),
                (hsp _ (List.mem_map_of_mem hm)).1 (n, toJ m t) (List.mem_map.2 ⟨(n, t), ht, rfl⟩)⟩
            · exact ⟨t, (t.has_iff r).1 hr, (hck m hm).1.2 (n, toJ m t) (List.mem_map.2 ⟨(n, t), ht, rfl⟩),
                (hsp _ (List.mem_map_of_mem hm)).2 (n, toJ m t) (List.mem_map.2 ⟨(n, t), ht, rfl⟩)⟩
          obtain ⟨t, ht, hc, hs⟩ := key
          obtain ⟨q, hq, hqe⟩ := (checkRefs_iff _ m t).1 hc r ht
          obtain ⟨q', hq', hqt⟩ := (specRefs_iff _ m t).1 hs r ht
          obtain ⟨m', hm', e, rfl⟩ := findModule_some hq
          rw [hq] at hq'
          obtain rfl := Option.some.inj hq'
          exact ⟨m', hm', e, createModule_types _ m' ▸ hqt, hqe⟩
        · intro m hm i hi
          obtain ⟨q, hq, ht, hv⟩ := (checkImport_iff _ i).1 ((hck m hm).2 i hi)
          obtain ⟨m', hm', e, rfl⟩ := findModule_some hq
          refine ⟨m', hm', e, ?_, ?_⟩
          · rw [createModule_types] at ht; exact ht
          · rw [createModule_values] at hv; exact hv
      · cases h
    · cases h
  · rintro ⟨rfl, ok⟩
    have hspec : ∀ m ∈ P, ∀ t : ITy, (∀ r ∈ t.refs, m.Uses r) →
        checkRefs (treeOf P) (toJ m t) = true ∧ specRefs (treeOf P) (toJ m t) = true := by
      intro m hm t ht
      constructor
      · rw [checkRefs_iff]
        intro r hr
        obtain ⟨m', hm', e, _, he⟩ := ok.refs m hm r (ht r hr)
        exact ⟨_, e ▸ findModule_mem ok.names hm', he⟩
      · rw [specRefs_iff]
        intro r hr
        obtain ⟨m', hm', e, he, _⟩ := ok.refs m hm r (ht r hr)
        exact ⟨_, e ▸ findModule_mem ok.names hm', by rw [createModule_types]; exact he⟩
    have htypes : ∀ m ∈ P, ∀ x ∈ (createModule (implicitTypes P) m).types,
        checkRefs (treeOf P) x.2 = true ∧ specRefs (treeOf P) x.2 = true := by
      intro m hm x hx
      obtain ⟨y, hy, rfl⟩ := List.mem_map.1 hx
      exact hspec m hm y.2 fun r hr => .inl ⟨y.1, y.2, hy, (y.2.has_iff r).2 hr⟩
    have hvalues : ∀ m ∈ P, ∀ x ∈ (createModule (implicitTypes P) m).values,
        checkRefs (treeOf P) x.2 = true ∧ specRefs (treeOf P) x.2 = true := by
      intro m hm x hx
      obtain ⟨y, hy, rfl⟩ := List.mem_map.1 hx
      exact hspec m hm y.2 fun r hr => .inr ⟨y.1, y.2, hy, (y.2.has_iff r).2 hr⟩
    rw [if_pos (by rw [Bool.and_eq_true]; exact ⟨ok.noOrph, (toBool_iff _).2 ok.sorted⟩)]
    dsimp only
    rw [if_pos]
    simp only [Bool.and_eq_true, List.all_eq_true, checkModules, toBool_iff, decide_eq_true_eq]
    refine ⟨?_, ⟨ok.modsorted, ?_⟩, ?_⟩
    · intro q hq
      obtain ⟨m, hm, rfl⟩ := List.mem_map.1 hq
      exact ⟨fun x hx => (htypes m hm x hx).2, fun x hx => (hvalues m hm x hx).2⟩
    · rw [List.map_map]; exact ok.names
    · intro q hq
      obtain ⟨m, hm, rfl⟩ := List.mem_map.1 hq
      simp only [checkNames, Bool.and_eq_true, decide_eq_true_eq, List.all_eq_true, createModule_types, createModule_values]
      have h1 := List.nodup_append.1 (ok.types m hm)
      have h2 := List.nodup_append.1 (ok.values m hm)
      refine ⟨⟨⟨⟨⟨⟨⟨⟨h1.1, h1.2.1⟩, ok.types m hm⟩, h2.1⟩, h2.2.1⟩, ok.values m hm⟩,
        fun x hx => (htypes m hm x hx).1⟩, fun x hx => (hvalues m hm x hx).1⟩, ?_⟩
      intro i hi
      rw [checkImport_iff]
      obtain ⟨m', hm', e, ht, hv⟩ := ok.imports m hm i hi
      refine ⟨_, e ▸ findModule_mem ok.names hm', ?_, ?_⟩
      · rw [createModule_types]; exact ht
      · rw [createModule_values]; exact hv

end Asn1
