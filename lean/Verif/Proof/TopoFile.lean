import Verif.Proof.Topo
/-! # Lemmas about the order of types in a header and about the headers that include each other -/
namespace Asn1

theorem importedTypes_disjoint (f : AsnFile) {n : TypeName} (hi : f.Imports n) (t : TShape) : ¬ f.Declares n t := by
  rintro ⟨m, hm, he, _⟩
  exact hi.2 m hm he

theorem eraseDups_nodup {α : Type} [DecidableEq α] : ∀ l : List α, l.eraseDups.Nodup
  | [] => by simp
  | a :: l => by
    rw [List.eraseDups_cons]
    have := eraseDups_nodup (l.filter fun b => !b == a)
    refine List.nodup_cons.2 ⟨?_, this⟩
    intro h
    have := (List.mem_filter.1 (List.mem_eraseDups.1 h)).2
    simp at this
termination_by l => l.length
decreasing_by
  have := List.length_filter_le (fun b => !b == a) l
  simp only [List.length_cons]
  omega

theorem file_nodup (f : AsnFile) (hn : (f.tases.map Prod.fst).Nodup) :
    (f.importedTypes ++ (f.tases.map fun p => (p.1, typeDeps p.2)).map Prod.fst).Nodup := by
  rw [List.map_map]
  refine List.nodup_append.2 ⟨eraseDups_nodup _, by simpa [Function.comp_def] using hn, ?_⟩
  intro a ha b hb hab
  subst hab
  obtain ⟨⟨n, t⟩, hp, rfl⟩ := List.mem_map.1 hb
  exact importedTypes_disjoint f ((mem_importedTypes f _).1 ha) t ((mem_tases f _ _).1 hp)

theorem isTas_iff (f : AsnFile) (n : TypeName) : (f.tases.any fun p => p.1 == n) = true ↔ ∃ t, f.Declares n t := by
  simp only [List.any_eq_true, beq_iff_eq]
  constructor
  · rintro ⟨⟨m, t⟩, hp, rfl⟩; exact ⟨t, (mem_tases f _ _).1 hp⟩
  · rintro ⟨t, ht⟩; exact ⟨(n, t), (mem_tases f _ _).2 ht, rfl⟩

theorem sortedTypes_perm (f : AsnFile) {l : List TypeName} (h : f.sortedTypes = .ok l) :
    l.Perm (f.tases.map Prod.fst) := by
  unfold AsnFile.sortedTypes at h
  split at h
  · rename_i L hs
    injection h with h
    subst h
    obtain ⟨entries, hp, rfl, _⟩ := sortNodes_ok _ hs
    have hp' := (hp.map Prod.fst).filter fun n => f.tases.any fun p => p.1 == n
    refine hp'.trans ?_
    rw [allEntries, List.map_append, List.map_map, List.map_map, List.filter_append]
    have h1 : (f.importedTypes.map (Prod.fst ∘ fun n => ((n, []) : TypeName × List TypeName))).filter (fun n => f.tases.any fun p => p.1 == n) = [] := by
      rw [List.filter_eq_nil_iff]
      intro n hn'
      have hn'' : n ∈ f.importedTypes := by simpa [Function.comp_def] using hn'
      intro hc
      obtain ⟨t, ht⟩ := (isTas_iff f n).1 hc
      exact importedTypes_disjoint f ((mem_importedTypes f _).1 hn'') t ht
    have h2 : (f.tases.map (Prod.fst ∘ fun p => (p.1, typeDeps p.2))).filter (fun n => f.tases.any fun p => p.1 == n) = f.tases.map Prod.fst := by
      have he : (Prod.fst ∘ fun p : TypeName × TShape => (p.1, typeDeps p.2)) = Prod.fst := rfl
      rw [he, List.filter_eq_self]
      intro n hn'
      obtain ⟨⟨m, t⟩, hp, rfl⟩ := List.mem_map.1 hn'
      exact (isTas_iff f m).2 ⟨t, (mem_tases f _ _).1 hp⟩
    rw [h1, h2, List.nil_append]
  · exact absurd h (by simp)

theorem sortedTypes_before (f : AsnFile) (hn : (f.tases.map Prod.fst).Nodup) {before after : List TypeName} {T n : TypeName} {t : TShape}
    (h : f.sortedTypes = .ok (before ++ T :: after)) (hd : f.Declares T t) (hm : Mentions t n) : n ∈ before ∨ f.Imports n := by
  unfold AsnFile.sortedTypes at h
  split at h
  · rename_i L hs
    injection h with h
    obtain ⟨entries, hp, rfl, ho⟩ := sortNodes_ok _ hs
    obtain ⟨l1, l2, he, hb, ha⟩ := List.filter_eq_append_iff.1 h
    obtain ⟨l3, l4, he2, hl3, hT, _⟩ := List.filter_eq_cons_iff.1 ha
    subst he2
    obtain ⟨e1, e2, rfl, rfl, he2⟩ := List.map_eq_append_iff.1 he
    obtain ⟨e3, e4, rfl, rfl, he4⟩ := List.map_eq_append_iff.1 he2
    obtain ⟨⟨T', deps⟩, e5, rfl, hT', rfl⟩ := List.map_eq_cons_iff.1 he4
    simp only at hT'
    subst hT'
    have hent : (T', deps) ∈ allEntries f.importedTypes (f.tases.map fun p => (p.1, typeDeps p.2)) := hp.subset (by simp)
    have hdeps : deps = typeDeps t := by
      rcases List.mem_append.1 hent with hc | hc
      · obtain ⟨m, hm', he⟩ := List.mem_map.1 hc
        simp only [Prod.mk.injEq] at he
        exact absurd hd (importedTypes_disjoint f ((mem_importedTypes f _).1 (he.1 ▸ hm')) t)
      · obtain ⟨⟨m, t'⟩, hm', he⟩ := List.mem_map.1 hc
        simp only [Prod.mk.injEq] at he
        obtain ⟨rfl, rfl⟩ := he
        have := List.inj_on_of_nodup_map hn hm' ((mem_tases f _ _).2 hd) rfl
        simp only [Prod.mk.injEq] at this
        rw [this.2]
    obtain ⟨b, hbm, hc⟩ := ho (e1 ++ e3) (T', deps) e5 (by simp) n (by rw [hdeps]; exact (typeDeps_iff t n).2 hm)
    have hnb : n = b.1 := by simpa using hc
    by_cases htas : (f.tases.any fun p => p.1 == n) = true
    · left
      rw [← hb]
      rcases List.mem_append.1 hbm with hx | hx
      · exact List.mem_filter.2 ⟨List.mem_map.2 ⟨b, hx, hnb.symm⟩, htas⟩
      · exact absurd htas (by
          have := hl3 n (List.mem_map.2 ⟨b, hx, hnb.symm⟩)
          simpa using this)
    · right
      have hball : b ∈ allEntries f.importedTypes (f.tases.map fun p => (p.1, typeDeps p.2)) := hp.subset (by
        rcases List.mem_append.1 hbm with hx | hx <;> simp [hx])
      rcases List.mem_append.1 hball with hc | hc
      · obtain ⟨m, hm', he⟩ := List.mem_map.1 hc
        have : m = n := by rw [hnb, ← he]
        exact (mem_importedTypes f _).1 (this ▸ hm')
      · obtain ⟨⟨m, t'⟩, hm', he⟩ := List.mem_map.1 hc
        have : m = n := by rw [hnb, ← he]
        exact absurd ((isTas_iff f n).2 ⟨t', (mem_tases f _ _).1 (this ▸ hm')⟩) htas
  · exact absurd h (by simp)

theorem needs_file (f : AsnFile) (a b : TypeName) :
    DependsOn (f.tases.map fun p => (p.1, typeDeps p.2)) a b ↔ ∃ t, f.Declares a t ∧ Mentions t b := by
  constructor
  · rintro ⟨l, hl, hb⟩
    obtain ⟨⟨m, t⟩, hm, he⟩ := List.mem_map.1 hl
    simp only [Prod.mk.injEq] at he
    obtain ⟨rfl, rfl⟩ := he
    exact ⟨t, (mem_tases f _ _).1 hm, (typeDeps_iff t b).1 hb⟩
  · rintro ⟨t, ht, hb⟩
    exact ⟨typeDeps t, List.mem_map.2 ⟨(a, t), (mem_tases f _ _).2 ht, rfl⟩, (typeDeps_iff t b).2 hb⟩

theorem sortedTypes_cyclic (f : AsnFile) (hn : (f.tases.map Prod.fst).Nodup)
    (hd : ∀ T t, f.Declares T t → ∀ n, Mentions t n → f.Imports n ∨ ∃ t', f.Declares n t') :
    (∃ u, f.sortedTypes = .error u) ↔ Cyclic fun a b => ∃ t, f.Declares a t ∧ Mentions t b := by
  have hrel : (fun a b => ∃ t, f.Declares a t ∧ Mentions t b) = DependsOn (f.tases.map fun p => (p.1, typeDeps p.2)) := by
    funext a b; exact propext (needs_file f a b).symm
  rw [hrel]
  unfold AsnFile.sortedTypes
  cases hs : sortNodes (fun d n => decide (d = n)) f.importedTypes (f.tases.map fun p => (p.1, typeDeps p.2)) with
  | ok l =>
    simp only [reduceCtorEq, exists_false, false_iff]
    exact sortNodes_acyclic (file_nodup f hn) hs
  | error u =>
    simp only [Except.error.injEq, exists_eq', true_iff]
    refine sortNodes_cycle ?_ hs
    intro e he d hde
    obtain ⟨⟨T, t⟩, hm, rfl⟩ := List.mem_map.1 he
    rcases hd T t ((mem_tases f _ _).1 hm) d ((typeDeps_iff t d).1 hde) with h | ⟨t', h⟩
    · exact .inl ((mem_importedTypes f _).2 h)
    · exact .inr ⟨typeDeps t', List.mem_map.2 ⟨(d, t'), (mem_tases f _ _).2 h, rfl⟩⟩

/-! ## Modules and headers -/

theorem needs_modules (files : List AsnFile) :
    DependsOn ((files.flatMap AsnFile.modules).map fun m => (m.name, m.imports.map Prod.fst)) = ModuleImports files := by
  funext a b
  refine propext ⟨?_, ?_⟩
  · rintro ⟨l, hl, hb⟩
    obtain ⟨m, hm, he⟩ := List.mem_map.1 hl
    simp only [Prod.mk.injEq] at he
    obtain ⟨rfl, rfl⟩ := he
    obtain ⟨f, hf, hm'⟩ := List.mem_flatMap.1 hm
    obtain ⟨⟨x, l⟩, hx, rfl⟩ := List.mem_map.1 hb
    exact ⟨f, hf, m, hm', rfl, l, hx⟩
  · rintro ⟨f, hf, m, hm, rfl, l, hx⟩
    exact ⟨m.imports.map Prod.fst, List.mem_map.2 ⟨m, List.mem_flatMap.2 ⟨f, hf, hm⟩, rfl⟩, List.mem_map.2 ⟨(b, l), hx, rfl⟩⟩

theorem modules_cyclic (files : List AsnFile) (hn : ((files.flatMap AsnFile.modules).map AsnModule.name).Nodup)
    (hd : ∀ a b, ModuleImports files a b → ∃ f ∈ files, ∃ m ∈ f.modules, m.name = b) :
    (∃ u, checkForCyclicModules files = .error u) ↔ Cyclic (ModuleImports files) := by
  rw [← needs_modules]
  unfold checkForCyclicModules
  cases hs : sortNodes (fun d n => decide (d = n)) [] ((files.flatMap AsnFile.modules).map fun m => (m.name, m.imports.map Prod.fst)) with
  | ok l =>
    simp only [reduceCtorEq, exists_false, false_iff]
    refine sortNodes_acyclic ?_ hs
    rw [List.nil_append, List.map_map]
    exact hn
  | error u =>
    simp only [Except.error.injEq, exists_eq', true_iff]
    refine sortNodes_cycle ?_ hs
    intro e he d hde
    refine .inr ?_
    have hne : DependsOn ((files.flatMap AsnFile.modules).map fun m => (m.name, m.imports.map Prod.fst)) e.1 d := ⟨e.2, he, hde⟩
    rw [needs_modules] at hne
    obtain ⟨f, hf, m, hm, rfl⟩ := hd _ _ hne
    exact ⟨m.imports.map Prod.fst, List.mem_map.2 ⟨m, List.mem_flatMap.2 ⟨f, hf, hm⟩, rfl⟩⟩

theorem mapM_mem {α β : Type} {f : α → Option β} : ∀ {l : List α} {r : List β}, l.mapM f = some r → ∀ b ∈ r, ∃ a ∈ l, f a = some b
  | [], r, h, b, hb => by
    simp only [List.mapM_nil, pure, Option.some.injEq] at h
    subst h
    exact absurd hb (by simp)
  | a :: l, r, h, b, hb => by
    rw [List.mapM_cons] at h
    cases hfa : f a with
    | none => rw [hfa] at h; exact absurd h (by simp)
    | some x =>
      cases hl : l.mapM f with
      | none => rw [hfa, hl] at h; exact absurd h (by simp)
      | some xs =>
        rw [hfa, hl] at h
        simp at h
        subst h
        rcases List.mem_cons.1 hb with rfl | hb
        · exact ⟨a, by simp, hfa⟩
        · obtain ⟨y, hy, hfy⟩ := mapM_mem hl b hb
          exact ⟨y, List.mem_cons_of_mem _ hy, hfy⟩

theorem headerIncludes_step {files : List AsnFile} {a b : String} (h : HeaderIncludes files a b) :
    ∃ f ∈ files, f.name = a ∧ ∃ g ∈ files, g.name = b ∧ ∃ m ∈ f.modules, ∃ k ∈ g.modules, ModuleImports files m.name k.name := by
  obtain ⟨f, hf, rfl, l, hl, hb⟩ := h
  refine ⟨f, hf, rfl, ?_⟩
  unfold AsnFile.includes at hl
  cases hm : (f.importedModules.mapM fun i => (files.find? fun g => g.modules.any fun m => m.name == i.1).map AsnFile.name) with
  | none => rw [hm] at hl; exact absurd hl (by simp)
  | some r =>
    rw [hm] at hl
    simp only [Option.map_some, Option.some.injEq] at hl
    subst hl
    obtain ⟨⟨i, il⟩, hi, hfi⟩ := mapM_mem hm b (List.mem_eraseDups.1 hb)
    obtain ⟨g, hg, rfl⟩ := Option.map_eq_some_iff.1 hfi
    have hgm := List.mem_of_find?_eq_some hg
    have hgp := List.find?_some hg
    simp only [List.any_eq_true, beq_iff_eq] at hgp
    obtain ⟨k, hk, rfl⟩ := hgp
    obtain ⟨hi', _⟩ := List.mem_filter.1 hi
    obtain ⟨m, hm', hi''⟩ := List.mem_flatMap.1 hi'
    exact ⟨g, hgm, rfl, m, hm', k, hk, f, hf, m, hm', rfl, il, hi''⟩

theorem headers_acyclic (files : List AsnFile) (hfn : (files.map AsnFile.name).Nodup) (hone : ∀ f ∈ files, ∃ m, f.modules = [m])
    (hac : ¬ Cyclic (ModuleImports files)) : ¬ Cyclic (HeaderIncludes files) := by
  have hlift : ∀ a b, Relation.TransGen (HeaderIncludes files) a b →
      ∃ f ∈ files, f.name = a ∧ ∃ g ∈ files, g.name = b ∧ ∀ m ∈ f.modules, ∀ k ∈ g.modules, Relation.TransGen (ModuleImports files) m.name k.name := by
    have hsingle : ∀ a b, HeaderIncludes files a b →
      ∃ f ∈ files, f.name = a ∧ ∃ g ∈ files, g.name = b ∧ ∀ m ∈ f.modules, ∀ k ∈ g.modules, ModuleImports files m.name k.name := by
      intro a b h
      obtain ⟨f, hf, ha, g, hg, hb, m, hm, k, hk, hi⟩ := headerIncludes_step h
      refine ⟨f, hf, ha, g, hg, hb, ?_⟩
      intro m' hm' k' hk'
      obtain ⟨x, hx⟩ := hone f hf
      obtain ⟨y, hy⟩ := hone g hg
      rw [hx, List.mem_singleton] at hm hm'
      rw [hy, List.mem_singleton] at hk hk'
      subst hm hm' hk hk'
      exact hi
    intro a b hab
    induction hab with
    | single h =>
      obtain ⟨f, hf, ha, g, hg, hb, hi⟩ := hsingle _ _ h
      exact ⟨f, hf, ha, g, hg, hb, fun m hm k hk => .single (hi m hm k hk)⟩
    | tail _ h ih =>
      obtain ⟨f, hf, ha, g, hg, hb, hi⟩ := ih
      obtain ⟨g', hg', hb', e, he, hc, hi'⟩ := hsingle _ _ h
      have hgg : g = g' := List.inj_on_of_nodup_map hfn hg hg' (hb.trans hb'.symm)
      subst hgg
      refine ⟨f, hf, ha, e, he, hc, ?_⟩
      intro m hm k hk
      obtain ⟨x, hx⟩ := hone g hg
      exact .tail (hi m hm x (by simp [hx])) (hi' x (by simp [hx]) k hk)
  rintro ⟨a, ha⟩
  obtain ⟨f, hf, hfa, g, hg, hga, hi⟩ := hlift a a ha
  have hfg : f = g := List.inj_on_of_nodup_map hfn hf hg (hfa.trans hga.symm)
  subst hfg
  obtain ⟨x, hx⟩ := hone f hf
  exact hac ⟨x.name, hi x (by simp [hx]) x (by simp [hx])⟩

end Asn1
