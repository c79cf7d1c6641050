import Verif.Proof.ImportsFacts
/-! # Lemmas for C104: what names mean in modules that pass the checks -/
namespace Asn1

theorem flatMap_nodup_inj {α β : Type} {f : α → List β} {l : List α} (hn : (l.flatMap f).Nodup) {a b : α} (ha : a ∈ l)
    (hb : b ∈ l) {x : β} (hxa : x ∈ f a) (hxb : x ∈ f b) : a = b := by
  induction l with
  | nil => cases ha
  | cons c l ih =>
    rw [List.flatMap_cons, List.nodup_append] at hn
    rcases List.mem_cons.1 ha with ea | ha1 <;> rcases List.mem_cons.1 hb with eb | hb1
    · exact ea.trans eb.symm
    · exact absurd rfl (hn.2.2 x (ea ▸ hxa) x (List.mem_flatMap.2 ⟨b, hb1, hxb⟩))
    · exact absurd rfl (hn.2.2 x (eb ▸ hxb) x (List.mem_flatMap.2 ⟨a, ha1, hxa⟩))
    · exact ih hn.2.1 ha1 hb1

variable {P : List IModule}

theorem NamesOk.type_clash (ok : NamesOk P) {m : IModule} (hm : m ∈ P) {j : IImport}
    (hj : j ∈ mergedImports (implicitTypes P) m) {n : String} (hn : n ∈ j.types) : n ∉ m.types.map Prod.fst := by
  intro h
  exact (List.nodup_append.1 (ok.types m hm)).2.2 n h n (List.mem_flatMap.2 ⟨j, hj, hn⟩) rfl

theorem NamesOk.type_clause (ok : NamesOk P) {m : IModule} (hm : m ∈ P) {i j : IImport}
    (hi : i ∈ mergedImports (implicitTypes P) m) (hj : j ∈ mergedImports (implicitTypes P) m) {n : String}
    (hni : n ∈ i.types) (hnj : n ∈ j.types) : i = j :=
  flatMap_nodup_inj (List.nodup_append.1 (ok.types m hm)).2.1 hi hj hni hnj

theorem NamesOk.value_clash (ok : NamesOk P) {m : IModule} (hm : m ∈ P) {j : IImport}
    (hj : j ∈ mergedImports (implicitTypes P) m) {n : String} (hn : n ∈ j.values) : n ∉ m.values.map Prod.fst := by
  intro h
  exact (List.nodup_append.1 (ok.values m hm)).2.2 n h n (List.mem_flatMap.2 ⟨j, hj, hn⟩) rfl

theorem NamesOk.value_clause (ok : NamesOk P) {m : IModule} (hm : m ∈ P) {i j : IImport}
    (hi : i ∈ mergedImports (implicitTypes P) m) (hj : j ∈ mergedImports (implicitTypes P) m) {n : String}
    (hni : n ∈ i.values) (hnj : n ∈ j.values) : i = j :=
  flatMap_nodup_inj (List.nodup_append.1 (ok.values m hm)).2.1 hi hj hni hnj

theorem mem_fst {l : List (String × ITy)} {n : String} : n ∈ l.map Prod.fst ↔ ∃ t, (n, t) ∈ l := by
  constructor
  · intro h
    obtain ⟨x, hx, rfl⟩ := List.mem_map.1 h
    exact ⟨x.2, hx⟩
  · rintro ⟨t, h⟩; exact List.mem_map.2 ⟨_, h, rfl⟩

/-- A name that a module has an assignment for means that assignment. -/
theorem NamesOk.denotes_own (ok : NamesOk P) (hc : DistinctClauses P) {M n D : String} {t : ITy} (h : DefinesType P M n t)
    (hd : TypeDenotes P M n D) : D = M := by
  cases hd with
  | own => rfl
  | @imported m i n D hm hi hn hd =>
    obtain ⟨m', hm', e, ht⟩ := h
    obtain rfl := module_inj ok.names hm hm' e.symm
    obtain ⟨j, hj, _, hjt, _⟩ := (mergedImports_spec (P := P) (hc m hm)).2.1 i hi
    exact absurd (mem_fst.2 ⟨t, ht⟩) (ok.type_clash hm hj (hjt n hn))

theorem NamesOk.valueDenotes_own (ok : NamesOk P) (hc : DistinctClauses P) {M n D : String} (h : DefinesValue P M n)
    (hd : ValueDenotes P M n D) : D = M := by
  cases hd with
  | own => rfl
  | @imported m i n D hm hi hn hd =>
    obtain ⟨m', hm', e, t, ht⟩ := h
    obtain rfl := module_inj ok.names hm hm' e.symm
    obtain ⟨j, hj, _, _, hjt⟩ := (mergedImports_spec (P := P) (hc m hm)).2.1 i hi
    exact absurd (mem_fst.2 ⟨t, ht⟩) (ok.value_clash hm hj (hjt n hn))

/-- An imported type has an assignment in the module it is imported from. -/
theorem NamesOk.import_type (ok : NamesOk P) (hc : DistinctClauses P) {m : IModule} (hm : m ∈ P) {i : IImport}
    (hi : i ∈ m.imports) {n : String} (hn : n ∈ i.types) : ∃ t, DefinesType P i.frm n t := by
  obtain ⟨j, hj, e, hjt, _⟩ := (mergedImports_spec (P := P) (hc m hm)).2.1 i hi
  obtain ⟨m', hm', e', h, _⟩ := ok.imports m hm j hj
  obtain ⟨t, ht⟩ := mem_fst.1 (h n (hjt n hn)).1
  exact ⟨t, m', hm', e'.trans e, ht⟩

theorem NamesOk.import_value (ok : NamesOk P) (hc : DistinctClauses P) {m : IModule} (hm : m ∈ P) {i : IImport}
    (hi : i ∈ m.imports) {n : String} (hn : n ∈ i.values) : DefinesValue P i.frm n := by
  obtain ⟨j, hj, e, _, hjt⟩ := (mergedImports_spec (P := P) (hc m hm)).2.1 i hi
  obtain ⟨m', hm', e', _, h⟩ := ok.imports m hm j hj
  obtain ⟨t, ht⟩ := mem_fst.1 (h n (hjt n hn)).1
  exact ⟨m', hm', e'.trans e, t, ht⟩

/-- A name means the assignment of the clause that imports it. -/
theorem NamesOk.denotes_import (ok : NamesOk P) (hc : DistinctClauses P) {m : IModule} (hm : m ∈ P) {i : IImport}
    (hi : i ∈ m.imports) {n D : String} (hn : n ∈ i.types) (hd : TypeDenotes P m.name n D) : D = i.frm := by
  obtain ⟨j, hj, e, hjt, _⟩ := (mergedImports_spec (P := P) (hc m hm)).2.1 i hi
  generalize hM : m.name = M at hd
  cases hd with
  | own h =>
    obtain ⟨m', hm', e', ht⟩ := h
    obtain rfl := module_inj ok.names hm hm' (hM.trans e'.symm)
    exact absurd (mem_fst.2 ⟨_, ht⟩) (ok.type_clash hm hj (hjt n hn))
  | @imported m' i' n D hm' hi' hn' hd =>
    obtain rfl := module_inj ok.names hm hm' hM
    obtain ⟨j', hj', e', hjt', _⟩ := (mergedImports_spec (P := P) (hc m hm)).2.1 i' hi'
    have := ok.type_clause hm hj hj' (hjt n hn) (hjt' n hn')
    subst this
    obtain ⟨t, ht⟩ := ok.import_type hc hm hi' hn'
    rw [ok.denotes_own hc ht hd, ← e', e]

theorem NamesOk.valueDenotes_import (ok : NamesOk P) (hc : DistinctClauses P) {m : IModule} (hm : m ∈ P) {i : IImport}
    (hi : i ∈ m.imports) {n D : String} (hn : n ∈ i.values) (hd : ValueDenotes P m.name n D) : D = i.frm := by
  obtain ⟨j, hj, e, _, hjt⟩ := (mergedImports_spec (P := P) (hc m hm)).2.1 i hi
  generalize hM : m.name = M at hd
  cases hd with
  | own h =>
    obtain ⟨m', hm', e', t, ht⟩ := h
    obtain rfl := module_inj ok.names hm hm' (hM.trans e'.symm)
    exact absurd (mem_fst.2 ⟨_, ht⟩) (ok.value_clash hm hj (hjt n hn))
  | @imported m' i' n D hm' hi' hn' hd =>
    obtain rfl := module_inj ok.names hm hm' hM
    obtain ⟨j', hj', e', _, hjt'⟩ := (mergedImports_spec (P := P) (hc m hm)).2.1 i' hi'
    have := ok.value_clause hm hj hj' (hjt n hn) (hjt' n hn')
    subst this
    rw [ok.valueDenotes_own hc (ok.import_value hc hm hi' hn') hd, ← e', e]

/-- A name means one assignment. -/
theorem NamesOk.denotes_unique (ok : NamesOk P) (hc : DistinctClauses P) {M n D D' : String} (h : TypeDenotes P M n D)
    (h' : TypeDenotes P M n D') : D = D' := by
  cases h with
  | own hd => exact (ok.denotes_own hc hd h').symm
  | @imported m i n D hm hi hn hd =>
    obtain ⟨t, ht⟩ := ok.import_type hc hm hi hn
    rw [ok.denotes_import hc hm hi hn h', ok.denotes_own hc ht hd]

theorem NamesOk.valueDenotes_unique (ok : NamesOk P) (hc : DistinctClauses P) {M n D D' : String} (h : ValueDenotes P M n D)
    (h' : ValueDenotes P M n D') : D = D' := by
  cases h with
  | own hd => exact (ok.valueDenotes_own hc hd h').symm
  | @imported m i n D hm hi hn hd =>
    rw [ok.valueDenotes_import hc hm hi hn h', ok.valueDenotes_own hc (ok.import_value hc hm hi hn) hd]

theorem NamesOk.denotes_def (ok : NamesOk P) (hc : DistinctClauses P) {M n D : String} (h : TypeDenotes P M n D) :
    ∃ t, DefinesType P D n t := by
  induction h with
  | own h => exact ⟨_, h⟩
  | imported _ _ _ _ ih => exact ih

/-- The module that a reference is resolved to, when the names of imported modules play no part. -/
theorem refContent_cases (m : IModule) (r : IRef) :
    (∃ M, r.qual = some M ∧ (refContent m r).1 = M) ∨
    (r.qual = none ∧ ∃ i ∈ m.imports, (refContent m r).1 = i.frm ∧ (r.name ∈ i.types ∨ r.name = i.frm)) ∨
    (r.qual = none ∧ (refContent m r).1 = m.name ∧ ∀ i ∈ m.imports, r.name ∉ i.types ∧ r.name ≠ i.frm) := by
  unfold refContent
  cases hq : r.qual with
  | some M => exact .inl ⟨M, rfl, rfl⟩
  | none =>
    dsimp only
    cases hf : m.imports.find? fun i => (i.frm :: i.types).contains r.name with
    | some i =>
      have h := List.find?_some hf
      simp only [List.contains_eq_mem, List.mem_cons, decide_eq_true_eq] at h
      exact .inr (.inl ⟨rfl, i, List.mem_of_find?_eq_some hf, rfl, h.symm⟩)
    | none =>
      refine .inr (.inr ⟨rfl, rfl, fun i hi => ?_⟩)
      have h := List.find?_eq_none.1 hf i hi
      simp only [List.contains_eq_mem, List.mem_cons, decide_eq_true_eq, not_or] at h
      exact ⟨h.2, h.1⟩

theorem NamesOk.target_def (ok : NamesOk P) {m : IModule} (hm : m ∈ P) {r : IRef} (hr : m.Uses r) :
    ∃ t, DefinesType P (refContent m r).1 r.name t := by
  obtain ⟨m', hm', e, h, _⟩ := ok.refs m hm r hr
  obtain ⟨t, ht⟩ := mem_fst.1 h
  exact ⟨t, m', hm', e, ht⟩

/-- A reference is resolved to what it means, if its name is not taken for that of a module. -/
theorem NamesOk.target_eq (ok : NamesOk P) (hc : DistinctClauses P) {m : IModule} (hm : m ∈ P) {r : IRef} (hr : m.Uses r)
    (ha : ¬ r.Ambiguous m) {D : String} (hd : TypeDenotes P (r.scope m) r.name D) : (refContent m r).1 = D := by
  obtain ⟨t, ht⟩ := ok.target_def hm hr
  rcases refContent_cases m r with ⟨M, hq, e⟩ | ⟨hq, i, hi, e, h⟩ | ⟨hq, e, _⟩
  · rw [e] at ht ⊢
    rw [IRef.scope, hq] at hd
    exact (ok.denotes_own hc ht hd).symm
  · rcases h with h | h
    · rw [IRef.scope, hq] at hd
      rw [e]; exact (ok.denotes_import hc hm hi h hd).symm
    · exact absurd ⟨hq, i, hi, h.symm⟩ ha
  · rw [e] at ht ⊢
    rw [IRef.scope, hq] at hd
    exact (ok.denotes_own hc ht hd).symm

/-- A reference in a type assignment is resolved to what it means, whatever its name. -/
theorem NamesOk.target_eq_type (ok : NamesOk P) (hc : DistinctClauses P) {m : IModule} (hm : m ∈ P) {r : IRef}
    (hr : m.UsesInType r) {D : String} (hd : TypeDenotes P (r.scope m) r.name D) : (refContent m r).1 = D := by
  by_cases ha : r.Ambiguous m
  · obtain ⟨t, ht⟩ := ok.target_def hm (.inl hr)
    by_cases hne : (refContent m r).1 = m.name
    · rw [hne] at ht ⊢
      rw [IRef.scope, ha.1] at hd
      exact (ok.denotes_own hc ht hd).symm
    · obtain ⟨_, hcov, himp, _⟩ := mergedImports_spec (P := P) (hc m hm)
      obtain ⟨j, hj, e, hjn⟩ := himp hm r hr hne
      rw [IRef.scope, ha.1] at hd
      change TypeDenotes P m.name r.name D at hd
      generalize hM : m.name = M at hd
      cases hd with
      | own h =>
        obtain ⟨m', hm', e', ht'⟩ := h
        obtain rfl := module_inj ok.names hm hm' (hM.trans e'.symm)
        exact absurd (mem_fst.2 ⟨_, ht'⟩) (ok.type_clash hm hj hjn)
      | @imported m' i' n D hm' hi' hn' hd =>
        obtain rfl := module_inj ok.names hm hm' hM
        obtain ⟨j', hj', e', hjt', _⟩ := hcov i' hi'
        have := ok.type_clause hm hj hj' hjn (hjt' _ hn')
        subst this
        obtain ⟨t', ht'⟩ := ok.import_type hc hm hi' hn'
        rw [ok.denotes_own hc ht' hd, ← e', e]
  · exact ok.target_eq hc hm (.inl hr) ha hd

/-- A reference whose name is not taken for that of a module has a meaning. -/
theorem NamesOk.target_denotes (ok : NamesOk P) {m : IModule} (hm : m ∈ P) {r : IRef} (hr : m.Uses r)
    (ha : ¬ r.Ambiguous m) : TypeDenotes P (r.scope m) r.name (refContent m r).1 := by
  obtain ⟨t, ht⟩ := ok.target_def hm hr
  rcases refContent_cases m r with ⟨M, hq, e⟩ | ⟨hq, i, hi, e, h⟩ | ⟨hq, e, _⟩
  · rw [e] at ht ⊢
    rw [IRef.scope, hq]
    exact .own ht
  · rcases h with h | h
    · rw [IRef.scope, hq]
      rw [e] at ht ⊢
      exact .imported hm hi h (.own ht)
    · exact absurd ⟨hq, i, hi, h.symm⟩ ha
  · rw [e] at ht ⊢
    rw [IRef.scope, hq]
    exact .own ht

theorem defines_unique (ok : NamesOk P) {M n : String} {t t' : ITy} {m : IModule} (hm : m ∈ P) (hM : m.name = M)
    (ht : (n, t) ∈ m.types) (h : DefinesType P M n t') : t' = t := by
  obtain ⟨m', hm', e, ht'⟩ := h
  obtain rfl := module_inj ok.names hm hm' (hM.trans e.symm)
  have hn := (List.nodup_append.1 (ok.types m hm)).1
  generalize m.types = l at hn ht ht'
  induction l with
  | nil => cases ht
  | cons a l ih =>
    simp only [List.map_cons, List.nodup_cons] at hn
    rcases List.mem_cons.1 ht with e1 | h1 <;> rcases List.mem_cons.1 ht' with e2 | h2
    · rw [← e2] at e1; exact (Prod.mk.inj e1).2.symm
    · exact absurd (List.mem_map_of_mem (f := Prod.fst) h2) (by rw [← e1] at hn; exact hn.1)
    · exact absurd (List.mem_map_of_mem (f := Prod.fst) h1) (by rw [← e2] at hn; exact hn.1)
    · exact ih hn.2 h1 h2

/-- The assignment that is found in a module that has it. -/
theorem getType_def (ok : NamesOk P) {m : IModule} (hm : m ∈ P) {n : String} {t : ITy} (ht : (n, t) ∈ m.types) (k : Nat) :
    getType (treeOf P) (k + 1) m.name n = some (toJ m t) := by
  rw [getType, findModule_mem ok.names hm]
  dsimp only [Option.bind_some]
  have : ((createModule (implicitTypes P) m).types.find? fun x => x.1 == n) = some (n, toJ m t) := by
    have hs : ((createModule (implicitTypes P) m).types.find? fun x => x.1 == n).isSome = true := by
      rw [find_name_isSome, createModule_types]; exact mem_fst.2 ⟨t, ht⟩
    obtain ⟨x, hx⟩ := Option.isSome_iff_exists.1 hs
    have h1 := List.mem_of_find?_eq_some hx
    have h2 : x.1 = n := by have := List.find?_some hx; exact eq_of_beq this
    obtain ⟨y, hy, rfl⟩ := List.mem_map.1 h1
    dsimp only at h2
    obtain ⟨a, b⟩ := y
    dsimp only at h2 hx
    subst h2
    rw [hx, defines_unique ok hm rfl ht ⟨m, hm, rfl, hy⟩]
  rw [this]

/-- The value assignment that is found in a module that has it. -/
theorem getValue_def (ok : NamesOk P) {M n : String} (h : DefinesValue P M n) (k : Nat) :
    getValue (treeOf P) (k + 1) M n = some M := by
  obtain ⟨m, hm, rfl, t, ht⟩ := h
  rw [getValue, findModule_mem ok.names hm]
  dsimp only [Option.bind_some]
  have hs : ((createModule (implicitTypes P) m).values.find? fun x => x.1 == n).isSome = true := by
    rw [find_name_isSome, createModule_values]; exact mem_fst.2 ⟨t, ht⟩
  obtain ⟨x, hx⟩ := Option.isSome_iff_exists.1 hs
  rw [hx]
  rfl

theorem valContent_cases (m : IModule) (v : String) :
    (∃ i ∈ m.imports, (valContent m v).1 = i.frm ∧ v ∈ i.values) ∨
    ((valContent m v).1 = m.name ∧ ∀ i ∈ m.imports, v ∉ i.values) := by
  unfold valContent
  cases hf : m.imports.find? fun i => i.values.contains v with
  | some i =>
    have h := List.find?_some hf
    simp only [List.contains_eq_mem, decide_eq_true_eq] at h
    exact .inl ⟨i, List.mem_of_find?_eq_some hf, rfl, h⟩
  | none =>
    refine .inr ⟨rfl, fun i hi => ?_⟩
    have h := List.find?_eq_none.1 hf i hi
    simpa only [List.contains_eq_mem, decide_eq_true_eq] using h

end Asn1
