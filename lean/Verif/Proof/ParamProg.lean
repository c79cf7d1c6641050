import Verif.Proof.ParamCode
/-
From the types to whole specifications.
-/
namespace Asn1

theorem doType_inst {r : PProg} {P : List String} (hr : TidyFind r P) : ∀ (n : Nat) (t t' : PTy),
    t.tidy P [] = true → doType r n t = some t' → Inst r [] t t' := by
  intro n
  induction n with
  | zero => intro t t' _ h; simp [doType] at h
  | succ n ih =>
    intro t t' hti h
    obtain ⟨k, cs⟩ := t
    simp only [PTy.tidy, Bool.and_eq_true] at hti
    have hfree : cs.all (PCon.allNames (free P)) = true :=
      pcons_mono (fun n h => by simpa [own] using h) cs hti.2
    have hc : subCons [] cs = some cs := subCons_id [] (free P) (fun _ _ => rfl) cs hfree
    simp only [doType] at h
    cases k with
    | base b => simp only [Option.some.injEq] at h; subst h; exact .base hc
    | seqOf t =>
      simp only [Option.map_eq_some_iff] at h
      obtain ⟨t1, h1, rfl⟩ := h
      simp only [PKind.tidy] at hti
      exact .seqOf hc (ih t t1 hti.1 h1)
    | seq ch =>
      simp only [Option.map_eq_some_iff] at h
      obtain ⟨ch', hch, rfl⟩ := h
      simp only [PKind.tidy] at hti
      obtain ⟨h1, h2⟩ := mapChildren_spec ch ch' hch
      refine .seq hc h1 (fun i c c' hi hi' => ih _ _ (tidyAll_getElem hti.1 i c hi).1
        (h2 i c c' hi hi').1) ?_
      intro i c c' hi hi'
      have h3 := (h2 i c c' hi hi').2
      rw [cloneOpt_id [] (free P) (fun _ _ => rfl) c.opt
        (popt_mono (fun n h => by simpa [own] using h) _ (tidyAll_getElem hti.1 i c hi).2)]
      exact h3
    | choice ch =>
      simp only [Option.map_eq_some_iff] at h
      obtain ⟨ch', hch, rfl⟩ := h
      simp only [PKind.tidy] at hti
      obtain ⟨h1, h2⟩ := mapChildren_spec ch ch' hch
      refine .choice hc h1 (fun i c c' hi hi' => ih _ _ (tidyAll_getElem hti.1 i c hi).1
        (h2 i c c' hi hi').1) ?_
      intro i c c' hi hi'
      have h3 := (h2 i c c' hi hi').2
      rw [cloneOpt_id [] (free P) (fun _ _ => rfl) c.opt
        (popt_mono (fun n h => by simpa [own] using h) _ (tidyAll_getElem hti.1 i c hi).2)]
      exact h3
    | ref md ts args =>
      cases n with
      | zero => simp [specType] at h
      | succ n =>
        cases args with
        | nil =>
          simp only [specType, Option.bind_eq_some_iff] at h
          obtain ⟨tas, _, h⟩ := h
          split at h
          · simp only [Option.some.injEq] at h; subst h; exact .plain hc rfl
          · simp at h
        | cons a as =>
          simp only [specType, Option.map_eq_some_iff] at h
          obtain ⟨t1, h1, rfl⟩ := h
          simp only [PKind.tidy] at hti
          have hall := List.all_eq_true.1 hti.1
          have hI := (code_inst hr n).2.1 [] [] md ts (a :: as) t1
            ⟨by intro p hp; simp at hp, .inr ⟨rfl, fun b hb => free_of_argTidy b (hall b hb)⟩⟩ h1
          exact hI.inst (by simp) hc

theorem doTasses_find {r : PProg} {n : Nat} (ts : String) : ∀ (l l' : List PTas),
    doTasses r n l = some l' →
    (l.find? (fun t => t.name == ts) = none ∧ l'.find? (fun t => t.name == ts) = none) ∨
    ∃ t b, l.find? (fun t => t.name == ts) = some t ∧ doType r n t.body = some b ∧
      l'.find? (fun t => t.name == ts) = some ⟨t.name, [], b⟩
  | [], l', h => by simp only [doTasses, Option.some.injEq] at h; subst h; exact .inl ⟨rfl, rfl⟩
  | t :: l, l', h => by
    simp only [doTasses, Option.bind_eq_some_iff, Option.map_eq_some_iff] at h
    obtain ⟨b, hb, l1, h1, rfl⟩ := h
    by_cases hn : t.name = ts
    · refine .inr ⟨t, b, ?_, hb, ?_⟩ <;> simp [List.find?, hn]
    · have hf : (t.name == ts) = false := by simpa using hn
      simpa [List.find?, hf] using doTasses_find ts l l1 h1

theorem doModules_find {r : PProg} {n : Nat} (md : String) : ∀ (l l' : List PModule),
    doModules r n l = some l' →
    (l.find? (fun m => m.name == md) = none ∧ l'.find? (fun m => m.name == md) = none) ∨
    ∃ m ts, l.find? (fun m => m.name == md) = some m ∧
      doTasses r n (m.types.filter fun t => t.params.length == 0) = some ts ∧
      l'.find? (fun m => m.name == md) = some ⟨m.name, ts⟩
  | [], l', h => by simp only [doModules, Option.some.injEq] at h; subst h; exact .inl ⟨rfl, rfl⟩
  | m :: l, l', h => by
    simp only [doModules, Option.bind_eq_some_iff, Option.map_eq_some_iff] at h
    obtain ⟨b, hb, l1, h1, rfl⟩ := h
    by_cases hn : m.name = md
    · refine .inr ⟨m, b, ?_, hb, ?_⟩ <;> simp [List.find?, hn]
    · have hf : (m.name == md) = false := by simpa using hn
      simpa [List.find?, hf] using doModules_find md l l1 h1

theorem find_unique {ts : String} {l : List PTas} (hn : (l.map PTas.name).Nodup) {t : PTas}
    (hm : t ∈ l) (ht : t.name = ts) : l.find? (fun t => t.name == ts) = some t := by
  induction l with
  | nil => simp at hm
  | cons a l ih =>
    simp only [List.map_cons, List.nodup_cons] at hn
    rcases List.mem_cons.1 hm with rfl | hm
    · simp [List.find?, ht]
    · have : a.name ≠ ts := by
        intro h
        exact hn.1 (List.mem_map.2 ⟨t, hm, by rw [ht, h]⟩)
      have hf : (a.name == ts) = false := by simpa using this
      simp only [List.find?, hf]
      exact ih hn.2 hm

theorem find_mem {r : PProg} {md ts : String} {tas : PTas} (h : r.find md ts = some tas) :
    ∃ m ∈ r, tas ∈ m.types := by
  simp only [PProg.find, Option.bind_eq_some_iff] at h
  obtain ⟨m, hm, ht⟩ := h
  exact ⟨m, List.mem_of_find?_eq_some hm, List.mem_of_find?_eq_some ht⟩

theorem tidyFind {r : PProg} (h : r.Tidy) : TidyFind r r.dummies where
  body md ts tas hf := by
    obtain ⟨m, hm, ht⟩ := find_mem hf
    exact (h m hm).2 tas ht
  sub md ts tas hf p hp := by
    obtain ⟨m, hm, ht⟩ := find_mem hf
    exact List.mem_flatMap.2 ⟨m, hm, List.mem_flatMap.2 ⟨tas, ht, hp⟩⟩

theorem progRel {r r' : PProg} {n : Nat} (ht : r.Tidy) (h : removeParams n r = some r') :
    ProgRel r r' := by
  have hT := tidyFind ht
  have body : ∀ md ts tas b, r.find md ts = some tas → tas.params = [] →
      doType r n tas.body = some b → Inst r [] tas.body b ∧ b.argFree = true := by
    intro md ts tas b hf hp hb
    have htd := hT.body md ts tas hf
    rw [hp] at htd
    have hi := doType_inst hT n _ _ htd hb
    exact ⟨hi, (inst_closed hT hi [] rfl (closed_nil _) htd).2⟩
  constructor
  · intro md ts tas hf hp
    have hf0 := hf
    simp only [PProg.find, Option.bind_eq_some_iff] at hf
    obtain ⟨m, hm, htas⟩ := hf
    rcases doModules_find md r r' h with ⟨h1, _⟩ | ⟨m', tss, h1, h2, h3⟩
    · rw [h1] at hm; simp at hm
    · rw [h1] at hm; simp only [Option.some.injEq] at hm; subst hm
      have hmem : tas ∈ m'.types.filter fun t => t.params.length == 0 := by
        simp [List.mem_filter, List.mem_of_find?_eq_some htas, hp]
      have hnd := (ht m' (List.mem_of_find?_eq_some h1)).1
      have hname : tas.name = ts := by simpa using List.find?_some htas
      have hfil := find_unique (hnd.sublist ((List.filter_sublist).map _)) hmem hname
      rcases doTasses_find ts _ _ h2 with ⟨h4, _⟩ | ⟨t, b, h4, h5, h6⟩
      · rw [h4] at hfil; simp at hfil
      · rw [h4] at hfil; simp only [Option.some.injEq] at hfil; subst hfil
        refine ⟨⟨t.name, [], b⟩, ?_, rfl, (body md ts t b hf0 hp h5).1⟩
        simp only [PProg.find, h3, Option.bind_some]
        exact h6
  · intro md ts tas' hf
    simp only [PProg.find, Option.bind_eq_some_iff] at hf
    obtain ⟨m, hm, htas⟩ := hf
    rcases doModules_find md r r' h with ⟨_, h1⟩ | ⟨m', tss, h1, h2, h3⟩
    · rw [h1] at hm; simp at hm
    · rw [h3] at hm; simp only [Option.some.injEq] at hm; subst hm
      rcases doTasses_find ts _ _ h2 with ⟨_, h4⟩ | ⟨t, b, h4, h5, h6⟩
      · rw [h4] at htas; simp at htas
      · rw [h6] at htas; simp only [Option.some.injEq] at htas; subst htas
        have hmem := List.mem_of_find?_eq_some h4
        simp only [List.mem_filter, beq_iff_eq, List.length_eq_zero_iff] at hmem
        have hname : t.name = ts := by simpa using List.find?_some h4
        have hnd := (ht m' (List.mem_of_find?_eq_some h1)).1
        have hfind : r.find md ts = some t := by
          simp only [PProg.find, h1, Option.bind_some]
          exact find_unique hnd hmem.1 hname
        exact ⟨t, hfind, hmem.2, rfl, (body md ts t b hfind hmem.2 h5).1,
          (body md ts t b hfind hmem.2 h5).2⟩

end Asn1
