import Verif.Proof.Param
/-
The compiler's copies are substitutions, for tidy specifications.
-/
namespace Asn1

/-- The names that are no dummy references. -/
abbrev free (P : List String) : String → Bool := fun n => !P.contains n
/-- The names allowed in a body with the dummy references `ps`. -/
abbrev own (P : List String) (ps : List PParam) : String → Bool :=
  fun n => (ps.map PParam.name).contains n || !P.contains n

/-! ## Lists of children and of actual parameters -/

theorem mapChildren_spec {f : PTy → Option PTy} {g : POpt → Option POpt} :
    ∀ (ch ch' : List PChild), mapChildren f g ch = some ch' →
    ch'.map PChild.name = ch.map PChild.name ∧
    ∀ (i : Nat) c c', ch[i]? = some c → ch'[i]? = some c' →
      f c.ty = some c'.ty ∧ g c.opt = some c'.opt
  | [], ch', h => by
    simp only [mapChildren, Option.some.injEq] at h; subst h
    exact ⟨rfl, by intro i c c' h; simp at h⟩
  | .mk n t o :: cs, ch', h => by
    simp only [mapChildren, Option.bind_eq_some_iff, Option.map_eq_some_iff] at h
    obtain ⟨t', ht, o', ho, cs', hc, rfl⟩ := h
    obtain ⟨h1, h2⟩ := mapChildren_spec cs cs' hc
    refine ⟨by simp [h1, PChild.name], ?_⟩
    intro i c c' hi hi'
    cases i with
    | zero =>
      simp only [List.getElem?_cons_zero, Option.some.injEq] at hi hi'
      subst hi; subst hi'; exact ⟨ht, ho⟩
    | succ i => exact h2 i c c' (by simpa using hi) (by simpa using hi')

theorem mapArgs_spec {f : PArg → Option PSub} : ∀ (args : List PArg) (as : List PSub),
    mapArgs f args = some as → as.length = args.length ∧
    ∀ (i : Nat) a b, args[i]? = some a → as[i]? = some b → f a = some b
  | [], as, h => by
    simp only [mapArgs, Option.some.injEq] at h; subst h
    exact ⟨rfl, by intro i c c' h; simp at h⟩
  | a :: args, as, h => by
    simp only [mapArgs, Option.bind_eq_some_iff, Option.map_eq_some_iff] at h
    obtain ⟨b, hb, bs, hbs, rfl⟩ := h
    obtain ⟨h1, h2⟩ := mapArgs_spec args bs hbs
    refine ⟨by simp [h1], ?_⟩
    intro i c c' hi hi'
    cases i with
    | zero =>
      simp only [List.getElem?_cons_zero, Option.some.injEq] at hi hi'
      subst hi; subst hi'; exact hb
    | succ i => exact h2 i c c' (by simpa using hi) (by simpa using hi')

theorem namesAll_getElem {q : String → Bool} : ∀ {ch : List PChild},
    PChild.allNamesAll q ch = true → ∀ (i : Nat) c, ch[i]? = some c →
    c.ty.allNames q = true ∧ c.opt.allNames q = true
  | [], _, i, c, hc => by simp at hc
  | .mk n t o :: cs, h, i, c, hc => by
    simp only [PChild.allNamesAll, Bool.and_eq_true] at h
    cases i with
    | zero =>
      simp only [List.getElem?_cons_zero, Option.some.injEq] at hc
      subst hc; exact ⟨h.1.1, h.1.2⟩
    | succ i => exact namesAll_getElem h.2 i c (by simpa using hc)

theorem namesAll_of_getElem {q : String → Bool} : ∀ {ch : List PChild},
    (∀ (i : Nat) c, ch[i]? = some c → c.ty.allNames q = true ∧ c.opt.allNames q = true) →
    PChild.allNamesAll q ch = true
  | [], _ => rfl
  | .mk n t o :: cs, h => by
    have h0 := h 0 _ rfl
    simp only [PChild.allNamesAll, Bool.and_eq_true]
    exact ⟨⟨h0.1, h0.2⟩, namesAll_of_getElem fun i c hc => h (i + 1) c (by simpa using hc)⟩

theorem argFreeAll_of_getElem : ∀ {ch : List PChild},
    (∀ (i : Nat) c, ch[i]? = some c → c.ty.argFree = true) → PChild.argFreeAll ch = true
  | [], _ => rfl
  | .mk n t o :: cs, h => by
    simp only [PChild.argFreeAll, Bool.and_eq_true]
    exact ⟨h 0 _ rfl, argFreeAll_of_getElem fun i c hc => h (i + 1) c (by simpa using hc)⟩

theorem tidyAll_getElem {P : List String} {ps : List PParam} : ∀ {ch : List PChild},
    PChild.tidyAll P ps ch = true → ∀ (i : Nat) c, ch[i]? = some c →
    c.ty.tidy P ps = true ∧ c.opt.allNames (own P ps) = true
  | [], _, i, c, hc => by simp at hc
  | .mk n t o :: cs, h, i, c, hc => by
    simp only [PChild.tidyAll, Bool.and_eq_true] at h
    cases i with
    | zero =>
      simp only [List.getElem?_cons_zero, Option.some.injEq] at hc
      subst hc; exact ⟨h.1.1, h.1.2⟩
    | succ i => exact tidyAll_getElem h.2 i c (by simpa using hc)

theorem argNamesAll_iff {q : String → Bool} {as : List PArg} :
    PArg.allNamesAll q as = true ↔ ∀ a ∈ as, a.allNames q = true := by
  induction as with
  | nil => simp [PArg.allNamesAll]
  | cons a as ih => simp [PArg.allNamesAll, ih]

theorem simpleAll_iff {as : List PArg} :
    PArg.simpleAll as = true ↔ ∀ a ∈ as, a.simple = true := by
  induction as with
  | nil => simp [PArg.simpleAll]
  | cons a as ih => simp [PArg.simpleAll, ih]

theorem refNames {q : String → Bool} {md ts : String} {a : PArg} {as : List PArg} :
    PKind.allNames q (.ref md ts (a :: as)) = true ↔
      q ts = true ∧ ∀ b ∈ a :: as, b.allNames q = true := by
  simp only [PKind.allNames, Bool.and_eq_true, argNamesAll_iff, List.forall_mem_cons, and_assoc]

/-! ## A type without dummy references -/

mutual
theorem inst_reflT {r : PProg} {A : PNames} {q : String → Bool}
    (hq : ∀ n, q n = true → A.lookup n = none) : (t : PTy) → t.allNames q = true →
    t.argFree = true → Inst r A t t
  | .mk k cs, h, hf => by
    simp only [PTy.allNames, Bool.and_eq_true] at h
    have hc := subCons_id A q hq cs h.2
    simp only [PTy.argFree] at hf
    exact inst_reflK hq k cs hc h.1 hf
theorem inst_reflK {r : PProg} {A : PNames} {q : String → Bool}
    (hq : ∀ n, q n = true → A.lookup n = none) : (k : PKind) → (cs : List PCon) →
    subCons A cs = some cs → k.allNames q = true → k.argFree = true →
    Inst r A (.mk k cs) (.mk k cs)
  | .base b, cs, hc, h, hf => .base hc
  | .seqOf t, cs, hc, h, hf => by
    simp only [PKind.allNames] at h
    simp only [PKind.argFree] at hf
    exact .seqOf hc (inst_reflT hq t h hf)
  | .ref md ts [], cs, hc, h, hf => by
    simp only [PKind.allNames] at h
    exact .plain hc (hq ts h)
  | .ref md ts (a :: as), cs, hc, h, hf => by simp [PKind.argFree] at hf
  | .seq ch, cs, hc, h, hf => by
    simp only [PKind.allNames] at h
    simp only [PKind.argFree] at hf
    have hch := inst_reflC (r := r) (A := A) hq ch h hf
    refine .seq hc rfl ?_ ?_
    · intro i c c' h1 h2
      rw [h1] at h2; simp only [Option.some.injEq] at h2; subst h2
      exact hch i c h1
    · intro i c c' h1 h2
      rw [h1] at h2; simp only [Option.some.injEq] at h2; subst h2
      exact cloneOpt_id A q hq _ (namesAll_getElem h i c h1).2
  | .choice ch, cs, hc, h, hf => by
    simp only [PKind.allNames] at h
    simp only [PKind.argFree] at hf
    have hch := inst_reflC (r := r) (A := A) hq ch h hf
    refine .choice hc rfl ?_ ?_
    · intro i c c' h1 h2
      rw [h1] at h2; simp only [Option.some.injEq] at h2; subst h2
      exact hch i c h1
    · intro i c c' h1 h2
      rw [h1] at h2; simp only [Option.some.injEq] at h2; subst h2
      exact cloneOpt_id A q hq _ (namesAll_getElem h i c h1).2
theorem inst_reflC {r : PProg} {A : PNames} {q : String → Bool}
    (hq : ∀ n, q n = true → A.lookup n = none) : (ch : List PChild) →
    PChild.allNamesAll q ch = true → PChild.argFreeAll ch = true →
    ∀ (i : Nat) c, ch[i]? = some c → Inst r A c.ty c.ty
  | [], h, hf, i, c, hc => by simp at hc
  | .mk n t o :: cs, h, hf, i, c, hc => by
    simp only [PChild.allNamesAll, Bool.and_eq_true] at h
    simp only [PChild.argFreeAll, Bool.and_eq_true] at hf
    cases i with
    | zero =>
      simp only [List.getElem?_cons_zero, Option.some.injEq] at hc
      subst hc; exact inst_reflT hq t h.1.1 hf.1
    | succ i => exact inst_reflC hq cs h.2 hf.2 i c (by simpa using hc)
end

/-- A type without dummy references is the same under all actual parameters. -/
theorem inst_nil {r : PProg} {A A0 : PNames} {q : String → Bool} {t t' : PTy}
    (hi : Inst r A0 t t') (hq : ∀ n, q n = true → A.lookup n = none) :
    A0 = [] → t.allNames q = true → Inst r A t t' := by
  have hq0 : ∀ n, q n = true → List.lookup n ([] : PNames) = none := fun _ _ => rfl
  have same : ∀ {cs cs' : List PCon}, cs.all (PCon.allNames q) = true → subCons [] cs = some cs' →
      subCons A cs = some cs' := by
    intro cs cs' h1 h2
    rw [subCons_id [] q hq0 cs h1] at h2
    rw [subCons_id A q hq cs h1]; exact h2
  have sameO : ∀ {o o' : POpt}, o.allNames q = true → cloneOpt [] o = some o' →
      cloneOpt A o = some o' := by
    intro o o' h1 h2
    rw [cloneOpt_id [] q hq0 o h1] at h2
    rw [cloneOpt_id A q hq o h1]; exact h2
  induction hi with
  | base hc =>
    rintro rfl h
    simp only [PTy.allNames, Bool.and_eq_true] at h
    exact .base (same h.2 hc)
  | seq hc hn ht ho ih =>
    rintro rfl h
    simp only [PTy.allNames, PKind.allNames, Bool.and_eq_true] at h
    exact .seq (same h.2 hc) hn
      (fun i c c' h1 h2 => ih i c c' h1 h2 rfl (namesAll_getElem h.1 i c h1).1)
      (fun i c c' h1 h2 => sameO (namesAll_getElem h.1 i c h1).2 (ho i c c' h1 h2))
  | choice hc hn ht ho ih =>
    rintro rfl h
    simp only [PTy.allNames, PKind.allNames, Bool.and_eq_true] at h
    exact .choice (same h.2 hc) hn
      (fun i c c' h1 h2 => ih i c c' h1 h2 rfl (namesAll_getElem h.1 i c h1).1)
      (fun i c c' h1 h2 => sameO (namesAll_getElem h.1 i c h1).2 (ho i c c' h1 h2))
  | seqOf hc ht ih =>
    rintro rfl h
    simp only [PTy.allNames, PKind.allNames, Bool.and_eq_true] at h
    exact .seqOf (same h.2 hc) (ih rfl h.1)
  | plain hc hl =>
    rintro rfl h
    simp only [PTy.allNames, PKind.allNames, Bool.and_eq_true] at h
    exact .plain (same h.2 hc) (hq _ h.1)
  | param hc hl => rintro rfl h; simp [List.lookup] at hl
  | @inst A1 md ts args cs cs' tas as A' t hc h0 hf hlen hv hty ht hA hb iht ihb =>
    rintro rfl h
    cases args with
    | nil => exact absurd rfl h0
    | cons a args =>
      simp only [PTy.allNames, Bool.and_eq_true] at h
      have hall := (refNames.1 h.1).2
      refine .inst (same h.2 hc) h0 hf hlen ?_ hty ?_ hA hb
      · intro i v b h1 h2
        obtain ⟨v', rfl, hv'⟩ := hv i v b h1 h2
        have hn : v.allNames q = true := by
          simpa [PArg.allNames] using hall _ (List.mem_of_getElem? h1)
        rw [cloneVal_id [] q hq0 v hn] at hv'
        exact ⟨v', rfl, by rw [cloneVal_id A q hq v hn]; exact hv'⟩
      · intro i s x h1 h2
        have hn : s.allNames q = true := by
          simpa [PArg.allNames] using hall _ (List.mem_of_getElem? h1)
        exact iht i s x h1 h2 rfl hn

/-! ## Tidiness of types without dummy references -/

theorem own_of_free {P : List String} {ps : List PParam} {n : String} (h : free P n = true) :
    own P ps n = true := by
  simp only [free] at h
  simp only [own, h, Bool.or_true]

mutual
theorem pval_mono {p q : String → Bool} (hpq : ∀ n, p n = true → q n = true) :
    (v : PVal) → v.allNames p = true → v.allNames q = true
  | .int _, _ => rfl
  | .str _, _ => rfl
  | .name _ n, h => by simp only [PVal.allNames] at h ⊢; exact hpq n h
  | .list vs, h => by simp only [PVal.allNames] at h ⊢; exact pvals_mono hpq vs h
  | .record vs, h => by simp only [PVal.allNames] at h ⊢; exact pfields_mono hpq vs h
  | .alt _ v, h => by simp only [PVal.allNames] at h ⊢; exact pval_mono hpq v h
theorem pvals_mono {p q : String → Bool} (hpq : ∀ n, p n = true → q n = true) :
    (v : List PVal) → PVal.allNamesList p v = true → PVal.allNamesList q v = true
  | [], _ => rfl
  | v :: vs, h => by
    simp only [PVal.allNamesList, Bool.and_eq_true] at h ⊢
    exact ⟨pval_mono hpq v h.1, pvals_mono hpq vs h.2⟩
theorem pfields_mono {p q : String → Bool} (hpq : ∀ n, p n = true → q n = true) :
    (v : List (String × PVal)) → PVal.allNamesFields p v = true → PVal.allNamesFields q v = true
  | [], _ => rfl
  | (_, v) :: vs, h => by
    simp only [PVal.allNamesFields, Bool.and_eq_true] at h ⊢
    exact ⟨pval_mono hpq v h.1, pfields_mono hpq vs h.2⟩
end

theorem pcons_mono {p q : String → Bool} (hpq : ∀ n, p n = true → q n = true)
    (cs : List PCon) (h : cs.all (PCon.allNames p) = true) : cs.all (PCon.allNames q) = true := by
  have hA : PNames.Closed q [] := ⟨by intro n v h; simp [List.lookup] at h,
    by intro n v h; simp [List.lookup] at h⟩
  exact subCons_names [] p q hA (fun n h _ => hpq n h) cs cs h
    (subCons_id [] p (fun _ _ => rfl) cs h)

theorem popt_mono {p q : String → Bool} (hpq : ∀ n, p n = true → q n = true)
    (o : POpt) (h : o.allNames p = true) : o.allNames q = true := by
  cases o with
  | default v => simp only [POpt.allNames] at h ⊢; exact pval_mono hpq v h
  | _ => rfl

mutual
theorem tidyT_of_free {P : List String} {ps : List PParam} : (t : PTy) → t.allNames (free P) = true →
    t.argFree = true → t.tidy P ps = true
  | .mk k cs, h, hf => by
    simp only [PTy.allNames, Bool.and_eq_true] at h
    simp only [PTy.argFree] at hf
    simp only [PTy.tidy, Bool.and_eq_true]
    exact ⟨tidyK_of_free k h.1 hf, pcons_mono (fun n => own_of_free) cs h.2⟩
theorem tidyK_of_free {P : List String} {ps : List PParam} : (k : PKind) → k.allNames (free P) = true →
    k.argFree = true → k.tidy P ps = true
  | .base _, _, _ => rfl
  | .seqOf t, h, hf => by
    simp only [PKind.allNames] at h
    simp only [PKind.argFree] at hf
    simp only [PKind.tidy]; exact tidyT_of_free t h hf
  | .ref md ts [], h, hf => by
    simp only [PKind.allNames] at h
    simp only [PKind.tidy]; exact own_of_free h
  | .ref md ts (a :: as), h, hf => by simp [PKind.argFree] at hf
  | .seq ch, h, hf => by
    simp only [PKind.allNames] at h
    simp only [PKind.argFree] at hf
    simp only [PKind.tidy]; exact tidyC_of_free ch h hf
  | .choice ch, h, hf => by
    simp only [PKind.allNames] at h
    simp only [PKind.argFree] at hf
    simp only [PKind.tidy]; exact tidyC_of_free ch h hf
theorem tidyC_of_free {P : List String} {ps : List PParam} : (ch : List PChild) →
    PChild.allNamesAll (free P) ch = true → PChild.argFreeAll ch = true →
    PChild.tidyAll P ps ch = true
  | [], _, _ => rfl
  | .mk n t o :: cs, h, hf => by
    simp only [PChild.allNamesAll, Bool.and_eq_true] at h
    simp only [PChild.argFreeAll, Bool.and_eq_true] at hf
    simp only [PChild.tidyAll, Bool.and_eq_true]
    exact ⟨⟨tidyT_of_free t h.1.1 hf.1, popt_mono (fun n => own_of_free) o h.1.2⟩,
      tidyC_of_free cs h.2 hf.2⟩
end

/-- Without dummy references, an actual parameter is tidy everywhere. -/
theorem argTidy_of_free {P : List String} {ps : List PParam} (a : PArg) (hs : a.simple = true)
    (hf : a.allNames (free P) = true) : a.tidy P ps = true := by
  unfold PArg.tidy
  split
  · rename_i md p
    simp only [PArg.allNames, PTy.allNames, PKind.allNames, Bool.and_eq_true] at hf
    simp only [Bool.or_eq_true]
    exact .inr hf.1
  · simp only [Bool.and_eq_true]; exact ⟨hs, hf⟩

/-- A tidy actual parameter that is a type is a tidy type. -/
theorem tidyT_of_arg {P : List String} {ps : List PParam} (t : PTy) (h : (PArg.type t).tidy P ps = true) :
    t.tidy P ps = true := by
  unfold PArg.tidy at h
  split at h
  · rename_i md p heq
    simp only [PArg.type.injEq] at heq; subst heq
    simp only [PTy.tidy, PKind.tidy, Bool.and_eq_true]
    refine ⟨?_, rfl⟩
    simp only [Bool.or_eq_true, Bool.and_eq_true, List.contains_iff_mem] at h ⊢
    rcases h with h | h
    · exact .inl (List.mem_map.2 ⟨_, h.1, rfl⟩)
    · exact .inr h
  · rename_i a _
    simp only [Bool.and_eq_true, PArg.allNames] at h
    obtain ⟨hs, hf⟩ := h
    obtain ⟨k, cs⟩ := t
    cases k with
    | ref md ts args =>
      cases args with
      | nil => exact tidyT_of_free _ hf rfl
      | cons a as =>
        simp only [PTy.allNames, Bool.and_eq_true] at hf
        have hall := (refNames.1 hf.1).2
        simp only [PArg.simple, Bool.and_eq_true, simpleAll_iff] at hs
        simp only [PTy.tidy, PKind.tidy, Bool.and_eq_true, List.all_eq_true]
        refine ⟨?_, ?_⟩
        · intro b hb
          refine argTidy_of_free b ?_ (hall b hb)
          rcases List.mem_cons.1 hb with rfl | hb
          · exact hs.1
          · exact hs.2 b hb
        · exact List.all_eq_true.1 (pcons_mono (fun n => own_of_free (P := P) (ps := ps)) cs hf.2)
    | base b => exact tidyT_of_free _ hf (by simpa [PArg.simple] using hs)
    | seq b => exact tidyT_of_free _ hf (by simpa [PArg.simple] using hs)
    | choice b => exact tidyT_of_free _ hf (by simpa [PArg.simple] using hs)
    | seqOf b => exact tidyT_of_free _ hf (by simpa [PArg.simple] using hs)

/-- At the top, where no dummy references are in force, a tidy actual parameter has none. -/
theorem free_of_argTidy {P : List String} (a : PArg) (h : a.tidy P [] = true) :
    a.simple = true ∧ a.allNames (free P) = true := by
  unfold PArg.tidy at h
  split at h
  · rename_i md p
    refine ⟨rfl, ?_⟩
    simp only [PArg.allNames, PTy.allNames, PKind.allNames, Bool.and_eq_true]
    exact ⟨by simpa [free] using h, rfl⟩
  · simpa only [Bool.and_eq_true] using h

/-! ## The result of a substitution has no dummy references -/

theorem nameArgs_kind : ∀ (ps : List PParam) (as : List PSub) (A : PNames),
    nameArgs ps as = some A → ∀ n v, A.lookup n = some (.val v) → PParam.value n ∈ ps
  | [], [], A, h => by
    simp only [nameArgs, Option.some.injEq] at h; subst h
    intro n s h; simp [List.lookup] at h
  | [], _ :: _, A, h => by simp [nameArgs] at h
  | _ :: _, [], A, h => by simp [nameArgs] at h
  | .type m :: ps, .val v :: as, A, h => by simp [nameArgs] at h
  | .value m :: ps, .type v :: as, A, h => by simp [nameArgs] at h
  | .type m :: ps, .type v :: as, A, h => by
    simp only [nameArgs, Option.map_eq_some_iff] at h
    obtain ⟨A', hA, rfl⟩ := h
    intro n s hs
    by_cases hn : n = m
    · subst hn; simp [List.lookup] at hs
    · have hb : (n == m) = false := by simpa using hn
      simp only [List.lookup, hb] at hs
      exact List.mem_cons_of_mem _ (nameArgs_kind ps as A' hA n s hs)
  | .value m :: ps, .val v :: as, A, h => by
    simp only [nameArgs, Option.map_eq_some_iff] at h
    obtain ⟨A', hA, rfl⟩ := h
    intro n s hs
    by_cases hn : n = m
    · subst hn; simp
    · have hb : (n == m) = false := by simpa using hn
      simp only [List.lookup, hb] at hs
      exact List.mem_cons_of_mem _ (nameArgs_kind ps as A' hA n s hs)

theorem nameArgs_dom : ∀ (ps : List PParam) (as : List PSub) (A : PNames),
    nameArgs ps as = some A → A.map (·.1) = ps.map PParam.name ∧
      ∀ n s, A.lookup n = some s → s ∈ as
  | [], [], A, h => by
    simp only [nameArgs, Option.some.injEq] at h; subst h
    exact ⟨rfl, by intro n s h; simp [List.lookup] at h⟩
  | [], _ :: _, A, h => by simp [nameArgs] at h
  | _ :: _, [], A, h => by simp [nameArgs] at h
  | .type m :: ps, .val v :: as, A, h => by simp [nameArgs] at h
  | .value m :: ps, .type v :: as, A, h => by simp [nameArgs] at h
  | .type m :: ps, .type v :: as, A, h => by
    simp only [nameArgs, Option.map_eq_some_iff] at h
    obtain ⟨A', hA, rfl⟩ := h
    obtain ⟨h1, h2⟩ := nameArgs_dom ps as A' hA
    refine ⟨by simp [h1, PParam.name], ?_⟩
    intro n s hs
    by_cases hn : n = m
    · subst hn; simp [List.lookup] at hs; simp [hs]
    · have hb : (n == m) = false := by simpa using hn
      simp only [List.lookup, hb] at hs
      exact List.mem_cons_of_mem _ (h2 n s hs)
  | .value m :: ps, .val v :: as, A, h => by
    simp only [nameArgs, Option.map_eq_some_iff] at h
    obtain ⟨A', hA, rfl⟩ := h
    obtain ⟨h1, h2⟩ := nameArgs_dom ps as A' hA
    refine ⟨by simp [h1, PParam.name], ?_⟩
    intro n s hs
    by_cases hn : n = m
    · subst hn; simp [List.lookup] at hs; simp [hs]
    · have hb : (n == m) = false := by simpa using hn
      simp only [List.lookup, hb] at hs
      exact List.mem_cons_of_mem _ (h2 n s hs)

theorem lookup_none_iff {β : Type} : ∀ (A : List (String × β)) (n : String),
    A.lookup n = none ↔ n ∉ A.map (·.1)
  | [], n => by simp [List.lookup]
  | (m, b) :: A, n => by
    by_cases hn : n = m
    · subst hn; simp [List.lookup]
    · have hb : (n == m) = false := by simpa using hn
      simp [List.lookup, hb, lookup_none_iff A n, hn]

/-- The bodies are tidy, and `P` has all dummy references. -/
structure TidyFind (r : PProg) (P : List String) : Prop where
  body : ∀ md ts tas, r.find md ts = some tas → tas.body.tidy P tas.params = true
  sub : ∀ md ts tas, r.find md ts = some tas → ∀ p ∈ tas.params.map PParam.name, p ∈ P

theorem own_to_free {P : List String} {ps : List PParam} {A : PNames} (hd : A.map (·.1) = ps.map PParam.name) :
    ∀ n, own P ps n = true → A.lookup n = none → free P n = true := by
  intro n h hl
  rw [lookup_none_iff, hd] at hl
  simp only [own, Bool.or_eq_true, List.contains_iff_mem] at h
  rcases h with h | h
  · exact absurd h hl
  · exact h

theorem inst_closed {r : PProg} {P : List String} (hr : TidyFind r P) {A : PNames} {t t' : PTy}
    (hi : Inst r A t t') : ∀ (ps : List PParam), A.map (·.1) = ps.map PParam.name → A.Closed (free P) → t.tidy P ps = true →
    t'.allNames (free P) = true ∧ t'.argFree = true := by
  induction hi with
  | base hc =>
    intro ps hd hA h
    simp only [PTy.tidy, Bool.and_eq_true] at h
    refine ⟨?_, rfl⟩
    simp only [PTy.allNames, PKind.allNames, Bool.true_and]
    exact subCons_names _ _ _ hA (own_to_free hd) _ _ h.2 hc
  | @seq A ch ch' cs cs' hc hn ht ho ih =>
    intro ps hd hA h
    simp only [PTy.tidy, PKind.tidy, Bool.and_eq_true] at h
    have hcs := subCons_names _ _ _ hA (own_to_free hd) _ _ h.2 hc
    have key : ∀ (i : Nat) c', ch'[i]? = some c' → (c'.ty.allNames (free P) = true ∧
        c'.ty.argFree = true) ∧ c'.opt.allNames (free P) = true := by
      intro i c' hc'
      obtain ⟨c, hci, _⟩ := getElem?_of_map hn.symm hc'
      have hti := tidyAll_getElem h.1 i c hci
      exact ⟨ih i c c' hci hc' ps hd hA hti.1,
        cloneOpt_names _ _ _ hA (own_to_free hd) _ _ hti.2 (ho i c c' hci hc')⟩
    simp only [PTy.allNames, PKind.allNames, PTy.argFree, PKind.argFree, Bool.and_eq_true]
    exact ⟨⟨namesAll_of_getElem fun i c hc => ⟨(key i c hc).1.1, (key i c hc).2⟩, hcs⟩,
      argFreeAll_of_getElem fun i c hc => (key i c hc).1.2⟩
  | @choice A ch ch' cs cs' hc hn ht ho ih =>
    intro ps hd hA h
    simp only [PTy.tidy, PKind.tidy, Bool.and_eq_true] at h
    have hcs := subCons_names _ _ _ hA (own_to_free hd) _ _ h.2 hc
    have key : ∀ (i : Nat) c', ch'[i]? = some c' → (c'.ty.allNames (free P) = true ∧
        c'.ty.argFree = true) ∧ c'.opt.allNames (free P) = true := by
      intro i c' hc'
      obtain ⟨c, hci, _⟩ := getElem?_of_map hn.symm hc'
      have hti := tidyAll_getElem h.1 i c hci
      exact ⟨ih i c c' hci hc' ps hd hA hti.1,
        cloneOpt_names _ _ _ hA (own_to_free hd) _ _ hti.2 (ho i c c' hci hc')⟩
    simp only [PTy.allNames, PKind.allNames, PTy.argFree, PKind.argFree, Bool.and_eq_true]
    exact ⟨⟨namesAll_of_getElem fun i c hc => ⟨(key i c hc).1.1, (key i c hc).2⟩, hcs⟩,
      argFreeAll_of_getElem fun i c hc => (key i c hc).1.2⟩
  | seqOf hc ht ih =>
    intro ps hd hA h
    simp only [PTy.tidy, PKind.tidy, Bool.and_eq_true] at h
    have hcs := subCons_names _ _ _ hA (own_to_free hd) _ _ h.2 hc
    have h1 := ih ps hd hA h.1
    simp only [PTy.allNames, PKind.allNames, PTy.argFree, PKind.argFree, Bool.and_eq_true]
    exact ⟨⟨h1.1, hcs⟩, h1.2⟩
  | plain hc hl =>
    intro ps hd hA h
    simp only [PTy.tidy, PKind.tidy, Bool.and_eq_true] at h
    have hcs := subCons_names _ _ _ hA (own_to_free hd) _ _ h.2 hc
    simp only [PTy.allNames, PKind.allNames, PTy.argFree, PKind.argFree, Bool.and_eq_true]
    exact ⟨⟨own_to_free hd _ h.1 hl, hcs⟩, trivial⟩
  | @param A md ts cs cs' x hc hl =>
    intro ps hd hA h
    simp only [PTy.tidy, PKind.tidy, Bool.and_eq_true] at h
    have hcs := subCons_names _ _ _ hA (own_to_free hd) _ _ h.2 hc
    obtain ⟨hx, hf⟩ := hA.2 ts x hl
    obtain ⟨k, xc⟩ := x
    simp only [PTy.allNames, Bool.and_eq_true] at hx
    simp only [PTy.argFree] at hf
    simp only [PTy.allNames, PTy.kind, PTy.cons, PTy.argFree, Bool.and_eq_true, List.all_append]
    exact ⟨⟨hx.1, hx.2, hcs⟩, hf⟩
  | @inst A md ts args cs cs' tas as A' t hc h0 hf hlen hv hty ht hA' hb iht ihb =>
    intro ps hd hA h
    cases args with
    | nil => exact absurd rfl h0
    | cons a args =>
      simp only [PTy.tidy, PKind.tidy, Bool.and_eq_true] at h
      have hcs := subCons_names _ _ _ hA (own_to_free hd) _ _ h.2 hc
      have hall := List.all_eq_true.1 h.1
      obtain ⟨hdom, hmem⟩ := nameArgs_dom _ _ _ hA'
      have hcl : A'.Closed (free P) := by
        have arg : ∀ (i : Nat) b, as[i]? = some b → ∃ e, (a :: args)[i]? = some e ∧
            e.tidy P ps = true := by
          intro i b hi
          have hlt : i < (a :: args).length := by
            rw [← hlen]; exact (List.getElem?_eq_some_iff.1 hi).1
          exact ⟨(a :: args)[i], List.getElem?_eq_getElem hlt, hall _ (List.getElem_mem hlt)⟩
        constructor
        · intro n v hl
          obtain ⟨i, hi⟩ := List.getElem?_of_mem (hmem n _ hl)
          obtain ⟨e, he, hte⟩ := arg i _ hi
          cases e with
          | type s => obtain ⟨x, hx⟩ := hty i s _ he hi; simp at hx
          | val w =>
            obtain ⟨v', hv1, hv2⟩ := hv i w _ he hi
            simp only [PSub.val.injEq] at hv1; subst hv1
            simp only [PArg.tidy, Bool.and_eq_true, PArg.allNames] at hte
            exact cloneVal_names A (free P) (free P) hA (fun n h _ => h) w v hte.2 hv2
        · intro n x hl
          obtain ⟨i, hi⟩ := List.getElem?_of_mem (hmem n _ hl)
          obtain ⟨e, he, hte⟩ := arg i _ hi
          cases e with
          | val w => obtain ⟨v', hv1, hv2⟩ := hv i w _ he hi; simp at hv1
          | type s => exact iht i s x he hi ps hd hA (tidyT_of_arg s hte)
      have h1 := ihb _ hdom hcl (hr.body md ts tas hf)
      obtain ⟨k, xc⟩ := t
      simp only [PTy.allNames, PTy.argFree, Bool.and_eq_true] at h1
      simp only [PTy.allNames, PTy.kind, PTy.cons, PTy.argFree, Bool.and_eq_true, List.all_append]
      exact ⟨⟨h1.1.1, h1.1.2, hcs⟩, h1.2⟩

/-! ## The code -/

/-- What the code makes of an actual parameter is a substitution. -/
def ArgRel (r : PProg) (A : PNames) : PArg → PSub → Prop
  | .val v, .val v' => cloneVal A v = some v'
  | .type s, .type x => Inst r A s x
  | _, _ => False

/-- The instance of a parameterized type. -/
def InstRef (r : PProg) (A : PNames) (md ts : String) (args : List PArg) (t : PTy) : Prop :=
  ∃ tas as A', r.find md ts = some tas ∧ as.length = args.length ∧
    (∀ (i : Nat) a b, args[i]? = some a → as[i]? = some b → ArgRel r A a b) ∧
    nameArgs tas.params as = some A' ∧ Inst r A' tas.body t

theorem InstRef.inst {r : PProg} {A : PNames} {md ts : String} {args : List PArg} {t : PTy}
    (h : InstRef r A md ts args t) (h0 : args ≠ []) {cs cs' : List PCon}
    (hc : subCons A cs = some cs') :
    Inst r A (.mk (.ref md ts args) cs) (.mk t.kind (t.cons ++ cs')) := by
  obtain ⟨tas, as, A', hf, hlen, ha, hA, hb⟩ := h
  refine .inst hc h0 hf hlen ?_ ?_ ?_ hA hb
  · intro i v b h1 h2
    have h3 := ha i _ _ h1 h2
    cases b with
    | type x => simp [ArgRel] at h3
    | val v' => exact ⟨v', rfl, h3⟩
  · intro i s b h1 h2
    have h3 := ha i _ _ h1 h2
    cases b with
    | val x => simp [ArgRel] at h3
    | type x => exact ⟨x, rfl⟩
  · intro i s x h1 h2
    exact ha i _ _ h1 h2

/-- The actual parameters are written inside the body with the dummy references `ps`, or are free
of dummy references and no actual parameters are known. -/
def Where (P : List String) (ps : List PParam) (A : PNames) (args : List PArg) : Prop :=
  (∀ p ∈ ps.map PParam.name, p ∈ P) ∧
  ((A.map (·.1) = ps.map PParam.name ∧ A.Closed (free P) ∧
      (∀ n v, A.lookup n = some (.val v) → PParam.value n ∈ ps) ∧
      ∀ a ∈ args, a.tidy P ps = true) ∨
   (A = [] ∧ ∀ a ∈ args, a.simple = true ∧ a.allNames (free P) = true))

theorem closed_nil (q : String → Bool) : PNames.Closed q [] :=
  ⟨by intro n v h; simp [List.lookup] at h, by intro n v h; simp [List.lookup] at h⟩

theorem free_lookup {P : List String} {ps : List PParam} {A : PNames} (hs : ∀ p ∈ ps.map PParam.name, p ∈ P)
    (hd : A.map (·.1) = ps.map PParam.name) : ∀ n, free P n = true → A.lookup n = none := by
  intro n h
  rw [lookup_none_iff, hd]
  intro hn
  have := hs n hn
  simp [this] at h

theorem code_inst {r : PProg} {P : List String} (hr : TidyFind r P) : ∀ n : Nat,
    (∀ (ps : List PParam) A t t', (∀ p ∈ ps.map PParam.name, p ∈ P) →
      A.map (·.1) = ps.map PParam.name → A.Closed (free P) →
      (∀ n v, A.lookup n = some (.val v) → PParam.value n ∈ ps) →
      t.tidy P ps = true → cloneType r (ps.map PParam.name) n A t = some t' → Inst r A t t') ∧
    (∀ (ps : List PParam) A md ts args t, Where P ps A args →
      specRef r (ps.map PParam.name) n A md ts args = some t → InstRef r A md ts args t) ∧
    (∀ (ps : List PParam) A a b, Where P ps A [a] →
      specArg r (ps.map PParam.name) n A a = some b → ArgRel r A a b) ∧
    (∀ (ps : List PParam) t t', (∀ p ∈ ps.map PParam.name, p ∈ P) →
      (PArg.type t).simple = true → t.allNames (free P) = true →
      specType r (ps.map PParam.name) n t = some t' → Inst r [] t t') := by
  intro n
  induction n with
  | zero =>
    refine ⟨?_, ?_, ?_, ?_⟩
    · intro ps A t t' _ _ _ _ _ h; simp [cloneType] at h
    · intro ps A md ts args t _ h; simp [specRef] at h
    · intro ps A a b _ h; simp [specArg] at h
    · intro ps t t' _ _ _ h; simp [specType] at h
  | succ n ih =>
    obtain ⟨ih1, ih2, ih3, ih4⟩ := ih
    refine ⟨?_, ?_, ?_, ?_⟩
    · intro ps A t t' hs hd hA hkd hti h
      obtain ⟨k, cs⟩ := t
      simp only [PTy.tidy, Bool.and_eq_true] at hti
      simp only [cloneType, Option.bind_eq_some_iff] at h
      obtain ⟨cs', hcs, h⟩ := h
      have hc := cloneCons_sub A cs cs' hcs
      have hfl := free_lookup hs hd
      cases k with
      | base b => simp only [Option.some.injEq] at h; subst h; exact .base hc
      | seq ch =>
        simp only [Option.map_eq_some_iff] at h
        obtain ⟨ch', hch, rfl⟩ := h
        obtain ⟨h1, h2⟩ := mapChildren_spec ch ch' hch
        simp only [PKind.tidy] at hti
        exact .seq hc h1
          (fun i c c' hi hi' => ih1 ps A _ _ hs hd hA hkd (tidyAll_getElem hti.1 i c hi).1
            (h2 i c c' hi hi').1)
          (fun i c c' hi hi' => (h2 i c c' hi hi').2)
      | choice ch =>
        simp only [Option.map_eq_some_iff] at h
        obtain ⟨ch', hch, rfl⟩ := h
        obtain ⟨h1, h2⟩ := mapChildren_spec ch ch' hch
        simp only [PKind.tidy] at hti
        exact .choice hc h1
          (fun i c c' hi hi' => ih1 ps A _ _ hs hd hA hkd (tidyAll_getElem hti.1 i c hi).1
            (h2 i c c' hi hi').1)
          (fun i c c' hi hi' => (h2 i c c' hi hi').2)
      | seqOf t =>
        simp only [Option.map_eq_some_iff] at h
        obtain ⟨t', ht, rfl⟩ := h
        simp only [PKind.tidy] at hti
        exact .seqOf hc (ih1 ps A _ _ hs hd hA hkd hti.1 ht)
      | ref md ts args =>
        cases args with
        | nil =>
          cases hl : A.lookup ts with
          | none =>
            simp only [hl, Option.some.injEq] at h; subst h
            exact .plain hc hl
          | some s =>
            cases s with
            | val v => simp [hl] at h
            | type x =>
              simp only [hl, Option.map_eq_some_iff] at h
              obtain ⟨xc, hx, rfl⟩ := h
              obtain ⟨hxn, _⟩ := hA.2 ts x hl
              obtain ⟨xk, xcs⟩ := x
              simp only [PTy.allNames, Bool.and_eq_true] at hxn
              have h1 := cloneCons_sub A _ _ hx
              rw [PTy.cons, subCons_id A (free P) hfl _ hxn.2] at h1
              simp only [Option.some.injEq] at h1; subst h1
              exact .param hc hl
        | cons a as =>
          simp only [Option.bind_eq_some_iff, Option.map_eq_some_iff] at h
          obtain ⟨t1, h1, tc, h2, rfl⟩ := h
          simp only [PKind.tidy] at hti
          have hI := ih2 ps A md ts (a :: as) t1
            ⟨hs, .inl ⟨hd, hA, hkd, List.all_eq_true.1 hti.1⟩⟩ h1
          have hcl := (inst_closed hr (hI.inst (by simp) (cs := []) (cs' := []) rfl) ps hd hA
            (by simp only [PTy.tidy, PKind.tidy, Bool.and_eq_true]; exact ⟨hti.1, rfl⟩)).1
          simp only [PTy.allNames, List.append_nil, Bool.and_eq_true] at hcl
          have h3 := cloneCons_sub A _ _ h2
          rw [subCons_id A (free P) hfl _ hcl.2] at h3
          simp only [Option.some.injEq] at h3; subst h3
          exact hI.inst (by simp) hc
    · intro ps A md ts args t hw h
      simp only [specRef, Option.bind_eq_some_iff] at h
      obtain ⟨tas, hf, as, has, A', hA', hb⟩ := h
      obtain ⟨hlen, hpt⟩ := mapArgs_spec args as has
      have harg : ∀ (i : Nat) a b, args[i]? = some a → as[i]? = some b → ArgRel r A a b := by
        intro i a b h1 h2
        have hm := List.mem_of_getElem? h1
        refine ih3 ps A a b ⟨hw.1, ?_⟩ (hpt i a b h1 h2)
        rcases hw.2 with ⟨hd, hA, hkd, ha⟩ | ⟨hA, ha⟩
        · exact .inl ⟨hd, hA, hkd, by
            intro c hc; simp only [List.mem_singleton] at hc; subst hc; exact ha c hm⟩
        · exact .inr ⟨hA, by
            intro c hc; simp only [List.mem_singleton] at hc; subst hc; exact ha c hm⟩
      obtain ⟨ps', hd', hA0, htidy⟩ : ∃ ps' : List PParam, A.map (·.1) = ps'.map PParam.name ∧ A.Closed (free P) ∧
          ∀ a ∈ args, a.tidy P ps' = true := by
        rcases hw.2 with ⟨hd, hA, hkd, ha⟩ | ⟨hA, ha⟩
        · exact ⟨ps, hd, hA, ha⟩
        · subst hA
          exact ⟨[], rfl, closed_nil _, fun a h => argTidy_of_free a (ha a h).1 (ha a h).2⟩
      obtain ⟨hdom, hmem⟩ := nameArgs_dom _ _ _ hA'
      have hcl : A'.Closed (free P) := by
        have arg : ∀ (i : Nat) b, as[i]? = some b → ∃ e, args[i]? = some e ∧
            e.tidy P ps' = true ∧ ArgRel r A e b := by
          intro i b hi
          have hlt : i < args.length := by
            rw [← hlen]; exact (List.getElem?_eq_some_iff.1 hi).1
          exact ⟨args[i], List.getElem?_eq_getElem hlt, htidy _ (List.getElem_mem hlt),
            harg i _ _ (List.getElem?_eq_getElem hlt) hi⟩
        constructor
        · intro m v hl
          obtain ⟨i, hi⟩ := List.getElem?_of_mem (hmem m _ hl)
          obtain ⟨e, he, hte, hrel⟩ := arg i _ hi
          cases e with
          | type s => simp [ArgRel] at hrel
          | val w =>
            simp only [PArg.tidy, Bool.and_eq_true, PArg.allNames] at hte
            exact cloneVal_names A (free P) (free P) hA0 (fun n h _ => h) w v hte.2 hrel
        · intro m x hl
          obtain ⟨i, hi⟩ := List.getElem?_of_mem (hmem m _ hl)
          obtain ⟨e, he, hte, hrel⟩ := arg i _ hi
          cases e with
          | val w => simp [ArgRel] at hrel
          | type s => exact inst_closed hr hrel ps' hd' hA0 (tidyT_of_arg s hte)
      exact ⟨tas, as, A', hf, hlen, harg, hA',
        ih1 tas.params A' _ _ (hr.sub md ts tas hf) hdom hcl (nameArgs_kind _ _ _ hA')
          (hr.body md ts tas hf) hb⟩
    · intro ps A a b hw h
      have hcase : (∃ md p, a = .type (.mk (.ref md p []) []) ∧ PParam.type p ∈ ps ∧
          ∀ v, A.lookup p ≠ some (.val v)) ∨
          (a.simple = true ∧ a.allNames (free P) = true ∧
            ∀ n, free P n = true → A.lookup n = none) := by
        rcases hw.2 with ⟨hd, hA, hkd, ha⟩ | ⟨hA, ha⟩
        · have hfl := free_lookup hw.1 hd
          have h1 := ha a (by simp)
          unfold PArg.tidy at h1
          split at h1
          · rename_i md p
            simp only [Bool.or_eq_true, Bool.and_eq_true, List.contains_iff_mem] at h1
            rcases h1 with h1 | h1
            · refine .inl ⟨md, p, rfl, h1.1, fun v hv => ?_⟩
              have := hkd p v hv
              simp [this] at h1
            · refine .inr ⟨rfl, ?_, hfl⟩
              simp only [PArg.allNames, PTy.allNames, PKind.allNames, Bool.and_eq_true]
              exact ⟨h1, rfl⟩
          · simp only [Bool.and_eq_true] at h1
            exact .inr ⟨h1.1, h1.2, hfl⟩
        · subst hA
          exact .inr ⟨(ha a (by simp)).1, (ha a (by simp)).2, fun _ _ => rfl⟩
      rcases hcase with ⟨md, p, rfl, hp, hnv⟩ | ⟨hsi, hfr, hfl⟩
      · have hpc : (ps.map PParam.name).contains p = true := by
          rw [List.contains_iff_mem]; exact List.mem_map.2 ⟨_, hp, rfl⟩
        simp only [specArg, PTy.kind, hpc, if_true] at h
        cases b with
        | val v => exact absurd h (hnv v)
        | type x =>
          have h1 := Inst.param (r := r) (md := md) (cs := []) (cs' := []) (A := A) rfl h
          simpa [ArgRel, PTy.eta] using h1
      · cases a with
        | val v =>
          simp only [specArg, Option.some.injEq] at h; subst h
          simp only [PArg.allNames] at hfr
          exact cloneVal_id A (free P) hfl v hfr
        | type s =>
          have hsp : (specType r (ps.map PParam.name) n s).map PSub.type = some b := by
            simp only [specArg] at h
            obtain ⟨k, cs⟩ := s
            cases k with
            | ref md p args =>
              have hfp : free P p = true := by
                simp only [PArg.allNames, PTy.allNames, Bool.and_eq_true] at hfr
                cases args with
                | nil => simpa only [PKind.allNames] using hfr.1
                | cons a as => exact (refNames.1 hfr.1).1
              have hps : (ps.map PParam.name).contains p = false := by
                rw [← Bool.not_eq_true, List.contains_iff_mem]
                intro hp
                have := hw.1 p hp
                simp [this] at hfp
              simp only [PTy.kind, hps] at h
              simpa using h
            | _ => exact h
          simp only [Option.map_eq_some_iff] at hsp
          obtain ⟨x, hx, rfl⟩ := hsp
          simp only [PArg.allNames] at hfr
          exact inst_nil (ih4 ps s x hw.1 hsi hfr hx) hfl rfl hfr
    · intro ps t t' hs hsi hfr h
      obtain ⟨k, cs⟩ := t
      simp only [specType] at h
      simp only [PTy.allNames, Bool.and_eq_true] at hfr
      have hc : subCons [] cs = some cs := subCons_id [] (free P) (fun _ _ => rfl) cs hfr.2
      have hrefl : (PTy.mk k cs).argFree = true → Inst r [] (.mk k cs) (.mk k cs) := fun hf =>
        inst_reflT (q := free P) (fun _ _ => rfl) _
          (by simp only [PTy.allNames, Bool.and_eq_true]; exact hfr) hf
      cases k with
      | ref md ts args =>
        cases args with
        | nil =>
          simp only [Option.bind_eq_some_iff] at h
          obtain ⟨tas, _, h⟩ := h
          split at h
          · simp only [Option.some.injEq] at h; subst h
            exact hrefl rfl
          · simp at h
        | cons a as =>
          simp only [Option.map_eq_some_iff] at h
          obtain ⟨t1, h1, rfl⟩ := h
          simp only [PArg.simple, Bool.and_eq_true, simpleAll_iff] at hsi
          have hall := (refNames.1 hfr.1).2
          have hI := ih2 ps [] md ts (a :: as) t1 ⟨hs, .inr ⟨rfl, by
            intro b hb
            refine ⟨?_, hall b hb⟩
            rcases List.mem_cons.1 hb with rfl | hb
            · exact hsi.1
            · exact hsi.2 b hb⟩⟩ h1
          exact hI.inst (by simp) hc
      | base b => simp only [Option.some.injEq] at h; subst h; exact hrefl rfl
      | seq ch => simp only [Option.some.injEq] at h; subst h; exact hrefl (by simpa [PArg.simple] using hsi)
      | choice ch => simp only [Option.some.injEq] at h; subst h; exact hrefl (by simpa [PArg.simple] using hsi)
      | seqOf ch => simp only [Option.some.injEq] at h; subst h; exact hrefl (by simpa [PArg.simple] using hsi)

end Asn1
