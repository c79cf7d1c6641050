import Verif.Proof.CheckType
import Verif.Proof.Compile
import Verif.Props.Notation
/-!
# Which types the front end accepts: proofs for types
-/
namespace Asn1

/-! ## Constraints that have been accepted -/

mutual
theorem valid_valued : ∀ (c : XC) (t : NTy), t.Distinct → (∀ v ∈ c.vals, v.OnceEach) → conValid c t = true → c.Valued t
  | .single v, t, _, ho, h => by
    rw [conValid] at h
    rw [XC.Valued]
    exact value_denotes (ho v (by simp [XC.vals])) h
  | .range _ _ _ _, t, _, _, _ => by simp [XC.Valued]
  | .valMax _ _, t, _, _, _ => by simp [XC.Valued]
  | .minVal _ _, t, _, _, _ => by simp [XC.Valued]
  | .size _, t, _, _, _ => by simp [XC.Valued]
  | .alphabet _, t, _, _, _ => by simp [XC.Valued]
  | .union c d, t, hd, ho, h => by
    rw [conValid, Bool.and_eq_true] at h
    rw [XC.vals] at ho
    rw [XC.Valued]
    exact ⟨valid_valued c t hd (fun v hv => ho v (List.mem_append_left _ hv)) h.1, valid_valued d t hd (fun v hv => ho v (List.mem_append_right _ hv)) h.2⟩
  | .inter c d, t, hd, ho, h => by
    rw [conValid, Bool.and_eq_true] at h
    rw [XC.vals] at ho
    rw [XC.Valued]
    exact ⟨valid_valued c t hd (fun v hv => ho v (List.mem_append_left _ hv)) h.1, valid_valued d t hd (fun v hv => ho v (List.mem_append_right _ hv)) h.2⟩
  | .except c d, t, hd, ho, h => by
    rw [conValid, Bool.and_eq_true] at h
    rw [XC.vals] at ho
    rw [XC.Valued]
    exact ⟨valid_valued c t hd (fun v hv => ho v (List.mem_append_left _ hv)) h.1, valid_valued d t hd (fun v hv => ho v (List.mem_append_right _ hv)) h.2⟩
  | .root2 c d, t, hd, ho, h => by
    rw [conValid, Bool.and_eq_true] at h
    rw [XC.vals] at ho
    rw [XC.Valued]
    exact ⟨valid_valued c t hd (fun v hv => ho v (List.mem_append_left _ hv)) h.1, valid_valued d t hd (fun v hv => ho v (List.mem_append_right _ hv)) h.2⟩
  | .allExcept c, t, hd, ho, h => by
    rw [conValid] at h
    rw [XC.vals] at ho
    rw [XC.Valued]
    exact valid_valued c t hd ho h
  | .root c, t, hd, ho, h => by
    rw [conValid] at h
    rw [XC.vals] at ho
    rw [XC.Valued]
    exact valid_valued c t hd ho h
  | .component c, t, hd, ho, h => by
    rw [XC.vals] at ho
    have ih := fun e he => valid_valued c e (NTy.isElement_distinct hd (u := e) he) ho
    rw [conValid, NTy.actual_eq] at h
    rw [XC.Valued]
    intro e he
    refine ih e he ?_
    unfold NTy.IsElement at he
    cases hs : t.stripped <;> rw [hs] at he h <;> try (exact he.elim)
    subst he
    exact h
  | .components ncs, t, hd, ho, h => by
    rw [conValid, Bool.and_eq_true, Bool.and_eq_true] at h
    rw [XC.vals] at ho
    rw [XC.Valued]
    exact named_valued ncs t hd ho h.2.2
theorem named_valued : ∀ (ncs : XCs) (t : NTy), t.Distinct → (∀ v ∈ ncs.vals, v.OnceEach) → namedValid ncs t = true → ncs.Valued t
  | .nil, _, _, _, _ => by simp [XCs.Valued]
  | .bare nm m rest, t, hd, ho, h => by
    rw [namedValid, Bool.and_eq_true] at h
    rw [XCs.vals] at ho
    rw [XCs.Valued]
    exact named_valued rest t hd ho h.2
  | .cons nm m c rest, t, hd, ho, h => by
    rw [namedValid, Bool.and_eq_true] at h
    rw [XCs.vals] at ho
    have ih := fun u hu => valid_valued c u hu (fun v hv => ho v (List.mem_append_left _ hv))
    rw [XCs.Valued]
    refine ⟨fun i u hu => ?_, named_valued rest t hd (fun v hv => ho v (List.mem_append_right _ hv)) h.2⟩
    obtain ⟨o, hc⟩ := isPart_child hd hu
    rw [hc] at h
    simp only [Bool.and_eq_true] at h
    exact ih u (NTy.isPart_distinct hd hu) h.1.1
end

mutual
theorem legal_valid : ∀ (c : XC) (t : NTy), t.Distinct → Plainly c.vals → c.Legal t → conValid c t = true
  | .single v, t, hd, hp, h => by
    rw [XC.Legal] at h
    rw [conValid]
    exact (value_iff hd (hp v (by simp [XC.vals]))).2 h
  | .range a b i j, t, hd, hp, h => ((range_iff hd (hp a (by simp [XC.vals])) (hp b (by simp [XC.vals]))).2 h).1
  | .valMax a i, t, hd, hp, h => ((below_iff hd (hp a (by simp [XC.vals]))).2 h).1
  | .minVal a i, t, hd, hp, h => ((above_iff hd (hp a (by simp [XC.vals]))).2 h).1
  | .size c, t, hd, hp, h => by
    rw [XC.vals] at hp
    rw [XC.Legal] at h
    rw [conValid, Bool.and_eq_true, canSize_iff]
    exact ⟨h.1, legal_valid c (.int []) distinct_int hp h.2.1⟩
  | .alphabet c, t, hd, hp, h => by
    rw [XC.vals] at hp
    rw [XC.Legal] at h
    rw [conValid, Bool.and_eq_true, canFrom_iff]
    obtain ⟨⟨cs, hs⟩, h2⟩ := h
    exact ⟨⟨cs, hs⟩, ((from_iff hs c hp).2 h2).1⟩
  | .union c d, t, hd, hp, h => by
    rw [XC.vals] at hp
    rw [XC.Legal] at h
    rw [conValid, Bool.and_eq_true]
    exact ⟨legal_valid c t hd hp.left h.1, legal_valid d t hd hp.right h.2⟩
  | .inter c d, t, hd, hp, h => by
    rw [XC.vals] at hp
    rw [XC.Legal] at h
    rw [conValid, Bool.and_eq_true]
    exact ⟨legal_valid c t hd hp.left h.1, legal_valid d t hd hp.right h.2⟩
  | .except c d, t, hd, hp, h => by
    rw [XC.vals] at hp
    rw [XC.Legal] at h
    rw [conValid, Bool.and_eq_true]
    exact ⟨legal_valid c t hd hp.left h.1, legal_valid d t hd hp.right h.2⟩
  | .root2 c d, t, hd, hp, h => by
    rw [XC.vals] at hp
    rw [XC.Legal] at h
    rw [conValid, Bool.and_eq_true]
    exact ⟨legal_valid c t hd hp.left h.1, legal_valid d t hd hp.right h.2⟩
  | .allExcept c, t, hd, hp, h => by
    rw [XC.vals] at hp
    rw [XC.Legal] at h
    rw [conValid]
    exact legal_valid c t hd hp h
  | .root c, t, hd, hp, h => by
    rw [XC.vals] at hp
    rw [XC.Legal] at h
    rw [conValid]
    exact legal_valid c t hd hp h
  | .component c, t, hd, hp, h => by
    rw [XC.vals] at hp
    have ih := fun e he => legal_valid c e (NTy.isElement_distinct hd (u := e) he) hp
    rw [XC.Legal] at h
    obtain ⟨e, he, h⟩ := h
    have := ih e he h
    rw [conValid, NTy.actual_eq]
    unfold NTy.IsElement at he
    cases hs : t.stripped <;> rw [hs] at he <;> try (exact he.elim)
    subst he
    exact this
  | .components ncs, t, hd, hp, h => by
    rw [XC.vals] at hp
    rw [XC.Legal] at h
    rw [conValid, Bool.and_eq_true, Bool.and_eq_true, canComponents_iff, decide_eq_true_iff, listed_names]
    exact ⟨h.1, h.2.1, legal_named ncs t hd hp h.2.2⟩
theorem legal_named : ∀ (ncs : XCs) (t : NTy), t.Distinct → Plainly ncs.vals → ncs.Legal t → namedValid ncs t = true
  | .nil, _, _, _, _ => by simp [namedValid]
  | .bare nm m rest, t, hd, hp, h => by
    rw [XCs.vals] at hp
    rw [XCs.Legal] at h
    obtain ⟨⟨⟨i, u, hu⟩, h1⟩, h2⟩ := h
    obtain ⟨o, hc⟩ := isPart_child hd hu
    rw [namedValid, hc, Bool.and_eq_true]
    exact ⟨(mark_iff hd hc m).2 h1, legal_named rest t hd hp h2⟩
  | .cons nm m c rest, t, hd, hp, h => by
    rw [XCs.vals] at hp
    have ih := fun u hu => legal_valid c u hu hp.left
    rw [XCs.Legal] at h
    obtain ⟨⟨⟨i, u, hu, h0⟩, h1⟩, h2⟩ := h
    obtain ⟨o, hc⟩ := isPart_child hd hu
    rw [namedValid, hc, Bool.and_eq_true]
    refine ⟨?_, legal_named rest t hd hp.right h2⟩
    simp only [Bool.and_eq_true]
    exact ⟨ih u (NTy.isPart_distinct hd hu) h0, (mark_iff hd hc m).2 h1⟩
end

/-! ## Types -/

theorem NAlts.names_eq : ∀ fs : NAlts, fs.names = fs.toList.map (·.1)
  | .nil => rfl
  | .cons n t rest => by rw [NAlts.names, NAlts.toList, List.map_cons, NAlts.names_eq rest]

mutual
theorem check_distinct : ∀ t : NTy, checkType t = true → t.Distinct
  | .seq fs cs, h => by
    simp only [checkType, Bool.and_eq_true, decide_eq_true_iff] at h
    rw [NTy.Distinct]
    exact ⟨NFields.names_eq fs ▸ h.1, checkFields_distinct fs h.2.1⟩
  | .choice alts cs, h => by
    simp only [checkType, Bool.and_eq_true, decide_eq_true_iff] at h
    rw [NTy.Distinct]
    exact ⟨NAlts.names_eq alts ▸ List.Nodup.of_map _ h.1, checkAlternatives_distinct alts h.2.1⟩
  | .seqOf t cs, h => by
    simp only [checkType, Bool.and_eq_true] at h
    rw [NTy.Distinct]
    exact check_distinct t h.1
  | .ref _ _ t cs, h => by
    simp only [checkType, Bool.and_eq_true] at h
    rw [NTy.Distinct]
    exact check_distinct t h.1
  | .enum items cs, h => by
    simp only [checkType, Bool.and_eq_true, decide_eq_true_iff] at h
    rw [NTy.Distinct]
    exact ⟨h.1, h.2.1⟩
  | .int _, _ => by simp [NTy.Distinct]
  | .real _, _ => by simp [NTy.Distinct]
  | .bool _, _ => by simp [NTy.Distinct]
  | .null _, _ => by simp [NTy.Distinct]
  | .octets _, _ => by simp [NTy.Distinct]
  | .bits _, _ => by simp [NTy.Distinct]
  | .str _, _ => by simp [NTy.Distinct]
  | .oid _, _ => by simp [NTy.Distinct]
theorem checkFields_distinct : ∀ fs : NFields, checkFields fs = true → fs.Distinct
  | .nil, _ => by simp [NFields.Distinct]
  | .cons _ _ t rest, h => by
    simp only [checkFields, Bool.and_eq_true] at h
    rw [NFields.Distinct]
    exact ⟨check_distinct t h.1, checkFields_distinct rest h.2⟩
theorem checkAlternatives_distinct : ∀ fs : NAlts, checkAlternatives fs = true → fs.Distinct
  | .nil, _ => by simp [NAlts.Distinct]
  | .cons _ t rest, h => by
    simp only [checkAlternatives, Bool.and_eq_true] at h
    rw [NAlts.Distinct]
    exact ⟨check_distinct t h.1, checkAlternatives_distinct rest h.2⟩
end

/-- The constraints of the type itself. -/
def NTy.own : NTy → List XC
  | .int cs => cs
  | .real cs => cs
  | .bool cs => cs
  | .null cs => cs
  | .enum _ cs => cs
  | .octets cs => cs
  | .bits cs => cs
  | .str cs => cs
  | .oid cs => cs
  | .seq _ cs => cs
  | .seqOf _ cs => cs
  | .choice _ cs => cs
  | .ref _ _ _ cs => cs

theorem own_vals {t : NTy} {c : XC} (hc : c ∈ t.own) {v : VN} (hv : v ∈ c.vals) : v ∈ t.vals := by
  have hm : v ∈ XC.allVals t.own := List.mem_flatMap.2 ⟨c, hc, hv⟩
  cases t <;> simp only [NTy.vals, NTy.own] at hm ⊢ <;> first | exact hm | exact List.mem_append_left _ hm

theorem own_valid {t : NTy} (h : checkType t = true) : ∀ c ∈ t.own, conValid c t = true := by
  intro c hc
  cases t <;> simp only [checkType, NTy.own, Bool.and_eq_true, List.all_eq_true] at h hc <;>
    first | exact h c hc | exact h.2 c hc | exact h.2.2 c hc | exact h.2.2.2 c hc

theorem own_valued {t : NTy} (h : checkType t = true) (ho : ∀ v ∈ t.vals, v.OnceEach) : ∀ c ∈ t.own, c.Valued t :=
  fun c hc => valid_valued c t (check_distinct t h) (fun v hv => ho v (own_vals hc hv)) (own_valid h c hc)

mutual
theorem check_valued : ∀ t : NTy, checkType t = true → (∀ v ∈ t.vals, v.OnceEach) → t.Valued
  | .seq fs cs, h, ho => by
    have hw := own_valued h ho
    simp only [checkType, Bool.and_eq_true] at h
    rw [NTy.vals] at ho
    rw [NTy.Valued]
    exact ⟨hw, checkFields_valued fs h.2.1 fun v hv => ho v (List.mem_append_right _ hv)⟩
  | .choice alts cs, h, ho => by
    have hw := own_valued h ho
    simp only [checkType, Bool.and_eq_true] at h
    rw [NTy.vals] at ho
    rw [NTy.Valued]
    exact ⟨hw, checkAlternatives_valued alts h.2.1 fun v hv => ho v (List.mem_append_right _ hv)⟩
  | .seqOf t cs, h, ho => by
    have hw := own_valued h ho
    simp only [checkType, Bool.and_eq_true] at h
    rw [NTy.vals] at ho
    rw [NTy.Valued]
    exact ⟨hw, check_valued t h.1 fun v hv => ho v (List.mem_append_right _ hv)⟩
  | .ref _ _ t cs, h, ho => by
    have hw := own_valued h ho
    simp only [checkType, Bool.and_eq_true] at h
    rw [NTy.vals] at ho
    rw [NTy.Valued]
    exact ⟨check_valued t h.1 fun v hv => ho v (List.mem_append_right _ hv), hw⟩
  | .enum _ _, h, ho => by rw [NTy.Valued]; exact own_valued h ho
  | .int _, h, ho => by rw [NTy.Valued]; exact own_valued h ho
  | .real _, h, ho => by rw [NTy.Valued]; exact own_valued h ho
  | .bool _, h, ho => by rw [NTy.Valued]; exact own_valued h ho
  | .null _, h, ho => by rw [NTy.Valued]; exact own_valued h ho
  | .octets _, h, ho => by rw [NTy.Valued]; exact own_valued h ho
  | .bits _, h, ho => by rw [NTy.Valued]; exact own_valued h ho
  | .str _, h, ho => by rw [NTy.Valued]; exact own_valued h ho
  | .oid _, h, ho => by rw [NTy.Valued]; exact own_valued h ho
theorem checkFields_valued : ∀ fs : NFields, checkFields fs = true → (∀ v ∈ fs.vals, v.OnceEach) → fs.Valued
  | .nil, _, _ => by simp [NFields.Valued]
  | .cons _ o t rest, h, ho => by
    simp only [checkFields, Bool.and_eq_true] at h
    rw [NFields.Valued]
    have hsub : ∀ v, v ∈ t.vals ++ rest.vals → v.OnceEach := fun v hv => ho v (by
      cases o <;> simp only [NFields.vals] <;> first | exact hv | exact List.mem_cons_of_mem _ hv)
    exact ⟨check_valued t h.1 fun v hv => hsub v (List.mem_append_left _ hv), checkFields_valued rest h.2 fun v hv => hsub v (List.mem_append_right _ hv)⟩
theorem checkAlternatives_valued : ∀ fs : NAlts, checkAlternatives fs = true → (∀ v ∈ fs.vals, v.OnceEach) → fs.Valued
  | .nil, _, _ => by simp [NAlts.Valued]
  | .cons _ t rest, h, ho => by
    simp only [checkAlternatives, Bool.and_eq_true] at h
    rw [NAlts.vals] at ho
    rw [NAlts.Valued]
    exact ⟨check_valued t h.1 fun v hv => ho v (List.mem_append_left _ hv), checkAlternatives_valued rest h.2 fun v hv => ho v (List.mem_append_right _ hv)⟩
end

/-! ## Types that have been accepted and translated -/

theorem mapAll_isSome {t : NTy} : ∀ {cs : List XC} {acs : List AC}, mapAll t cs = some acs → ∀ c ∈ cs, (mapCon t c).isSome = true := by
  intro cs acs h c hc
  induction cs generalizing acs with
  | nil => simp at hc
  | cons d cs ih =>
    unfold mapAll at h
    rw [List.mapM_cons] at h
    simp only [Option.bind_eq_bind, Option.bind_eq_some_iff] at h
    obtain ⟨x, hx, y, hy, _⟩ := h
    rcases List.mem_cons.1 hc with rfl | hc
    · rw [hx]; rfl
    · exact ih hy hc

theorem own_translated {slim : Bool} {w : List XC} {t : NTy} {ct : CTy} (h : compile slim w t = some ct) : ∀ c ∈ t.own, (mapCon t c).isSome = true := by
  intro c hc
  cases t with
  | null cs =>
    rw [compile] at h
    simp only [NTy.own] at hc
    cases cs with
    | nil => simp at hc
    | cons d cs => simp at h
  | _ =>
    rw [compile] at h
    simp only [Option.bind_eq_bind, Option.bind_eq_some_iff] at h
    obtain ⟨acs, ha, _⟩ := h
    exact mapAll_isSome ha c hc

theorem own_legal {slim : Bool} {w : List XC} {t : NTy} {ct : CTy} (h : compile slim w t = some ct) (hc : checkType t = true) (hp : Plainly t.vals) :
    ∀ c ∈ t.own, c.Legal t :=
  fun c hm => ((constraint_iff c t (check_distinct t hc) fun v hv => hp v (own_vals hm hv)).1 ⟨own_valid hc c hm, own_translated h c hm⟩).1

mutual
theorem check_legal (slim : Bool) : ∀ (t : NTy) (w : List XC) (ct : CTy), compile slim w t = some ct → checkType t = true → Plainly t.vals → t.Legal
  | .seq fs cs, w, ct, h, hc, hp => by
    have hw := own_legal h hc hp
    simp only [checkType, Bool.and_eq_true] at hc
    rw [NTy.vals] at hp
    rw [compile] at h
    simp only [Option.bind_eq_bind, Option.bind_eq_some_iff] at h
    obtain ⟨acs, ha, cfs, hf, _⟩ := h
    rw [NTy.Legal]
    exact ⟨hw, checkFields_legal slim fs _ cfs hf hc.2.1 hp.right⟩
  | .choice alts cs, w, ct, h, hc, hp => by
    have hw := own_legal h hc hp
    simp only [checkType, Bool.and_eq_true] at hc
    rw [NTy.vals] at hp
    rw [compile] at h
    simp only [Option.bind_eq_bind, Option.bind_eq_some_iff] at h
    obtain ⟨acs, ha, cfs, hf, _⟩ := h
    rw [NTy.Legal]
    exact ⟨hw, checkAlternatives_legal slim alts _ cfs hf hc.2.1 hp.right⟩
  | .seqOf t cs, w, ct, h, hc, hp => by
    have hw := own_legal h hc hp
    simp only [checkType, Bool.and_eq_true] at hc
    rw [NTy.vals] at hp
    rw [compile] at h
    simp only [Option.bind_eq_bind, Option.bind_eq_some_iff] at h
    obtain ⟨acs, ha, cf, hf, _⟩ := h
    rw [NTy.Legal]
    exact ⟨hw, check_legal slim t _ cf hf hc.1 hp.right⟩
  | .ref md tas t cs, w, ct, h, hc, hp => by
    have hw := own_legal h hc hp
    simp only [checkType, Bool.and_eq_true] at hc
    rw [NTy.vals] at hp
    rw [compile] at h
    simp only [Option.bind_eq_bind, Option.bind_eq_some_iff] at h
    obtain ⟨acs, ha, cf, hf, _⟩ := h
    rw [NTy.Legal]
    exact ⟨check_legal slim t _ cf hf hc.1 hp.right, hw⟩
  | .enum _ _, _, _, h, hc, hp => by rw [NTy.Legal]; exact own_legal h hc hp
  | .int _, _, _, h, hc, hp => by rw [NTy.Legal]; exact own_legal h hc hp
  | .real _, _, _, h, hc, hp => by rw [NTy.Legal]; exact own_legal h hc hp
  | .bool _, _, _, h, hc, hp => by rw [NTy.Legal]; exact own_legal h hc hp
  | .null _, _, _, h, hc, hp => by rw [NTy.Legal]; exact own_legal h hc hp
  | .octets _, _, _, h, hc, hp => by rw [NTy.Legal]; exact own_legal h hc hp
  | .bits _, _, _, h, hc, hp => by rw [NTy.Legal]; exact own_legal h hc hp
  | .str _, _, _, h, hc, hp => by rw [NTy.Legal]; exact own_legal h hc hp
  | .oid _, _, _, h, hc, hp => by rw [NTy.Legal]; exact own_legal h hc hp
theorem checkFields_legal (slim : Bool) : ∀ (fs : NFields) (w : List XC) (cfs : CFields), compileFields slim w fs = some cfs → checkFields fs = true →
    Plainly fs.vals → fs.Legal
  | .nil, _, _, _, _, _ => by simp [NFields.Legal]
  | .cons _ o t rest, w, cfs, h, hc, hp => by
    simp only [checkFields, Bool.and_eq_true] at hc
    rw [compileFields] at h
    simp only [Option.bind_eq_bind, Option.bind_eq_some_iff] at h
    obtain ⟨co, _, ct, ht, r, hr, _⟩ := h
    rw [NFields.Legal]
    have hsub : Plainly (t.vals ++ rest.vals) := fun v hv => hp v (by
      cases o <;> simp only [NFields.vals] <;> first | exact hv | exact List.mem_cons_of_mem _ hv)
    exact ⟨check_legal slim t _ ct ht hc.1 hsub.left, checkFields_legal slim rest w r hr hc.2 hsub.right⟩
theorem checkAlternatives_legal (slim : Bool) : ∀ (fs : NAlts) (w : List XC) (cfs : CAlts), compileAlts slim w fs = some cfs → checkAlternatives fs = true →
    Plainly fs.vals → fs.Legal
  | .nil, _, _, _, _, _ => by simp [NAlts.Legal]
  | .cons _ t rest, w, cfs, h, hc, hp => by
    simp only [checkAlternatives, Bool.and_eq_true] at hc
    rw [compileAlts] at h
    simp only [Option.bind_eq_bind, Option.bind_eq_some_iff] at h
    obtain ⟨ct, ht, r, hr, _⟩ := h
    rw [NAlts.Legal]
    rw [NAlts.vals] at hp
    exact ⟨check_legal slim t _ ct ht hc.1 hp.left, checkAlternatives_legal slim rest w r hr hc.2 hp.right⟩
end

end Asn1
