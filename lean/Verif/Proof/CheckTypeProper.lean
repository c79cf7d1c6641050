import Verif.Proof.CheckTypeTy
/-!
# Which types the front end accepts: DEFAULTs and the items of ENUMERATED types
-/
namespace Asn1

theorem findB_true {α : Type} {f : α → Option Bool} : ∀ {l : List α}, findB f l = some true → ∃ x ∈ l, f x = some true
  | [], h => by simp [findB] at h
  | x :: l, h => by
    rw [findB] at h
    cases hf : f x with
    | none => rw [hf] at h; simp at h
    | some b =>
      cases b with
      | true => exact ⟨x, List.mem_cons_self, hf⟩
      | false =>
        rw [hf] at h
        obtain ⟨y, hy, h⟩ := findB_true h
        exact ⟨y, List.mem_cons_of_mem _ hy, h⟩

theorem findB_of {α : Type} {f : α → Option Bool} : ∀ {l : List α}, (∀ x ∈ l, f x ≠ none) → (∃ x ∈ l, f x = some true) → findB f l = some true
  | [], _, h => by simp at h
  | x :: l, hn, h => by
    rw [findB]
    cases hf : f x with
    | none => exact absurd hf (hn x List.mem_cons_self)
    | some b =>
      cases b with
      | true => rfl
      | false =>
        simp only
        refine findB_of (fun y hy => hn y (List.mem_cons_of_mem _ hy)) ?_
        obtain ⟨y, hy, h⟩ := h
        rcases List.mem_cons.1 hy with rfl | hy
        · rw [hf] at h; cases h
        · exact ⟨y, hy, h⟩

theorem item_answers {items : List (String × Int)} {cs : List XC} (hd : (NTy.enum items cs).Distinct) (hp : ∀ c ∈ cs, c.Plain false (.enum items cs))
    {p : String × Int} (hm : p ∈ items) :
    Answers (allB (fun c => isAllowed true none c (.ident "" p.1)) cs) ((NTy.enum items cs).Sat (.enum p.2)) := by
  rw [NTy.Sat]
  refine Answers.allB (P := fun c => XC.Sat c (.enum items cs) (.enum p.2)) fun c hc => ?_
  refine isAllowed_sat c false (.enum items cs) (.ident "" p.1) (.enum p.2) true none (hp c hc) hd ?_ ?_ ?_ ?_
  · exact ⟨p.2, .ident hm, rfl⟩
  · rw [NTy.Direct]
    intro nm hn
    cases hn
    exact List.mem_map.2 ⟨p, hm, rfl⟩
  · exact fun _ => ⟨items, cs, rfl⟩
  · exact fun _ => rfl

theorem item_iff {items : List (String × Int)} {cs : List XC} (hd : (NTy.enum items cs).Distinct) (hp : ∀ c ∈ cs, c.Plain false (.enum items cs)) :
    findB (fun p => allB (fun c => isAllowed true none c (.ident "" p.1)) cs) items = some true ↔
      ∃ p ∈ items, (NTy.enum items cs).Sat (.enum p.2) := by
  constructor
  · intro h
    obtain ⟨p, hm, h⟩ := findB_true h
    exact ⟨p, hm, (item_answers hd hp hm).isTrue.1 h⟩
  · rintro ⟨p, hm, h⟩
    refine findB_of (fun q hq => ?_) ⟨p, hm, (item_answers hd hp hm).isTrue.2 h⟩
    rcases item_answers hd hp hq with ⟨h1, _⟩ | ⟨h1, _⟩ <;> rw [h1] <;> simp

theorem names_lower (alts : NAlts) : alts.names.map String.toLower = alts.toList.map (·.1.toLower) := by
  rw [NAlts.names_eq, List.map_map]
  rfl

mutual
theorem check_proper : ∀ t : NTy, checkType t = true → t.Plain → Plainly t.vals → t.Defaults → t.Proper
  | .seq fs cs, h, hp, hv, hq => by
    simp only [checkType, Bool.and_eq_true, decide_eq_true_iff] at h
    rw [NTy.Plain] at hp
    rw [NTy.vals] at hv
    rw [NTy.Defaults] at hq
    rw [NTy.Proper]
    exact ⟨NFields.names_eq fs ▸ h.1, checkFields_proper fs h.2.1 h.2.2.1 hp.2 hv.right hq⟩
  | .choice alts cs, h, hp, hv, hq => by
    simp only [checkType, Bool.and_eq_true, decide_eq_true_iff] at h
    rw [NTy.Plain] at hp
    rw [NTy.vals] at hv
    rw [NTy.Defaults] at hq
    rw [NTy.Proper]
    exact ⟨names_lower alts ▸ h.1, checkAlternatives_proper alts h.2.1 hp.2 hv.right hq⟩
  | .seqOf t cs, h, hp, hv, hq => by
    simp only [checkType, Bool.and_eq_true, decide_eq_true_iff] at h
    rw [NTy.Plain] at hp
    rw [NTy.vals] at hv
    rw [NTy.Defaults] at hq
    rw [NTy.Proper]
    exact check_proper t h.1 hp.2 hv.right hq
  | .ref _ _ t cs, h, hp, hv, hq => by
    simp only [checkType, Bool.and_eq_true, decide_eq_true_iff] at h
    rw [NTy.Plain] at hp
    rw [NTy.vals] at hv
    rw [NTy.Defaults] at hq
    rw [NTy.Proper]
    exact check_proper t h.1 hp.1 hv.right hq
  | .enum items cs, h, hp, hv, hq => by
    have hd := check_distinct _ h
    simp only [checkType, Bool.and_eq_true, decide_eq_true_iff, beq_iff_eq] at h
    rw [NTy.Plain] at hp
    rw [NTy.Proper]
    exact ⟨h.1, h.2.1, (item_iff hd hp).1 h.2.2.1⟩
  | .int _, _, _, _, _ => by simp [NTy.Proper]
  | .real _, _, _, _, _ => by simp [NTy.Proper]
  | .bool _, _, _, _, _ => by simp [NTy.Proper]
  | .null _, _, _, _, _ => by simp [NTy.Proper]
  | .octets _, _, _, _, _ => by simp [NTy.Proper]
  | .bits _, _, _, _, _ => by simp [NTy.Proper]
  | .str _, _, _, _, _ => by simp [NTy.Proper]
  | .oid _, _, _, _, _ => by simp [NTy.Proper]
theorem checkFields_proper : ∀ fs : NFields, checkFields fs = true → checkDefaults fs = true → fs.Plain → Plainly fs.vals → fs.Defaults → fs.Proper
  | .nil, _, _, _, _, _ => by simp [NFields.Proper]
  | .cons nm o t rest, h, hk, hp, hv, hq => by
    simp only [checkFields, Bool.and_eq_true] at h
    rw [NFields.Plain] at hp
    rw [NFields.Defaults] at hq
    have hsub : Plainly (t.vals ++ rest.vals) := fun v hm => hv v (by
      cases o <;> simp only [NFields.vals] <;> first | exact hm | exact List.mem_cons_of_mem _ hm)
    have hk2 : checkDefaults rest = true := by
      cases o <;> simp only [checkDefaults, Bool.and_eq_true] at hk <;> first | exact hk | exact hk.2
    rw [NFields.Proper]
    refine ⟨⟨check_proper t h.1 hp.1 hsub.left hq.1.1, ?_⟩, checkFields_proper rest h.2 hk2 hp.2 hsub.right hq.2⟩
    rintro v rfl
    simp only [checkDefaults, Bool.and_eq_true] at hk
    have := hv v (by rw [NFields.vals]; exact List.mem_cons_self)
    exact (C97_accepted_partial t v hp.1 (check_distinct t h.1) (hq.1.2 v rfl) this.1 this.2).1 hk.1
theorem checkAlternatives_proper : ∀ fs : NAlts, checkAlternatives fs = true → fs.Plain → Plainly fs.vals → fs.Defaults → fs.Proper
  | .nil, _, _, _, _ => by simp [NAlts.Proper]
  | .cons nm t rest, h, hp, hv, hq => by
    simp only [checkAlternatives, Bool.and_eq_true] at h
    rw [NAlts.Plain] at hp
    rw [NAlts.vals] at hv
    rw [NAlts.Defaults] at hq
    rw [NAlts.Proper]
    exact ⟨check_proper t h.1 hp.1 hv.left hq.1, checkAlternatives_proper rest h.2 hp.2 hv.right hq.2⟩
end

mutual
theorem proper_distinct : ∀ t : NTy, t.Proper → t.Distinct
  | .seq fs cs, h => by
    rw [NTy.Proper] at h
    rw [NTy.Distinct]
    exact ⟨h.1, properFields_distinct fs h.2⟩
  | .choice alts cs, h => by
    rw [NTy.Proper] at h
    rw [NTy.Distinct]
    refine ⟨?_, properAlts_distinct alts h.2⟩
    have h1 := h.1
    rw [← names_lower] at h1
    exact NAlts.names_eq alts ▸ List.Nodup.of_map _ h1
  | .seqOf t cs, h => by
    rw [NTy.Proper] at h
    rw [NTy.Distinct]
    exact proper_distinct t h
  | .ref _ _ t cs, h => by
    rw [NTy.Proper] at h
    rw [NTy.Distinct]
    exact proper_distinct t h
  | .enum items cs, h => by
    rw [NTy.Proper] at h
    rw [NTy.Distinct]
    exact ⟨h.1, h.2.1⟩
  | .int _, _ => by simp [NTy.Distinct]
  | .real _, _ => by simp [NTy.Distinct]
  | .bool _, _ => by simp [NTy.Distinct]
  | .null _, _ => by simp [NTy.Distinct]
  | .octets _, _ => by simp [NTy.Distinct]
  | .bits _, _ => by simp [NTy.Distinct]
  | .str _, _ => by simp [NTy.Distinct]
  | .oid _, _ => by simp [NTy.Distinct]
theorem properFields_distinct : ∀ fs : NFields, fs.Proper → fs.Distinct
  | .nil, _ => by simp [NFields.Distinct]
  | .cons _ _ t rest, h => by
    rw [NFields.Proper] at h
    rw [NFields.Distinct]
    exact ⟨proper_distinct t h.1.1, properFields_distinct rest h.2⟩
theorem properAlts_distinct : ∀ fs : NAlts, fs.Proper → fs.Distinct
  | .nil, _ => by simp [NAlts.Distinct]
  | .cons _ t rest, h => by
    rw [NAlts.Proper] at h
    rw [NAlts.Distinct]
    exact ⟨proper_distinct t h.1, properAlts_distinct rest h.2⟩
end

theorem legal_all {t : NTy} (hq : t.Proper) (hv : Plainly t.vals) (hl : ∀ c ∈ t.own, c.Legal t) : (t.own.all fun c => conValid c t) = true :=
  List.all_eq_true.2 fun c hc => legal_valid c t (proper_distinct t hq) (fun v hm => hv v (own_vals hc hm)) (hl c hc)

mutual
theorem proper_check : ∀ t : NTy, t.Proper → t.Legal → t.Plain → Plainly t.vals → t.Defaults → checkType t = true
  | .seq fs cs, h, hl, hp, hv, hq => by
    rw [NTy.Legal] at hl
    have hw := legal_all h hv hl.1
    rw [NTy.Proper] at h
    rw [NTy.Plain] at hp
    rw [NTy.vals] at hv
    rw [NTy.Defaults] at hq
    simp only [checkType, Bool.and_eq_true, decide_eq_true_iff]
    have := properFields_check fs h.2 hl.2 hp.2 hv.right hq
    exact ⟨NFields.names_eq fs ▸ h.1, this.1, this.2, hw⟩
  | .choice alts cs, h, hl, hp, hv, hq => by
    rw [NTy.Legal] at hl
    have hw := legal_all h hv hl.1
    rw [NTy.Proper] at h
    rw [NTy.Plain] at hp
    rw [NTy.vals] at hv
    rw [NTy.Defaults] at hq
    simp only [checkType, Bool.and_eq_true, decide_eq_true_iff]
    exact ⟨names_lower alts ▸ h.1, properAlts_check alts h.2 hl.2 hp.2 hv.right hq, hw⟩
  | .seqOf t cs, h, hl, hp, hv, hq => by
    rw [NTy.Legal] at hl
    have hw := legal_all h hv hl.1
    rw [NTy.Proper] at h
    rw [NTy.Plain] at hp
    rw [NTy.vals] at hv
    rw [NTy.Defaults] at hq
    simp only [checkType, Bool.and_eq_true]
    exact ⟨proper_check t h hl.2 hp.2 hv.right hq, hw⟩
  | .ref _ _ t cs, h, hl, hp, hv, hq => by
    rw [NTy.Legal] at hl
    have hw := legal_all h hv hl.2
    rw [NTy.Proper] at h
    rw [NTy.Plain] at hp
    rw [NTy.vals] at hv
    rw [NTy.Defaults] at hq
    simp only [checkType, Bool.and_eq_true]
    exact ⟨proper_check t h hl.1 hp.1 hv.right hq, hw⟩
  | .enum items cs, h, hl, hp, hv, hq => by
    rw [NTy.Legal] at hl
    have hw := legal_all h hv hl
    have hd := proper_distinct _ h
    rw [NTy.Proper] at h
    rw [NTy.Plain] at hp
    simp only [checkType, Bool.and_eq_true, decide_eq_true_iff, beq_iff_eq]
    exact ⟨h.1, h.2.1, (item_iff hd hp).2 h.2.2, hw⟩
  | .int _, h, hl, _, hv, _ => by rw [NTy.Legal] at hl; rw [checkType]; exact legal_all h hv hl
  | .real _, h, hl, _, hv, _ => by rw [NTy.Legal] at hl; rw [checkType]; exact legal_all h hv hl
  | .bool _, h, hl, _, hv, _ => by rw [NTy.Legal] at hl; rw [checkType]; exact legal_all h hv hl
  | .null _, h, hl, _, hv, _ => by rw [NTy.Legal] at hl; rw [checkType]; exact legal_all h hv hl
  | .octets _, h, hl, _, hv, _ => by rw [NTy.Legal] at hl; rw [checkType]; exact legal_all h hv hl
  | .bits _, h, hl, _, hv, _ => by rw [NTy.Legal] at hl; rw [checkType]; exact legal_all h hv hl
  | .str _, h, hl, _, hv, _ => by rw [NTy.Legal] at hl; rw [checkType]; exact legal_all h hv hl
  | .oid _, h, hl, _, hv, _ => by rw [NTy.Legal] at hl; rw [checkType]; exact legal_all h hv hl
theorem properFields_check : ∀ fs : NFields, fs.Proper → fs.Legal → fs.Plain → Plainly fs.vals → fs.Defaults →
    checkFields fs = true ∧ checkDefaults fs = true
  | .nil, _, _, _, _, _ => by simp [checkFields, checkDefaults]
  | .cons nm o t rest, h, hl, hp, hv, hq => by
    rw [NFields.Proper] at h
    rw [NFields.Legal] at hl
    rw [NFields.Plain] at hp
    rw [NFields.Defaults] at hq
    have hsub : Plainly (t.vals ++ rest.vals) := fun v hm => hv v (by
      cases o <;> simp only [NFields.vals] <;> first | exact hm | exact List.mem_cons_of_mem _ hm)
    have ih := properFields_check rest h.2 hl.2 hp.2 hsub.right hq.2
    refine ⟨by simp only [checkFields, Bool.and_eq_true]; exact ⟨proper_check t h.1.1 hl.1 hp.1 hsub.left hq.1.1, ih.1⟩, ?_⟩
    cases o with
    | default v =>
      simp only [checkDefaults, Bool.and_eq_true]
      have := hv v (by rw [NFields.vals]; exact List.mem_cons_self)
      exact ⟨(C97_accepted_partial t v hp.1 (proper_distinct t h.1.1) (hq.1.2 v rfl) this.1 this.2).2 (h.1.2 v rfl), ih.2⟩
    | _ => simp only [checkDefaults]; exact ih.2
theorem properAlts_check : ∀ fs : NAlts, fs.Proper → fs.Legal → fs.Plain → Plainly fs.vals → fs.Defaults → checkAlternatives fs = true
  | .nil, _, _, _, _, _ => by simp [checkAlternatives]
  | .cons nm t rest, h, hl, hp, hv, hq => by
    rw [NAlts.Proper] at h
    rw [NAlts.Legal] at hl
    rw [NAlts.Plain] at hp
    rw [NAlts.vals] at hv
    rw [NAlts.Defaults] at hq
    simp only [checkAlternatives, Bool.and_eq_true]
    exact ⟨proper_check t h.1 hl.1 hp.1 hv.left hq.1, properAlts_check rest h.2 hl.2 hp.2 hv.right hq.2⟩
end

end Asn1
