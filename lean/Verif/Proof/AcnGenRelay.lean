import Verif.Spec.AcnGenRelay
import Verif.Proof.AcnGenTy
/-! Values whose determinants can be written: from `AHas` to `AcnValid`. -/
namespace Asn1

/-! ### What is certainly required -/

theorem mem_conds_getD {alts : AAlts} {i : Nat} (h : i < alts.conds.length) : alts.conds.getD i [] ∈ alts.conds := by
  rw [List.getD_eq_getElem?_getD, List.getElem?_eq_getElem h]
  exact List.getElem_mem h

theorem aHasAlt_conds : ∀ (alts : AAlts) (i : Nat) (v : Val), AHasAlt alts i v → i < alts.conds.length
  | .nil, i, v, h => by simp only [AHasAlt] at h
  | .cons c t rest, 0, v, h => by simp [AAlts.conds]
  | .cons c t rest, i + 1, v, h => by
    simp only [AHasAlt] at h
    have := aHasAlt_conds rest i v h
    simp only [AAlts.conds, List.length_cons]
    omega

mutual
theorem demands_required : ∀ (t : ATy) (v : Val), AOk t → AHas t v → ∀ k ∈ demands t, ∃ x, (k, x) ∈ required t v
  | .prim _, v, _, _ => by simp [demands]
  | .leaf _, v, _, _ => by simp [demands]
  | .nullPat _ _, v, _, _ => by simp [demands]
  | .real64 _ _, v, _, _ => by simp [demands]
  | .real32 _ _, v, _, _ => by simp [demands]
  | .strAscii _ _ _, v, _, _ => by simp [demands]
  | .strNull _ _ _ _, v, _, _ => by simp [demands]
  | .octets lo hi j dmax, v, _, h => by
    cases v <;> simp only [AHas] at h
    simp [demands, required]
  | .bits lo hi j dmax, v, _, h => by
    cases v <;> simp only [AHas] at h
    simp [demands, required]
  | .strExt _ _ _ j, v, _, h => by
    cases v <;> simp only [AHas] at h
    simp [demands, required]
  | .strIdx _ _ _ j, v, _, h => by
    cases v <;> simp only [AHas] at h
    simp [demands, required]
  | .seq fs, v, hok, h => by
    cases v <;> simp only [AHas] at h
    simp only [AOk] at hok
    simp only [demands, required]
    exact demandsFields_required fs _ hok h
  | .seqOf lo hi j t, v, _, h => by
    cases v <;> simp only [AHas] at h
    cases j <;> simp [demands, required]
  | .choice byDet alts, v, hok, h => by
    cases v <;> simp only [AHas] at h
    rename_i i v
    simp only [AOk] at hok
    simp only [demands, required]
    intro k hk
    cases byDet with
    | false => simp at hk
    | true =>
      simp only [if_true] at hk ⊢
      have hm := mem_conds_getD (aHasAlt_conds alts i v h)
      have := (((hok.2.2.1 rfl).1 _ hm).2 k).2 hk
      obtain ⟨q, hq, rfl⟩ := List.mem_map.1 this
      exact ⟨q.2, List.mem_append_left _ hq⟩
  | .ref args t, v, hok, h => by
    simp only [AHas] at h
    simp only [AOk] at hok
    intro k hk
    simp only [demands, List.mem_map, List.mem_filter, decide_eq_true_eq] at hk
    obtain ⟨a, ⟨ha, hd⟩, rfl⟩ := hk
    obtain ⟨x, hx⟩ := demands_required t v hok.2.2 h a.2 hd
    refine ⟨x, ?_⟩
    simp only [required, List.mem_flatMap, List.mem_map, List.mem_filter, decide_eq_true_eq]
    exact ⟨a, ha, (a.2, x), ⟨hx, rfl⟩, rfl⟩
  | .align _ t, v, hok, h => by
    simp only [AHas] at h
    simp only [AOk] at hok
    simp only [demands, required]
    exact demands_required t v hok h
theorem demandsFields_required : ∀ (fs : AFields) (vs : List (Bool × Val)), AOkFields fs → AHasFields fs vs →
    ∀ k ∈ demandsFields fs, ∃ x, (k, x) ∈ requiredFields fs vs
  | .nil, vs, _, _ => by simp [demandsFields]
  | .acn _ _ _ rest, vs, hok, h => by
    simp only [AOkFields] at hok
    simp only [AHasFields] at h
    simp only [demandsFields, requiredFields]
    exact demandsFields_required rest vs hok h
  | .acnNull _ _ rest, vs, hok, h => by
    simp only [AOkFields] at hok
    simp only [AHasFields] at h
    simp only [demandsFields, requiredFields]
    exact demandsFields_required rest vs hok.2 h
  | .asn1 o t rest, [], hok, h => by
    cases o with
    | optional p d => cases d <;> simp [AHasFields] at h
    | _ => simp [AHasFields] at h
  | .asn1 o t rest, (e, v) :: vs, hok, h => by
    simp only [AOkFields] at hok
    have hr : AHasFields rest vs ∧ (o.always = true → e = true) ∧ (e = true → AHas t v) := by
      cases o with
      | mandatory => simp only [AHasFields] at h; exact ⟨h.2, fun _ => h.1.1, fun _ => h.1.2⟩
      | present => simp only [AHasFields] at h; exact ⟨h.2, fun _ => h.1.1, fun _ => h.1.2⟩
      | absent => simp only [AHasFields] at h; exact ⟨h.2, by simp [AOpt.always], fun e => by simp [h.1.1] at e⟩
      | optional p d =>
        cases d <;> (simp only [AHasFields] at h; refine ⟨h.2, by simp [AOpt.always], fun e => ?_⟩; rcases h.1 with h1 | h1)
        · exact h1.2
        · simp [h1.1] at e
        · exact h1.2
        · simp [h1.1] at e
    intro k hk
    simp only [demandsFields, List.mem_append] at hk
    simp only [requiredFields, List.mem_append]
    rcases hk with (hk | hk) | hk
    · refine ⟨if e then 1 else 0, .inl (.inl ?_)⟩
      cases o with
      | optional p d =>
        cases p with
        | bit => simp [AOpt.uses] at hk
        | whenBool j =>
          simp only [AOpt.uses, List.mem_singleton] at hk
          subst hk
          simp [reqPresence]
      | _ => simp [AOpt.uses] at hk
    · cases ha : o.always with
      | false => rw [ha] at hk; simp at hk
      | true =>
        rw [ha, if_pos rfl] at hk
        have he := hr.2.1 ha
        obtain ⟨x, hx⟩ := demands_required t v hok.1 (hr.2.2 he) k hk
        exact ⟨x, .inl (.inr (by rw [he, if_pos rfl]; exact hx))⟩
    · obtain ⟨x, hx⟩ := demandsFields_required rest vs hok.2 hr.1 k hk
      exact ⟨x, .inr hx⟩
end

/-! ### The number of requirements -/

/-- The number of requirements on `k`. -/
def askCount (rq : List (Nat × Int)) (k : Nat) : Nat := rq.countP (fun q => q.1 = k)

theorem askCount_append (a b : List (Nat × Int)) (k : Nat) : askCount (a ++ b) k = askCount a k + askCount b k := by
  simp [askCount, List.countP_append]

theorem askCount_unique {rq : List (Nat × Int)} {k : Nat} {x y : Int} (h : askCount rq k ≤ 1) (hx : (k, x) ∈ rq) (hy : (k, y) ∈ rq) : x = y := by
  induction rq with
  | nil => simp at hx
  | cons q rq ih =>
    unfold askCount at h ih
    rw [List.countP_cons] at h
    have pos : ∀ z, (k, z) ∈ rq → 0 < rq.countP (fun q => decide (q.1 = k)) := fun z hz => List.countP_pos_iff.2 ⟨(k, z), hz, by simp⟩
    rcases List.mem_cons.1 hx with hx | hx <;> rcases List.mem_cons.1 hy with hy | hy
    · have := hx.trans hy.symm; simpa using this
    · have := pos y hy; rw [← hx] at h; simp only [decide_true, if_true] at h; omega
    · have := pos x hx; rw [← hy] at h; simp only [decide_true, if_true] at h; omega
    · exact ih (by omega) hx hy

theorem askCount_conds {c : List (Nat × Int)} (k : Nat) (h : (c.map (·.1)).Nodup) : askCount c k ≤ if k ∈ c.map (·.1) then 1 else 0 := by
  have e : askCount c k = (c.map (·.1)).count k := by
    unfold askCount
    rw [List.count, List.countP_map]
    congr 1
  rw [e]
  split
  · exact List.nodup_iff_count_le_one.1 h k
  · rw [List.count_eq_zero_of_not_mem ‹_›]

theorem askCount_reqPresence (o : AOpt) (e : Bool) (k : Nat) : askCount (reqPresence o e) k = o.uses.count k := by
  cases o with
  | optional p d =>
    cases p with
    | bit => simp [reqPresence, askCount, AOpt.uses]
    | whenBool j => simp [reqPresence, askCount, AOpt.uses, List.countP_cons, List.count_cons]
  | _ => simp [reqPresence, askCount, AOpt.uses]

theorem askCount_one (j k : Nat) (x : Int) : askCount [(j, x)] k ≤ if j = k then 1 else 0 := by
  simp [askCount, List.countP_cons]

theorem askCount_args (rq : List (Nat × Int)) (k : Nat) : ∀ (args : List (Nat × Nat)), (∀ a ∈ args, askCount rq a.2 ≤ 1) →
    askCount (args.flatMap fun a => (rq.filter fun q => q.1 = a.2).map fun q => (a.1, q.2)) k ≤ args.countP fun a => a.1 = k
  | [], _ => by simp [askCount]
  | a :: args, h => by
    have ih := askCount_args rq k args (fun b hb => h b (List.mem_cons_of_mem _ hb))
    have h1 := h a List.mem_cons_self
    rw [List.flatMap_cons, askCount_append, List.countP_cons]
    have : askCount ((rq.filter fun q => q.1 = a.2).map fun q => (a.1, q.2)) k ≤ if a.1 = k then 1 else 0 := by
      unfold askCount at h1 ⊢
      rw [List.countP_map]
      rw [List.countP_eq_length_filter] at h1
      split
      · exact Nat.le_trans List.countP_le_length h1
      · rename_i hne
        have : ((rq.filter fun q => q.1 = a.2).countP ((fun q : Nat × Int => decide (q.1 = k)) ∘ fun q => (a.1, q.2))) = 0 :=
          List.countP_eq_zero.2 (fun q _ => by simp [hne])
        omega
    simp only [decide_eq_true_eq]
    omega

mutual
theorem askCount_le : ∀ (t : ATy) (v : Val) (k : Nat), AOk t → AHas t v → askCount (required t v) k ≤ dependents t k
  | .prim _, v, k, _, _ => by simp [required, askCount]
  | .leaf _, v, k, _, _ => by simp [required, askCount]
  | .nullPat _ _, v, k, _, _ => by simp [required, askCount]
  | .real64 _ _, v, k, _, _ => by simp [required, askCount]
  | .real32 _ _, v, k, _, _ => by simp [required, askCount]
  | .strAscii _ _ _, v, k, _, _ => by simp [required, askCount]
  | .strNull _ _ _ _, v, k, _, _ => by simp [required, askCount]
  | .octets lo hi j dmax, v, k, _, h => by
    cases v <;> simp only [AHas] at h
    simp only [required, dependents]; exact askCount_one _ _ _
  | .bits lo hi j dmax, v, k, _, h => by
    cases v <;> simp only [AHas] at h
    simp only [required, dependents]; exact askCount_one _ _ _
  | .strExt _ _ _ j, v, k, _, h => by
    cases v <;> simp only [AHas] at h
    simp only [required, dependents]; exact askCount_one _ _ _
  | .strIdx _ _ _ j, v, k, _, h => by
    cases v <;> simp only [AHas] at h
    simp only [required, dependents]; exact askCount_one _ _ _
  | .seq fs, v, k, hok, h => by
    cases v <;> simp only [AHas] at h
    simp only [AOk] at hok
    simp only [required, dependents]
    exact askCountFields_le fs _ k hok h
  | .seqOf lo hi j t, v, k, _, h => by
    cases v <;> simp only [AHas] at h
    cases j with
    | none => simp [required, askCount]
    | some j => simp only [required, dependents]; exact askCount_one _ _ _
  | .choice byDet alts, v, k, hok, h => by
    cases v <;> simp only [AHas] at h
    rename_i i v
    simp only [AOk] at hok
    simp only [required, dependents]
    have h2 := askCountAlt_le alts i v k hok.2.2.2 h
    rw [askCount_append]
    cases byDet with
    | false => simp only [Bool.false_eq_true, if_false, askCount, List.countP_nil] at h2 ⊢; omega
    | true =>
      have hm := mem_conds_getD (aHasAlt_conds alts i v h)
      have h1 := (hok.2.2.1 rfl).1 _ hm
      have h3 := askCount_conds k h1.1
      simp only [if_true, true_and] at h3 ⊢
      by_cases hk : k ∈ alts.keys
      · rw [if_pos ((h1.2 k).2 hk)] at h3; rw [if_pos hk]; omega
      · rw [if_neg (fun e => hk ((h1.2 k).1 e))] at h3; rw [if_neg hk]; omega
  | .ref args t, v, k, hok, h => by
    simp only [AHas] at h
    simp only [AOk] at hok
    simp only [required, dependents]
    exact askCount_args _ k args (fun a ha => Nat.le_trans (askCount_le t v a.2 hok.2.2 h) (hok.2.1 a ha))
  | .align _ t, v, k, hok, h => by
    simp only [AHas] at h
    simp only [AOk] at hok
    simp only [required, dependents]
    exact askCount_le t v k hok h
theorem askCountFields_le : ∀ (fs : AFields) (vs : List (Bool × Val)) (k : Nat), AOkFields fs → AHasFields fs vs →
    askCount (requiredFields fs vs) k ≤ dependentsFields fs k
  | .nil, vs, k, _, _ => by simp [requiredFields, askCount]
  | .acn _ _ _ rest, vs, k, hok, h => by
    simp only [AOkFields] at hok
    simp only [AHasFields] at h
    simp only [requiredFields, dependentsFields]
    exact askCountFields_le rest vs k hok h
  | .acnNull _ _ rest, vs, k, hok, h => by
    simp only [AOkFields] at hok
    simp only [AHasFields] at h
    simp only [requiredFields, dependentsFields]
    exact askCountFields_le rest vs k hok.2 h
  | .asn1 o t rest, [], k, hok, h => by simp [requiredFields, askCount]
  | .asn1 o t rest, (e, v) :: vs, k, hok, h => by
    simp only [AOkFields] at hok
    have hr : AHasFields rest vs ∧ (e = true → AHas t v) := by
      cases o with
      | mandatory => simp only [AHasFields] at h; exact ⟨h.2, fun _ => h.1.2⟩
      | present => simp only [AHasFields] at h; exact ⟨h.2, fun _ => h.1.2⟩
      | absent => simp only [AHasFields] at h; exact ⟨h.2, fun e => by simp [h.1.1] at e⟩
      | optional p d =>
        cases d <;> (simp only [AHasFields] at h; refine ⟨h.2, fun e => ?_⟩; rcases h.1 with h1 | h1)
        · exact h1.2
        · simp [h1.1] at e
        · exact h1.2
        · simp [h1.1] at e
    simp only [requiredFields, dependentsFields, askCount_append, askCount_reqPresence]
    have h3 := askCountFields_le rest vs k hok.2 hr.1
    have h2 : askCount (if e = true then required t v else []) k ≤ dependents t k := by
      split
      · exact askCount_le t v k hok.1 (hr.2 ‹_›)
      · simp [askCount]
    omega
theorem askCountAlt_le : ∀ (alts : AAlts) (i : Nat) (v : Val) (k : Nat), AOkAlts alts → AHasAlt alts i v →
    askCount (requiredAlt alts i v) k ≤ dependentsAlts alts k
  | .nil, i, v, k, _, h => by simp only [AHasAlt] at h
  | .cons c t rest, 0, v, k, hok, h => by
    simp only [AOkAlts] at hok
    simp only [AHasAlt] at h
    simp only [requiredAlt, dependentsAlts]
    have := askCount_le t v k hok.1 h
    omega
  | .cons c t rest, i + 1, v, k, hok, h => by
    simp only [AOkAlts] at hok
    simp only [AHasAlt] at h
    simp only [requiredAlt, dependentsAlts]
    have := askCountAlt_le rest i v k hok.2 h
    omega
end

/-! ### Values that can be transmitted -/

mutual
/-- The values of referenced types and the elements of lists can be transmitted. -/
def Inner : ATy → Val → Prop
  | .seq fs, .seq vs => InnerFields fs vs
  | .seqOf _ _ _ t, .seqOf vs => ∀ v ∈ vs, AValid t (required t v) v
  | .choice _ alts, .choice i v => InnerAlt alts i v
  | .ref _ t, v => AValid t (required t v) v
  | .align _ t, v => Inner t v
  | _, _ => True
def InnerFields : AFields → List (Bool × Val) → Prop
  | .asn1 _ t rest, (e, v) :: vs => (e = true → Inner t v) ∧ InnerFields rest vs
  | .acn _ _ _ rest, vs => InnerFields rest vs
  | .acnNull _ _ rest, vs => InnerFields rest vs
  | _, _ => True
def InnerAlt : AAlts → Nat → Val → Prop
  | .nil, _, _ => True
  | .cons _ t _, 0, v => Inner t v
  | .cons _ _ rest, i + 1, v => InnerAlt rest i v
end

mutual
theorem aValid_of : ∀ (t : ATy) (v : Val) (D : List Nat) (rq : List (Nat × Int)), AOk t → AHas t v → Inner t v → Asked D t →
    (∀ k ∈ D, ∃ x, (k, x) ∈ rq) → (∀ q ∈ required t v, q ∈ rq) →
    (∀ k l x, (k, l) ∈ dets t → (k, x) ∈ rq → LeafFits l x ∧ ∀ y, (k, y) ∈ rq → y = x) → AValid t rq v
  | .prim _, v, D, rq, hok, h, hi, ha, hD, hrq, hf => by simp only [AHas] at h; simp only [AValid]; exact h
  | .leaf _, v, D, rq, hok, h, hi, ha, hD, hrq, hf => by simp only [AHas] at h; simp only [AValid]; exact h
  | .nullPat _ _, v, D, rq, hok, h, hi, ha, hD, hrq, hf => by cases v <;> simp only [AHas] at h; simp only [AValid]
  | .real64 _ _, v, D, rq, hok, h, hi, ha, hD, hrq, hf => by cases v <;> simp only [AHas] at h; simp only [AValid]; exact h
  | .real32 _ _, v, D, rq, hok, h, hi, ha, hD, hrq, hf => by cases v <;> simp only [AHas] at h; simp only [AValid]; exact h
  | .octets _ _ _ _, v, D, rq, hok, h, hi, ha, hD, hrq, hf => by cases v <;> simp only [AHas] at h; simp only [AValid]; exact h
  | .bits _ _ _ _, v, D, rq, hok, h, hi, ha, hD, hrq, hf => by cases v <;> simp only [AHas] at h; simp only [AValid]; exact h
  | .strAscii _ _ _, v, D, rq, hok, h, hi, ha, hD, hrq, hf => by cases v <;> simp only [AHas] at h; simp only [AValid]; exact h
  | .strNull _ _ _ _, v, D, rq, hok, h, hi, ha, hD, hrq, hf => by cases v <;> simp only [AHas] at h; simp only [AValid]; exact h
  | .strExt _ _ _ _, v, D, rq, hok, h, hi, ha, hD, hrq, hf => by cases v <;> simp only [AHas] at h; simp only [AValid]; exact h
  | .strIdx _ _ _ _, v, D, rq, hok, h, hi, ha, hD, hrq, hf => by cases v <;> simp only [AHas] at h; simp only [AValid]; exact h
  | .seq fs, v, D, rq, hok, h, hi, ha, hD, hrq, hf => by
    cases v <;> simp only [AHas] at h
    simp only [AOk] at hok
    simp only [Inner] at hi
    simp only [Asked] at ha
    simp only [required] at hrq
    simp only [dets] at hf
    simp only [AValid]
    exact aValidFields_of fs _ D rq hok h hi ha hD hrq hf
  | .seqOf lo hi' j t, v, D, rq, hok, h, hi, ha, hD, hrq, hf => by
    cases v <;> simp only [AHas] at h
    simp only [Inner] at hi
    simp only [AValid]
    exact ⟨h.1, h.2.1, hi⟩
  | .choice byDet alts, v, D, rq, hok, h, hi, ha, hD, hrq, hf => by
    cases v <;> simp only [AHas] at h
    simp only [AOk] at hok
    simp only [Inner] at hi
    simp only [Asked] at ha
    simp only [required, List.mem_append] at hrq
    simp only [dets] at hf
    simp only [AValid]
    exact aValidAlt_of alts _ _ D rq hok.2.2.2 h hi ha hD (fun q hq => hrq q (.inr hq)) hf
  | .ref args t, v, D, rq, hok, h, hi, ha, hD, hrq, hf => by
    simp only [Inner] at hi
    simp only [AValid]
    exact hi
  | .align _ t, v, D, rq, hok, h, hi, ha, hD, hrq, hf => by
    simp only [AHas] at h
    simp only [AOk] at hok
    simp only [Inner] at hi
    simp only [Asked] at ha
    simp only [required] at hrq
    simp only [dets] at hf
    simp only [AValid]
    exact aValid_of t v D rq hok h hi ha hD hrq hf
theorem aValidFields_of : ∀ (fs : AFields) (vs : List (Bool × Val)) (D : List Nat) (rq : List (Nat × Int)), AOkFields fs → AHasFields fs vs →
    InnerFields fs vs → AskedFields D fs → (∀ k ∈ D, ∃ x, (k, x) ∈ rq) → (∀ q ∈ requiredFields fs vs, q ∈ rq) →
    (∀ k l x, (k, l) ∈ detsFields fs → (k, x) ∈ rq → LeafFits l x ∧ ∀ y, (k, y) ∈ rq → y = x) → AValidFields fs rq vs
  | .nil, vs, D, rq, hok, h, hi, ha, hD, hrq, hf => by
    cases vs <;> simp only [AHasFields] at h
    simp only [AValidFields]
  | .acn k _ l rest, vs, D, rq, hok, h, hi, ha, hD, hrq, hf => by
    simp only [AOkFields] at hok
    simp only [AHasFields] at h
    simp only [InnerFields] at hi
    simp only [AskedFields] at ha
    simp only [requiredFields] at hrq
    simp only [detsFields, List.mem_cons] at hf
    simp only [AValidFields]
    obtain ⟨x, hx⟩ := hD k ha.1
    obtain ⟨h1, h2⟩ := hf k l x (.inl rfl) hx
    exact ⟨⟨x, ⟨hx, h2⟩, h1⟩, aValidFields_of rest vs D rq hok h hi ha.2 hD hrq (fun k l x hm => hf k l x (.inr hm))⟩
  | .acnNull _ _ rest, vs, D, rq, hok, h, hi, ha, hD, hrq, hf => by
    simp only [AOkFields] at hok
    simp only [AHasFields] at h
    simp only [InnerFields] at hi
    simp only [AskedFields] at ha
    simp only [requiredFields] at hrq
    simp only [detsFields] at hf
    simp only [AValidFields]
    exact aValidFields_of rest vs D rq hok.2 h hi ha hD hrq hf
  | .asn1 o t rest, [], D, rq, hok, h, hi, ha, hD, hrq, hf => by
    cases o with
    | optional p d => cases d <;> simp [AHasFields] at h
    | _ => simp [AHasFields] at h
  | .asn1 o t rest, (e, v) :: vs, D, rq, hok, h, hi, ha, hD, hrq, hf => by
    simp only [AOkFields] at hok
    simp only [InnerFields] at hi
    simp only [AskedFields] at ha
    simp only [requiredFields, List.mem_append] at hrq
    simp only [detsFields, List.mem_append] at hf
    have htail : AHasFields rest vs → AValidFields rest rq vs := fun hr =>
      aValidFields_of rest vs D rq hok.2 hr hi.2 ha.2 hD (fun q hq => hrq q (.inr hq)) (fun k l x hm => hf k l x (.inr hm))
    have hhead : e = true → AHas t v → AValid t rq v := fun he hv => by
      have hsub : ∀ q ∈ required t v, q ∈ rq := fun q hq => hrq q (.inl (.inr (by rw [he, if_pos rfl]; exact hq)))
      refine aValid_of t v (demands t ++ D) rq hok.1 hv (hi.1 he) ha.1 (fun k hk => ?_) hsub (fun k l x hm => hf k l x (.inl hm))
      rcases List.mem_append.1 hk with hk | hk
      · obtain ⟨x, hx⟩ := demands_required t v hok.1 hv k hk
        exact ⟨x, hsub _ hx⟩
      · exact hD k hk
    cases o with
    | mandatory => simp only [AHasFields] at h; simp only [AValidFields]; exact ⟨⟨h.1.1, hhead h.1.1 h.1.2⟩, htail h.2⟩
    | present => simp only [AHasFields] at h; simp only [AValidFields]; exact ⟨⟨h.1.1, hhead h.1.1 h.1.2⟩, htail h.2⟩
    | absent => simp only [AHasFields] at h; simp only [AValidFields]; exact ⟨h.1, htail h.2⟩
    | optional p d =>
      cases d <;> (simp only [AHasFields] at h; simp only [AValidFields]; exact ⟨h.1.imp (fun a => ⟨a.1, hhead a.1 a.2⟩) id, htail h.2⟩)
theorem aValidAlt_of : ∀ (alts : AAlts) (i : Nat) (v : Val) (D : List Nat) (rq : List (Nat × Int)), AOkAlts alts → AHasAlt alts i v →
    InnerAlt alts i v → AskedAlts D alts → (∀ k ∈ D, ∃ x, (k, x) ∈ rq) → (∀ q ∈ requiredAlt alts i v, q ∈ rq) →
    (∀ k l x, (k, l) ∈ detsAlts alts → (k, x) ∈ rq → LeafFits l x ∧ ∀ y, (k, y) ∈ rq → y = x) → AValidAlt alts i rq v
  | .nil, i, v, D, rq, hok, h, hi, ha, hD, hrq, hf => by simp only [AHasAlt] at h
  | .cons c t rest, 0, v, D, rq, hok, h, hi, ha, hD, hrq, hf => by
    simp only [AOkAlts] at hok
    simp only [AHasAlt] at h
    simp only [InnerAlt] at hi
    simp only [AskedAlts] at ha
    simp only [requiredAlt] at hrq
    simp only [detsAlts, List.mem_append] at hf
    simp only [AValidAlt]
    refine aValid_of t v (demands t ++ D) rq hok.1 h hi ha.1 (fun k hk => ?_) hrq (fun k l x hm => hf k l x (.inl hm))
    rcases List.mem_append.1 hk with hk | hk
    · obtain ⟨x, hx⟩ := demands_required t v hok.1 h k hk
      exact ⟨x, hrq _ hx⟩
    · exact hD k hk
  | .cons c t rest, i + 1, v, D, rq, hok, h, hi, ha, hD, hrq, hf => by
    simp only [AOkAlts] at hok
    simp only [AHasAlt] at h
    simp only [InnerAlt] at hi
    simp only [AskedAlts] at ha
    simp only [requiredAlt] at hrq
    simp only [detsAlts, List.mem_append] at hf
    simp only [AValidAlt]
    exact aValidAlt_of rest i v D rq hok.2 h hi ha.2 hD hrq (fun k l x hm => hf k l x (.inr hm))
end

/-- A value of a type assignment whose requirements agree with what determinants can say. -/
theorem acnValid_of {t : ATy} {v : Val} {env : Nat → Option Int} (hok : AOk t) (hr : Relayed t) (h : AHas t v) (hi : Inner t v)
    (hag : ∀ k x, (k, x) ∈ required t v → ∃ y, env k = some y ∧ (x = y ∨ (k ∈ strKeys t ∧ 0 ≤ x ∧ x ≤ max y 0)))
    (hm : ∀ k l y, (k, l) ∈ dets t → env k = some y → DetMay l y) : AcnValid t v := by
  unfold AcnValid
  refine aValid_of t v (demands t) (required t v) hok h hi hr.asked (fun k hk => demands_required t v hok h k hk) (fun q hq => hq) ?_
  intro k l x hkl hx
  obtain ⟨y, hy, hxy⟩ := hag k x hx
  have hmay := hm k l y hkl hy
  by_cases hs : k ∈ strKeys t
  · obtain ⟨s1, s2⟩ := hr.strs k hs
    refine ⟨?_, fun z hz => askCount_unique (Nat.le_trans (askCount_le t v k hok h) s1) hz hx⟩
    rcases hxy with rfl | ⟨_, h1, h2⟩
    · exact hr.fits k l x hkl hmay
    · exact s2 l x y hkl hmay h1 h2
  · have hxy' : x = y := hxy.resolve_right (fun e => hs e.1)
    subst hxy'
    refine ⟨hr.fits k l x hkl hmay, fun z hz => ?_⟩
    obtain ⟨y', hy', hz'⟩ := hag k z hz
    rw [hy] at hy'
    cases hy'
    exact hz'.resolve_right (fun e => hs e.1)

end Asn1
