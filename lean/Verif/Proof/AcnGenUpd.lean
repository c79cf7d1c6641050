import Verif.Spec.AcnGen
/-! The update statements of a determinant set exactly what the components require. -/
namespace Asn1

theorem mergeUpd_one {us : List Upd} (h : us.length ≤ 1) : mergeUpd us = us.headD .skip := by
  match us, h with
  | [], _ => rfl
  | [u], _ => rfl

theorem mergeUpd_set {us : List Upd} {x : Int} (h0 : Upd.fail ∉ us) (h1 : Upd.set x ∈ us) (h2 : ∀ y, Upd.set y ∈ us → y = x) :
    mergeUpd us = .set x := by
  have general : ∀ us : List Upd, Upd.fail ∉ us → Upd.set x ∈ us → (∀ y, Upd.set y ∈ us → y = x) →
      (if us.contains .fail then Upd.fail
       else match us.filterMap Upd.val? with
        | [] => .fail
        | z :: zs => if zs.all (fun y => decide (y = z)) then .set z else .fail) = .set x := by
    intro us h0 h1 h2
    rw [if_neg (by simpa using h0)]
    have hx : x ∈ us.filterMap Upd.val? := List.mem_filterMap.2 ⟨_, h1, rfl⟩
    have hall : ∀ y ∈ us.filterMap Upd.val?, y = x := by
      intro y hy
      obtain ⟨u, hu, e⟩ := List.mem_filterMap.1 hy
      cases u with
      | set z => simp only [Upd.val?, Option.some.injEq] at e; subst e; exact h2 _ hu
      | skip => simp [Upd.val?] at e
      | fail => simp [Upd.val?] at e
    generalize us.filterMap Upd.val? = l at hx hall
    match l with
    | [] => simp at hx
    | z :: zs =>
      have hz := hall z (by simp)
      subst hz
      simp only
      rw [if_pos (by rw [List.all_eq_true]; intro y hy; simpa using hall y (by simp [hy]))]
  match us, h0, h1, h2 with
  | [], _, h1, _ => simp at h1
  | [u], _, h1, _ =>
    simp only [List.mem_singleton] at h1
    rw [← h1]; rfl
  | u :: u' :: us, h0, h1, h2 => exact general _ h0 h1 h2

theorem updSize_length (lo hi j k : Nat) (n : Option Nat) : (updSize lo hi j k n).length = if j = k then 1 else 0 := by
  unfold updSize
  split
  · split <;> rfl
  · rfl

theorem updStr_length (j k : Nat) (n : Option Nat) : (updStr j k n).length = if j = k then 1 else 0 := by
  unfold updStr
  split
  · split <;> rfl
  · rfl

theorem updChoice_length (alts : AAlts) (k : Nat) (i : Option Nat) : (updChoice alts k i).length = if k ∈ alts.keys then 1 else 0 := by
  unfold updChoice
  by_cases h : k ∈ alts.keys
  · rw [if_pos (by simpa using h), if_pos h]
    split
    · split <;> rfl
    · rfl
  · rw [if_neg (by simpa using h), if_neg h]; rfl

theorem updPresence_length (o : AOpt) (k : Nat) (e : Option Bool) : (updPresence o k e).length = o.uses.count k := by
  cases o with
  | optional p d =>
    cases p with
    | bit => rfl
    | whenBool j =>
      simp only [updPresence, AOpt.uses]
      by_cases h : j = k
      · subst h; cases e <;> simp
      · simp [h]
  | _ => rfl

theorem choice_length (byDet : Bool) (alts : AAlts) (k : Nat) (i : Option Nat) :
    (if byDet then updChoice alts k i else []).length = if byDet = true ∧ k ∈ alts.keys then 1 else 0 := by
  cases byDet
  · simp
  · simp [updChoice_length]

mutual
/-- One update statement for each dependent component, whether the path exists or not. -/
theorem upd_length : ∀ (t : ATy) (k : Nat) (v : Option Val), (upd t k v).length = dependents t k
  | .octets lo hi j _, k, v => by
    rcases v with _ | v
    · simp only [upd, updSize_length, dependents]
    · cases v <;> simp only [upd, updSize_length, dependents]
  | .bits lo hi j _, k, v => by
    rcases v with _ | v
    · simp only [upd, updSize_length, dependents]
    · cases v <;> simp only [upd, updSize_length, dependents]
  | .strExt _ _ _ j, k, v => by
    rcases v with _ | v
    · simp only [upd, updStr_length, dependents]
    · cases v <;> simp only [upd, updStr_length, dependents]
  | .strIdx _ _ _ j, k, v => by
    rcases v with _ | v
    · simp only [upd, updStr_length, dependents]
    · cases v <;> simp only [upd, updStr_length, dependents]
  | .seq fs, k, v => by
    rcases v with _ | v
    · simp only [upd, dependents, updFields_length fs k]
    · cases v <;> simp only [upd, dependents, updFields_length fs k]
  | .seqOf lo hi (some j) _, k, v => by
    rcases v with _ | v
    · simp only [upd, updSize_length, dependents]
    · cases v <;> simp only [upd, updSize_length, dependents]
  | .seqOf lo hi none _, k, v => by
    simp only [upd, dependents, List.length_nil]
  | .choice byDet alts, k, v => by
    have h1 := choice_length byDet alts k
    have h2 := updAlts_length alts k
    simp only [dependents]
    rcases v with _ | v
    · simp only [upd, List.length_append, h1, h2]
    · cases v <;> simp only [upd, List.length_append, h1, h2]
  | .ref args t, k, v => by
    simp only [upd, dependents, List.length_map, List.countP_eq_length_filter]
  | .align _ t, k, v => by
    simp only [upd, dependents]; exact upd_length t k v
  | .prim _, k, v => by simp [upd, dependents]
  | .leaf _, k, v => by simp [upd, dependents]
  | .nullPat _ _, k, v => by simp [upd, dependents]
  | .real64 _ _, k, v => by simp [upd, dependents]
  | .real32 _ _, k, v => by simp [upd, dependents]
  | .strAscii _ _ _, k, v => by simp [upd, dependents]
  | .strNull _ _ _ _, k, v => by simp [upd, dependents]
theorem updFields_length : ∀ (fs : AFields) (k : Nat) (v : Option (List (Bool × Val))), (updFields fs k v).length = dependentsFields fs k
  | .nil, k, v => by simp only [updFields, dependentsFields, List.length_nil]
  | .asn1 o t rest, k, v => by
    have h1 := updPresence_length o k
    have h2 := upd_length t k
    have h3 := updFields_length rest k
    simp only [dependentsFields]
    rcases v with _ | v
    · simp only [updFields, List.length_append, h1, h2, h3]
    · cases v <;> simp only [updFields, List.length_append, h1, h2, h3]
  | .acn _ _ _ rest, k, v => by simp only [updFields, dependentsFields]; exact updFields_length rest k v
  | .acnNull _ _ rest, k, v => by simp only [updFields, dependentsFields]; exact updFields_length rest k v
theorem updAlts_length : ∀ (alts : AAlts) (k : Nat) (v : Option (Nat × Val)), (updAlts alts k v).length = dependentsAlts alts k
  | .nil, k, v => by simp only [updAlts, dependentsAlts, List.length_nil]
  | .cons c t rest, k, v => by
    have h2 := upd_length t k
    have h3 := updAlts_length rest k
    simp only [dependentsAlts]
    rcases v with _ | ⟨_ | i, v⟩ <;> simp only [updAlts, List.length_append, h2, h3]
end

theorem updSize_none (lo hi j k : Nat) : ∀ u ∈ updSize lo hi j k none, u = .skip := by
  intro u hu; unfold updSize at hu; split at hu <;> simp_all

theorem updStr_none (j k : Nat) : ∀ u ∈ updStr j k none, u = .skip := by
  intro u hu; unfold updStr at hu; split at hu <;> simp_all

theorem updChoice_none (alts : AAlts) (k : Nat) : ∀ u ∈ updChoice alts k none, u = .skip := by
  intro u hu; unfold updChoice at hu; split at hu <;> simp_all

theorem updPresence_none (o : AOpt) (k : Nat) : ∀ u ∈ updPresence o k none, u = .skip := by
  intro u hu; unfold updPresence at hu; split at hu
  · split at hu <;> simp_all
  · simp at hu

mutual
/-- Where the path does not exist nothing is set. -/
theorem upd_none : ∀ (t : ATy) (k : Nat), AOk t → ∀ u ∈ upd t k none, u = .skip
  | .octets lo hi j _, k, _ => by simp only [upd]; exact updSize_none _ _ _ _
  | .bits lo hi j _, k, _ => by simp only [upd]; exact updSize_none _ _ _ _
  | .strExt _ _ _ j, k, _ => by simp only [upd]; exact updStr_none _ _
  | .strIdx _ _ _ j, k, _ => by simp only [upd]; exact updStr_none _ _
  | .seq fs, k, h => by simp only [upd]; simp only [AOk] at h; exact updFields_none fs k h
  | .seqOf lo hi (some j) _, k, _ => by simp only [upd]; exact updSize_none _ _ _ _
  | .seqOf lo hi none _, k, _ => by simp [upd]
  | .choice byDet alts, k, h => by
    simp only [AOk] at h
    simp only [upd]
    intro u hu
    rcases List.mem_append.1 hu with hu | hu
    · cases byDet
      · simp at hu
      · exact updChoice_none alts k u (by simpa using hu)
    · exact updAlts_none alts k h.2.2.2 u hu
  | .ref args t, k, h => by
    simp only [AOk] at h
    simp only [upd]
    intro u hu
    obtain ⟨a, ha, rfl⟩ := List.mem_map.1 hu
    have ha' := (List.mem_filter.1 ha).1
    rw [mergeUpd_one (by rw [upd_length]; exact h.2.1 a ha')]
    match hl : upd t a.2 none with
    | [] => rfl
    | w :: _ => exact upd_none t a.2 h.2.2 w (by rw [hl]; simp)
  | .align _ t, k, h => by simp only [upd]; simp only [AOk] at h; exact upd_none t k h
  | .prim _, k, _ => by simp [upd]
  | .leaf _, k, _ => by simp [upd]
  | .nullPat _ _, k, _ => by simp [upd]
  | .real64 _ _, k, _ => by simp [upd]
  | .real32 _ _, k, _ => by simp [upd]
  | .strAscii _ _ _, k, _ => by simp [upd]
  | .strNull _ _ _ _, k, _ => by simp [upd]
theorem updFields_none : ∀ (fs : AFields) (k : Nat), AOkFields fs → ∀ u ∈ updFields fs k none, u = .skip
  | .nil, k, _ => by simp [updFields]
  | .asn1 o t rest, k, h => by
    simp only [AOkFields] at h
    simp only [updFields]
    intro u hu
    rcases List.mem_append.1 hu with hu | hu
    · rcases List.mem_append.1 hu with hu | hu
      · exact updPresence_none o k u hu
      · exact upd_none t k h.1 u hu
    · exact updFields_none rest k h.2 u hu
  | .acn _ _ _ rest, k, h => by simp only [updFields]; simp only [AOkFields] at h; exact updFields_none rest k h
  | .acnNull _ _ rest, k, h => by simp only [updFields]; simp only [AOkFields] at h; exact updFields_none rest k h.2
theorem updAlts_none : ∀ (alts : AAlts) (k : Nat), AOkAlts alts → ∀ u ∈ updAlts alts k none, u = .skip
  | .nil, k, _ => by simp [updAlts]
  | .cons c t rest, k, h => by
    simp only [AOkAlts] at h
    simp only [updAlts]
    intro u hu
    rcases List.mem_append.1 hu with hu | hu
    · exact upd_none t k h.1 u hu
    · exact updAlts_none rest k h.2 u hu
end

/-- The update statements set exactly what is required, and none fails. -/
def Sets (us : List Upd) (rq : List (Nat × Int)) (k : Nat) : Prop :=
  Upd.fail ∉ us ∧ ∀ x, Upd.set x ∈ us ↔ (k, x) ∈ rq

theorem Sets.nil (k : Nat) : Sets [] [] k := ⟨by simp, fun x => by simp⟩

theorem Sets.append {us vs : List Upd} {rq rs : List (Nat × Int)} {k : Nat} (h1 : Sets us rq k) (h2 : Sets vs rs k) :
    Sets (us ++ vs) (rq ++ rs) k :=
  ⟨by rw [List.mem_append]; rintro (h | h); exacts [h1.1 h, h2.1 h],
   fun x => by rw [List.mem_append, List.mem_append, h1.2, h2.2]⟩

theorem Sets.skips {us : List Upd} (h : ∀ u ∈ us, u = .skip) (k : Nat) : Sets us [] k :=
  ⟨fun hf => by have := h _ hf; simp at this, fun x => by
    simp only [List.not_mem_nil, iff_false]
    intro hx; have := h _ hx; simp at this⟩

theorem Sets.one {j k : Nat} {x : Int} {us : List Upd} (h1 : j = k → us = [.set x]) (h2 : j ≠ k → us = []) : Sets us [(j, x)] k := by
  by_cases h : j = k
  · rw [h1 h]
    subst h
    refine ⟨by simp, fun y => ?_⟩
    simp
  · rw [h2 h]
    refine ⟨by simp, fun y => ?_⟩
    simp [Ne.symm h]

theorem updSize_sets {lo hi j k n : Nat} (h1 : lo ≤ n) (h2 : n ≤ hi) : Sets (updSize lo hi j k (some n)) [(j, (n : Int))] k := by
  apply Sets.one
  · intro h
    simp only [updSize, if_pos h]
    split
    · rw [show lo = n by omega]
    · rfl
  · intro h; simp only [updSize, if_neg h]

theorem updStr_sets {j k n : Nat} : Sets (updStr j k (some n)) [(j, (n : Int))] k := by
  apply Sets.one
  · intro h; simp only [updStr, if_pos h]
  · intro h; simp only [updStr, if_neg h]

theorem updPresence_sets (o : AOpt) (k : Nat) (e : Bool) : Sets (updPresence o k (some e)) (reqPresence o e) k := by
  unfold updPresence reqPresence
  split
  · rename_i j d
    apply Sets.one
    · intro h; rw [if_pos h]
    · intro h; rw [if_neg h]
  · rename_i h
    split
    · rename_i j d; exact absurd rfl (h j d)
    · exact Sets.nil k

theorem cond_eq (k : Nat) : ∀ (alts : AAlts) (i : Nat), alts.cond i k = (alts.conds.getD i []).lookup k
  | .nil, i => by simp [AAlts.cond, AAlts.conds]
  | .cons c t rest, 0 => by simp [AAlts.cond, AAlts.conds]
  | .cons c t rest, i + 1 => by
    simp only [AAlts.cond, AAlts.conds, List.getD_cons_succ]
    exact cond_eq k rest i

theorem lookup_iff : ∀ {c : List (Nat × Int)} {k : Nat} {x : Int}, (c.map (·.1)).Nodup → (c.lookup k = some x ↔ (k, x) ∈ c)
  | [], k, x, _ => by simp
  | (a, b) :: c, k, x, hn => by
    rw [List.map_cons, List.nodup_cons] at hn
    rw [List.lookup_cons]
    by_cases h : k = a
    · subst h
      simp only [beq_self_eq_true, Option.some.injEq, List.mem_cons, Prod.mk.injEq, true_and]
      constructor
      · intro h; exact Or.inl h.symm
      · rintro (h | h)
        · exact h.symm
        · exact absurd (List.mem_map_of_mem (f := (·.1)) h) hn.1
    · simp only [beq_eq_false_iff_ne.2 h, List.mem_cons, Prod.mk.injEq, h, false_and, false_or]
      exact lookup_iff hn.2

theorem conds_length : ∀ alts : AAlts, alts.conds.length = alts.length
  | .nil => rfl
  | .cons _ _ rest => by simp only [AAlts.conds, AAlts.length, List.length_cons, conds_length rest]

theorem updChoice_sets {alts : AAlts} (h : alts.Told) {i : Nat} (hi : i < alts.length) (k : Nat) :
    Sets (updChoice alts k (some i)) (alts.conds.getD i []) k := by
  have hm : alts.conds.getD i [] ∈ alts.conds := by
    rw [List.getD_eq_getElem?_getD, List.getElem?_eq_getElem (by rw [conds_length]; exact hi)]
    exact List.getElem_mem _
  obtain ⟨hn, hk⟩ := h.1 _ hm
  generalize hc : alts.conds.getD i [] = c at *
  unfold updChoice
  by_cases hkk : k ∈ alts.keys
  · rw [if_pos (by simpa using hkk)]
    simp only [cond_eq, hc]
    obtain ⟨p, hp, hpk⟩ := List.mem_map.1 ((hk k).2 hkk)
    have hl : c.lookup k = some p.2 := (lookup_iff hn).2 (by rw [← hpk]; exact hp)
    simp only [hl]
    refine ⟨by simp, fun x => ?_⟩
    rw [← lookup_iff hn, hl]
    simp [eq_comm]
  · rw [if_neg (by simpa using hkk)]
    refine ⟨by simp, fun x => ?_⟩
    simp only [List.not_mem_nil, false_iff]
    intro hx
    exact hkk ((hk k).1 (List.mem_map_of_mem (f := (·.1)) hx))

theorem aValidAlt_lt : ∀ {alts : AAlts} {i : Nat} {rq : List (Nat × Int)} {v : Val}, AValidAlt alts i rq v → i < alts.length
  | .nil, _, _, _, h => by simp [AValidAlt] at h
  | .cons _ _ rest, 0, _, _, _ => by simp [AAlts.length]
  | .cons _ _ rest, i + 1, _, _, h => by
    simp only [AValidAlt] at h
    have := aValidAlt_lt h
    simp only [AAlts.length]; omega

theorem aHasAlt_lt : ∀ {alts : AAlts} {i : Nat} {v : Val}, AHasAlt alts i v → i < alts.length
  | .nil, _, _, h => by simp [AHasAlt] at h
  | .cons _ _ rest, 0, _, _ => by simp [AAlts.length]
  | .cons _ _ rest, i + 1, _, h => by
    simp only [AHasAlt] at h
    have := aHasAlt_lt h
    simp only [AAlts.length]; omega

mutual
theorem aValid_has : ∀ (t : ATy) (rq : List (Nat × Int)) (v : Val), AValid t rq v → AHas t v
  | .prim t, rq, v, h => by simp only [AValid] at h; simp only [AHas]; exact h
  | .leaf l, rq, v, h => by simp only [AValid] at h; simp only [AHas]; exact h
  | .nullPat _ _, rq, v, h => by cases v <;> simp only [AValid] at h; simp only [AHas]
  | .real64 _ _, rq, v, h => by cases v <;> simp only [AValid] at h; simp only [AHas]; exact h
  | .real32 _ _, rq, v, h => by cases v <;> simp only [AValid] at h; simp only [AHas]; exact h
  | .octets _ _ _ _, rq, v, h => by cases v <;> simp only [AValid] at h; simp only [AHas]; exact h
  | .bits _ _ _ _, rq, v, h => by cases v <;> simp only [AValid] at h; simp only [AHas]; exact h
  | .strAscii _ _ _, rq, v, h => by cases v <;> simp only [AValid] at h; simp only [AHas]; exact h
  | .strNull _ _ _ _, rq, v, h => by cases v <;> simp only [AValid] at h; simp only [AHas]; exact h
  | .strExt _ _ _ _, rq, v, h => by cases v <;> simp only [AValid] at h; simp only [AHas]; exact h
  | .strIdx _ _ _ _, rq, v, h => by cases v <;> simp only [AValid] at h; simp only [AHas]; exact h
  | .seq fs, rq, v, h => by cases v <;> simp only [AValid] at h; simp only [AHas]; exact aValid_hasFields fs rq _ h
  | .seqOf lo hi k t, rq, v, h => by
    cases v <;> simp only [AValid] at h
    simp only [AHas]
    exact ⟨h.1, h.2.1, fun v hv => aValid_has t _ v (h.2.2 v hv)⟩
  | .choice _ alts, rq, v, h => by cases v <;> simp only [AValid] at h; simp only [AHas]; exact aValid_hasAlt alts _ rq _ h
  | .ref _ t, rq, v, h => by simp only [AValid] at h; simp only [AHas]; exact aValid_has t _ v h
  | .align _ t, rq, v, h => by simp only [AValid] at h; simp only [AHas]; exact aValid_has t _ v h
theorem aValid_hasFields : ∀ (fs : AFields) (rq : List (Nat × Int)) (vs : List (Bool × Val)), AValidFields fs rq vs → AHasFields fs vs
  | .nil, rq, [], _ => by simp only [AHasFields]
  | .nil, rq, _ :: _, h => by simp [AValidFields] at h
  | .asn1 o t rest, rq, [], h => by cases o <;> simp [AValidFields] at h
  | .asn1 o t rest, rq, (e, v) :: vs, h => by
    have ih := aValid_hasFields rest rq vs
    have iv := aValid_has t rq v
    cases o with
    | optional p d =>
      cases d <;> simp only [AValidFields] at h <;> simp only [AHasFields] <;> exact ⟨h.1.imp (fun h => ⟨h.1, iv h.2⟩) id, ih h.2⟩
    | absent => simp only [AValidFields] at h; simp only [AHasFields]; exact ⟨h.1, ih h.2⟩
    | mandatory => simp only [AValidFields] at h; simp only [AHasFields]; exact ⟨⟨h.1.1, iv h.1.2⟩, ih h.2⟩
    | present => simp only [AValidFields] at h; simp only [AHasFields]; exact ⟨⟨h.1.1, iv h.1.2⟩, ih h.2⟩
  | .acn _ _ _ rest, rq, vs, h => by
    simp only [AValidFields] at h; simp only [AHasFields]; exact aValid_hasFields rest rq vs h.2
  | .acnNull _ _ rest, rq, vs, h => by
    simp only [AValidFields] at h; simp only [AHasFields]; exact aValid_hasFields rest rq vs h
theorem aValid_hasAlt : ∀ (alts : AAlts) (i : Nat) (rq : List (Nat × Int)) (v : Val), AValidAlt alts i rq v → AHasAlt alts i v
  | .nil, _, _, _, h => by simp [AValidAlt] at h
  | .cons _ t _, 0, rq, v, h => by simp only [AValidAlt] at h; simp only [AHasAlt]; exact aValid_has t rq v h
  | .cons _ _ rest, i + 1, rq, v, h => by simp only [AValidAlt] at h; simp only [AHasAlt]; exact aValid_hasAlt rest i rq v h
end

mutual
theorem upd_sets : ∀ (t : ATy) (v : Val) (k : Nat), AOk t → AHas t v → Sets (upd t k (some v)) (required t v) k
  | .octets lo hi j _, v, k, _, h => by
    cases v <;> simp only [AHas] at h
    simp only [upd, required]; exact updSize_sets h.1 h.2
  | .bits lo hi j _, v, k, _, h => by
    cases v <;> simp only [AHas] at h
    simp only [upd, required]; exact updSize_sets h.1 h.2.1
  | .strExt _ _ _ j, v, k, _, h => by
    cases v <;> simp only [AHas] at h
    simp only [upd, required]; exact updStr_sets
  | .strIdx _ _ _ j, v, k, _, h => by
    cases v <;> simp only [AHas] at h
    simp only [upd, required]; exact updStr_sets
  | .seq fs, v, k, ho, h => by
    cases v <;> simp only [AHas] at h
    simp only [AOk] at ho
    simp only [upd, required]; exact updFields_sets fs _ k ho h
  | .seqOf lo hi (some j) _, v, k, _, h => by
    cases v <;> simp only [AHas] at h
    simp only [upd, required]; exact updSize_sets h.1 h.2.1
  | .seqOf lo hi none _, v, k, _, h => by
    cases v <;> simp only [AHas] at h
    simp only [upd, required]; exact Sets.nil k
  | .choice byDet alts, v, k, ho, h => by
    cases v <;> simp only [AHas] at h
    simp only [AOk] at ho
    simp only [upd, required]
    refine Sets.append ?_ (updAlts_sets alts _ _ k ho.2.2.2 h)
    cases byDet
    · exact Sets.nil k
    · simp only [if_true]
      exact updChoice_sets (ho.2.2.1 rfl) (aHasAlt_lt h) k
  | .ref args t, v, k, ho, h => by
    simp only [AHas] at h
    simp only [AOk] at ho
    simp only [upd, required]
    have key : ∀ a ∈ args, (mergeUpd (upd t a.2 (some v)) ≠ .fail) ∧ ∀ x, (mergeUpd (upd t a.2 (some v)) = .set x ↔ (a.2, x) ∈ required t v) := by
      intro a ha
      obtain ⟨h1, h2⟩ := upd_sets t v a.2 ho.2.2 h
      rw [mergeUpd_one (by rw [upd_length]; exact ho.2.1 a ha)]
      have hl : (upd t a.2 (some v)).length ≤ 1 := by rw [upd_length]; exact ho.2.1 a ha
      revert h1 h2 hl
      generalize upd t a.2 (some v) = us
      intro h1 h2 hl
      match us, hl with
      | [], _ => exact ⟨by simp, fun x => by rw [← h2]; simp⟩
      | [u], _ =>
        refine ⟨?_, fun x => ?_⟩
        · simp only [List.mem_singleton] at h1
          exact fun e => h1 e.symm
        · rw [← h2]
          simp [eq_comm]
    refine ⟨?_, fun x => ?_⟩
    · intro hf
      obtain ⟨a, ha, e⟩ := List.mem_map.1 hf
      exact (key a (List.mem_filter.1 ha).1).1 e
    · rw [List.mem_map, List.mem_flatMap]
      constructor
      · rintro ⟨a, ha, e⟩
        obtain ⟨ha1, ha2⟩ := List.mem_filter.1 ha
        simp only [decide_eq_true_eq] at ha2
        refine ⟨a, ha1, ?_⟩
        rw [List.mem_map]
        exact ⟨(a.2, x), List.mem_filter.2 ⟨((key a ha1).2 x).1 e, by simp⟩, by rw [ha2]⟩
      · rintro ⟨a, ha, e⟩
        rw [List.mem_map] at e
        obtain ⟨q, hq, e⟩ := e
        obtain ⟨hq1, hq2⟩ := List.mem_filter.1 hq
        simp only [decide_eq_true_eq] at hq2
        simp only [Prod.mk.injEq] at e
        refine ⟨a, List.mem_filter.2 ⟨ha, by simpa using e.1⟩, ?_⟩
        rw [(key a ha).2 x, ← hq2, ← e.2]
        exact hq1
  | .align _ t, v, k, ho, h => by
    simp only [AHas] at h
    simp only [AOk] at ho
    simp only [upd, required]; exact upd_sets t v k ho h
  | .prim _, v, k, _, h => by cases v <;> simp only [upd, required] <;> exact Sets.nil k
  | .leaf _, v, k, _, h => by cases v <;> simp only [upd, required] <;> exact Sets.nil k
  | .nullPat _ _, v, k, _, h => by cases v <;> simp only [upd, required] <;> exact Sets.nil k
  | .real64 _ _, v, k, _, h => by cases v <;> simp only [upd, required] <;> exact Sets.nil k
  | .real32 _ _, v, k, _, h => by cases v <;> simp only [upd, required] <;> exact Sets.nil k
  | .strAscii _ _ _, v, k, _, h => by cases v <;> simp only [upd, required] <;> exact Sets.nil k
  | .strNull _ _ _ _, v, k, _, h => by cases v <;> simp only [upd, required] <;> exact Sets.nil k
theorem updFields_sets : ∀ (fs : AFields) (vs : List (Bool × Val)) (k : Nat), AOkFields fs → AHasFields fs vs →
    Sets (updFields fs k (some vs)) (requiredFields fs vs) k
  | .nil, vs, k, _, _ => by
    simp only [updFields]
    cases vs <;> simp only [requiredFields] <;> exact Sets.nil k
  | .asn1 o t rest, [], k, _, h => by cases o <;> simp [AHasFields] at h
  | .asn1 o t rest, (e, v) :: vs, k, ho, h => by
    simp only [AOkFields] at ho
    have step : AHasFields rest vs → (o.live e = e) → (e = true → AHas t v) →
        Sets (updFields (.asn1 o t rest) k (some ((e, v) :: vs))) (requiredFields (.asn1 o t rest) ((e, v) :: vs)) k := by
      intro hr hl hv
      simp only [updFields, requiredFields]
      refine ((updPresence_sets o k e).append ?_).append (updFields_sets rest vs k ho.2 hr)
      rw [hl]
      cases e
      · exact Sets.skips (upd_none t k ho.1) k
      · exact upd_sets t v k ho.1 (hv rfl)
    cases o with
    | mandatory =>
      simp only [AHasFields] at h
      exact step h.2 (by simp [AOpt.live, h.1.1]) (fun _ => h.1.2)
    | optional p d =>
      cases d with
      | none =>
        simp only [AHasFields] at h
        refine step h.2 rfl (fun he => ?_)
        rcases h.1 with h' | h'
        · exact h'.2
        · rw [he] at h'; simp at h'
      | some d =>
        simp only [AHasFields] at h
        refine step h.2 rfl (fun he => ?_)
        rcases h.1 with h' | h'
        · exact h'.2
        · rw [he] at h'; simp at h'
    | absent =>
      simp only [AHasFields] at h
      exact step h.2 rfl (fun he => by rw [he] at h; simp at h)
    | present =>
      simp only [AHasFields] at h
      exact step h.2 rfl (fun _ => h.1.2)
  | .acn _ _ _ rest, vs, k, ho, h => by
    simp only [AHasFields] at h
    simp only [AOkFields] at ho
    simp only [updFields, requiredFields]; exact updFields_sets rest vs k ho h
  | .acnNull _ _ rest, vs, k, ho, h => by
    simp only [AHasFields] at h
    simp only [AOkFields] at ho
    simp only [updFields, requiredFields]; exact updFields_sets rest vs k ho.2 h
theorem updAlts_sets : ∀ (alts : AAlts) (i : Nat) (v : Val) (k : Nat), AOkAlts alts → AHasAlt alts i v →
    Sets (updAlts alts k (some (i, v))) (requiredAlt alts i v) k
  | .nil, _, _, _, _, h => by simp [AHasAlt] at h
  | .cons c t rest, 0, v, k, ho, h => by
    simp only [AHasAlt] at h
    simp only [AOkAlts] at ho
    simp only [updAlts, requiredAlt]
    have := (upd_sets t v k ho.1 h).append (Sets.skips (updAlts_none rest k ho.2) k)
    rwa [List.append_nil] at this
  | .cons c t rest, i + 1, v, k, ho, h => by
    simp only [AHasAlt] at h
    simp only [AOkAlts] at ho
    simp only [updAlts, requiredAlt]
    have := (Sets.skips (upd_none t k ho.1) k).append (updAlts_sets rest i v k ho.2 h)
    rwa [List.nil_append] at this
end

/-- A determinant of which one value is required is set to it. -/
theorem merge_demands {t : ATy} {rq : List (Nat × Int)} {v : Val} (ho : AOk t) (h : AValid t rq v) {k : Nat} {x : Int}
    (hd : Demands (required t v) k x) : mergeUpd (upd t k (some v)) = .set x := by
  obtain ⟨h1, h2⟩ := upd_sets t v k ho (aValid_has t rq v h)
  exact mergeUpd_set h1 ((h2 x).2 hd.1) (fun y hy => hd.2 y ((h2 y).1 hy))

theorem demanded_eq : ∀ {rq : List (Nat × Int)} {k : Nat} {x : Int}, Demands rq k x → demanded rq k = x
  | rq, k, x, ⟨h1, h2⟩ => by
    unfold demanded
    cases hl : rq.lookup k with
    | none =>
      have := List.lookup_eq_none_iff.1 hl _ h1
      simp at this
    | some y =>
      have : (k, y) ∈ rq := by
        clear h1 h2
        induction rq with
        | nil => simp at hl
        | cons p rq ih =>
          obtain ⟨a, b⟩ := p
          rw [List.lookup_cons] at hl
          by_cases h : k = a
          · subst h; simp at hl; subst hl; simp
          · simp only [beq_eq_false_iff_ne.2 h] at hl
            exact List.mem_cons_of_mem _ (ih hl)
      simp only [Option.getD_some]
      exact h2 y this

end Asn1
