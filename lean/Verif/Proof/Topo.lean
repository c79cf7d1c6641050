import Verif.Spec.Topo
import Mathlib.Data.List.Perm.Basic
import Mathlib.Data.Fintype.Pigeonhole
import Mathlib.Logic.Function.Iterate
/-! # Lemmas about the topological sort -/
namespace Asn1

section
variable {α β : Type} (cmp : β → α → Bool)

/-- Everything the entry needs is among `done`. -/
def readyB (done : List (α × List β)) (j : α × List β) : Bool := j.2.all fun d => done.any fun b => cmp d b.1

/-- The entries that are ready, those that are not. -/
def readyOf (done pend : List (α × List β)) : List (α × List β) := pend.filter (readyB cmp done)
def waitingOf (done pend : List (α × List β)) : List (α × List β) := pend.filter fun j => !readyB cmp done j

theorem readyOf_waitingOf (done pend : List (α × List β)) :
    (readyOf cmp done pend).length + (waitingOf cmp done pend).length = pend.length := by
  induction pend with
  | nil => rfl
  | cons a l ih =>
    simp only [readyOf, waitingOf] at ih ⊢
    cases h : readyB cmp done a <;> simp [h] <;> omega

/-- The sort with the dependency lists kept. -/
def topoG : (done ready pend : List (α × List β)) → List (α × List β) × List (α × List β)
  | done, [], pend => (done, pend)
  | done, h :: t, pend => topoG (done ++ [h]) (readyOf cmp (done ++ [h]) pend ++ t) (waitingOf cmp (done ++ [h]) pend)
termination_by _ ready pend => ready.length + pend.length
decreasing_by
  have := readyOf_waitingOf cmp (done ++ [h]) pend
  simp only [List.length_append, List.length_cons] at this ⊢
  omega

/-- What is left of the dependencies of an entry. -/
def restOf (done : List (α × List β)) (j : α × List β) : α × List β :=
  (j.1, j.2.filter fun d => !done.any fun b => cmp d b.1)

theorem restOf_step (done : List (α × List β)) (h j : α × List β) :
    ((restOf cmp done j).1, (restOf cmp done j).2.filter fun x => !cmp x h.1) = restOf cmp (done ++ [h]) j := by
  simp only [restOf, List.filter_filter, List.any_append, List.any_cons, List.any_nil, Bool.or_false]
  congr 2
  funext d
  cases cmp d h.1 <;> simp

theorem restOf_isEmpty (done : List (α × List β)) (j : α × List β) :
    (restOf cmp done j).2.isEmpty = readyB cmp done j := by
  rw [Bool.eq_iff_iff]
  simp only [restOf, readyB, List.isEmpty_iff, List.filter_eq_nil_iff, List.all_eq_true]
  simp

theorem topoAux_eq : ∀ (done ready pend : List (α × List β)),
    topoAux cmp (ready.map Prod.fst) (pend.map (restOf cmp done)) (done.map Prod.fst).reverse
      = ((topoG cmp done ready pend).1.map Prod.fst, (topoG cmp done ready pend).2.map (restOf cmp (topoG cmp done ready pend).1))
  | done, [], pend => by simp [topoAux, topoG]
  | done, h :: t, pend => by
    have ih := topoAux_eq (done ++ [h]) (readyOf cmp (done ++ [h]) pend ++ t) (waitingOf cmp (done ++ [h]) pend)
    rw [topoG, ← ih]
    simp only [List.map_cons, topoAux, dropDone, nowReady, stillWaiting, List.map_map]
    have e1 : ((fun p : α × List β => (p.1, p.2.filter fun x => !cmp x h.1)) ∘ restOf cmp done) = restOf cmp (done ++ [h]) := by
      funext j; exact restOf_step cmp done h j
    rw [e1]
    simp only [readyOf, waitingOf, List.filter_map, List.map_append, List.map_map, List.reverse_append, List.map_cons, List.map_nil, List.reverse_cons,
      List.reverse_nil, List.nil_append, List.cons_append]
    have e2 : ((fun p : α × List β => p.2.isEmpty) ∘ restOf cmp (done ++ [h])) = readyB cmp (done ++ [h]) := by
      funext j; exact restOf_isEmpty cmp _ j
    have e3 : ((fun p : α × List β => !p.2.isEmpty) ∘ restOf cmp (done ++ [h])) = fun j => !readyB cmp (done ++ [h]) j := by
      funext j; simp only [Function.comp]; rw [restOf_isEmpty]
    have e4 : (Prod.fst ∘ restOf cmp (done ++ [h])) = Prod.fst := rfl
    rw [e2, e3, e4]
termination_by _ ready pend => ready.length + pend.length
decreasing_by
  have := readyOf_waitingOf cmp (done ++ [h]) pend
  simp only [List.length_append, List.length_cons] at this ⊢
  omega

theorem readyB_mono {done done' : List (α × List β)} (hs : ∀ x ∈ done, x ∈ done') {j : α × List β}
    (h : readyB cmp done j = true) : readyB cmp done' j = true := by
  simp only [readyB, List.all_eq_true, List.any_eq_true] at h ⊢
  intro d hd
  obtain ⟨b, hb, hc⟩ := h d hd
  exact ⟨b, hs b hb, hc⟩

theorem inOrder_snoc {done : List (α × List β)} {h : α × List β} (ho : InOrder (fun d n => cmp d n = true) done)
    (hr : readyB cmp done h = true) : InOrder (fun d n => cmp d n = true) (done ++ [h]) := by
  intro before entry after he d hd
  rcases List.eq_nil_or_concat after with rfl | ⟨a', x, rfl⟩
  · have he' : done ++ [h] = before ++ [entry] := he
    obtain ⟨rfl, hx⟩ := List.append_inj' he' rfl
    simp only [List.cons.injEq, and_true] at hx
    subst hx
    simp only [readyB, List.all_eq_true, List.any_eq_true] at hr
    obtain ⟨b, hb, hc⟩ := hr d hd
    exact ⟨b, hb, hc⟩
  · have he' : done ++ [h] = (before ++ entry :: a') ++ [x] := by simpa using he
    obtain ⟨rfl, _⟩ := List.append_inj' he' rfl
    exact ho before entry a' rfl d hd

theorem topoG_spec : ∀ (done ready pend : List (α × List β)),
    InOrder (fun d n => cmp d n = true) done → (∀ j ∈ ready, readyB cmp done j = true) → (∀ j ∈ pend, readyB cmp done j = false) →
    ((topoG cmp done ready pend).1 ++ (topoG cmp done ready pend).2).Perm (done ++ (ready ++ pend)) ∧
    InOrder (fun d n => cmp d n = true) (topoG cmp done ready pend).1 ∧
    ∀ j ∈ (topoG cmp done ready pend).2, readyB cmp (topoG cmp done ready pend).1 j = false
  | done, [], pend => by
    intro ho _ hp
    simp only [topoG]
    exact ⟨by simp, ho, hp⟩
  | done, h :: t, pend => by
    intro ho hr hp
    rw [topoG]
    have ih := topoG_spec (done ++ [h]) (readyOf cmp (done ++ [h]) pend ++ t) (waitingOf cmp (done ++ [h]) pend)
      (inOrder_snoc cmp ho (hr h (by simp)))
      (by
        intro j hj
        rcases List.mem_append.1 hj with hj | hj
        · exact (List.mem_filter.1 hj).2
        · exact readyB_mono cmp (fun x hx => List.mem_append_left _ hx) (hr j (List.mem_cons_of_mem _ hj)))
      (by
        intro j hj
        simpa using (List.mem_filter.1 hj).2)
    refine ⟨ih.1.trans ?_, ih.2⟩
    have hperm := List.filter_append_perm (readyB cmp (done ++ [h])) pend
    rw [List.append_assoc, List.append_assoc]
    refine List.Perm.append_left done ?_
    simp only [List.cons_append, List.nil_append]
    refine List.Perm.cons h ?_
    rw [← List.append_assoc]
    refine (List.Perm.append_right _ List.perm_append_comm).trans ?_
    rw [List.append_assoc]
    exact List.Perm.append_left t hperm
termination_by _ ready pend => ready.length + pend.length
decreasing_by
  have := readyOf_waitingOf cmp (done ++ [h]) pend
  simp only [List.length_append, List.length_cons] at this ⊢
  omega

/-- The entries of `sortNodes`. -/
def allEntries (imports : List α) (nodes : List (α × List β)) : List (α × List β) := imports.map (fun n => (n, [])) ++ nodes

/-- One run of the sort: what is sorted and what is left. -/
theorem sortNodes_run (imports : List α) (nodes : List (α × List β)) :
    ∃ D P : List (α × List β), (D ++ P).Perm (allEntries imports nodes) ∧ InOrder (fun d n => cmp d n = true) D ∧
      (∀ j ∈ P, readyB cmp D j = false) ∧
      sortNodes cmp imports nodes = if P = [] then .ok (D.map Prod.fst) else .error (P.map (restOf cmp D)) := by
  let ready := imports.map (fun n => ((n, []) : α × List β)) ++ nodes.filter fun p => p.2.isEmpty
  let pend := nodes.filter fun p => !p.2.isEmpty
  have hrun := topoG_spec cmp [] ready pend
    (by intro b e a h; simp at h)
    (by
      intro j hj
      have : j.2 = [] := by
        rcases List.mem_append.1 hj with hj | hj
        · obtain ⟨n, _, rfl⟩ := List.mem_map.1 hj; rfl
        · simpa using (List.mem_filter.1 hj).2
      simp [readyB, this])
    (by
      intro j hj
      have hne : j.2 ≠ [] := by simpa using (List.mem_filter.1 hj).2
      cases hj2 : j.2 with
      | nil => exact absurd hj2 hne
      | cons a l => simp [readyB, hj2])
  refine ⟨(topoG cmp [] ready pend).1, (topoG cmp [] ready pend).2, hrun.1.trans ?_, hrun.2.1, hrun.2.2, ?_⟩
  · simp only [List.nil_append, allEntries, ready, pend, List.append_assoc]
    exact List.Perm.append_left _ (List.filter_append_perm _ nodes)
  · have he := topoAux_eq cmp [] ready pend
    have hid : (pend.map (restOf cmp [])) = pend := by
      have : restOf cmp ([] : List (α × List β)) = id := by funext j; simp [restOf]
      rw [this, List.map_id]
    have hr : ready.map Prod.fst = imports ++ (nodes.filter fun p => p.2.isEmpty).map Prod.fst := by
      simp [ready, Function.comp_def]
    rw [hid, hr] at he
    simp only [List.map_nil, List.reverse_nil] at he
    simp only [sortNodes, topoSort, nowReady, stillWaiting]
    change topoAux cmp (imports ++ (nodes.filter fun p => p.2.isEmpty).map Prod.fst) (nodes.filter fun p => !p.2.isEmpty) [] = _ at he
    rw [he]
    cases hP : (topoG cmp [] ready pend).2 with
    | nil => simp
    | cons u us => simp

theorem sortNodes_ok {imports : List α} {nodes : List (α × List β)} {l : List α} (h : sortNodes cmp imports nodes = .ok l) :
    ∃ entries : List (α × List β), entries.Perm (allEntries imports nodes) ∧ entries.map Prod.fst = l ∧
      InOrder (fun d n => cmp d n = true) entries := by
  obtain ⟨D, P, hperm, ho, _, hs⟩ := sortNodes_run cmp imports nodes
  rw [hs] at h
  split at h
  · rename_i hP
    subst hP
    injection h with h
    exact ⟨D, by simpa using hperm, h, ho⟩
  · exact absurd h (by simp)

theorem sortNodes_complete {imports : List α} {nodes : List (α × List β)} {entries : List (α × List β)}
    (hp : entries.Perm (allEntries imports nodes)) (ho : InOrder (fun d n => cmp d n = true) entries) :
    ∃ l, sortNodes cmp imports nodes = .ok l := by
  obtain ⟨D, P, hperm, _, hstuck, hs⟩ := sortNodes_run cmp imports nodes
  have hall : ∀ (before after : List (α × List β)), entries = before ++ after → ∀ j ∈ before, readyB cmp D j = true := by
    intro before
    induction before using List.reverseRecOn with
    | nil => intro _ _ j hj; exact absurd hj (by simp)
    | append_singleton b x ih =>
      intro after he j hj
      have hb := ih (x :: after) (by simpa using he)
      rcases List.mem_append.1 hj with hj | hj
      · exact hb j hj
      · rw [List.mem_singleton] at hj
        subst hj
        simp only [readyB, List.all_eq_true, List.any_eq_true]
        intro d hd
        obtain ⟨y, hy, hc⟩ := ho b j after (by simpa using he) d hd
        refine ⟨y, ?_, hc⟩
        have hyall : y ∈ D ++ P := by
          refine hperm.symm.subset (hp.subset ?_)
          rw [he]
          exact List.mem_append_left _ (List.mem_append_left _ hy)
        rcases List.mem_append.1 hyall with h | h
        · exact h
        · exact absurd (hb y hy) (by rw [hstuck y h]; simp)
  cases P with
  | nil => exact ⟨D.map Prod.fst, by rw [hs]; simp⟩
  | cons u us =>
    have hu : u ∈ entries := by
      refine hp.symm.subset (hperm.subset ?_)
      simp
    have := hall entries [] (by simp) u hu
    rw [hstuck u (by simp)] at this
    exact absurd this (by simp)

end

section
variable {α : Type} [DecidableEq α]

/-- The nodes that are left contain a cycle or need something that is not declared. -/
theorem sortNodes_cycle {imports : List α} {nodes u : List (α × List α)}
    (hd : ∀ e ∈ nodes, ∀ d ∈ e.2, d ∈ imports ∨ ∃ l, (d, l) ∈ nodes)
    (h : sortNodes (fun d n => decide (d = n)) imports nodes = .error u) : Cyclic (DependsOn nodes) := by
  obtain ⟨D, P, hperm, _, hstuck, hs⟩ := sortNodes_run (fun d n => decide (d = n)) imports nodes
  rw [hs] at h
  split at h
  · exact absurd h (by simp)
  rename_i hP
  -- every entry that is left needs another one that is left
  have hnode : ∀ p ∈ P, p ∈ nodes := by
    intro p hp
    have := hperm.subset (List.mem_append_right _ hp)
    rcases List.mem_append.1 this with h | h
    · obtain ⟨n, _, rfl⟩ := List.mem_map.1 h
      exact absurd (hstuck _ hp) (by simp [readyB])
    · exact h
  have hnext : ∀ p : {p // p ∈ P}, ∃ q : {p // p ∈ P}, q.1.1 ∈ p.1.2 := by
    rintro ⟨p, hp⟩
    have hst := hstuck p hp
    simp only [readyB, List.all_eq_false, Bool.not_eq_true, List.any_eq_false] at hst
    obtain ⟨d, hdp, hno⟩ := hst
    have hD : ∀ b ∈ D, d ≠ b.1 := by
      intro b hb hc
      exact absurd (hno b hb) (by simp [hc])
    have : ∃ q ∈ D ++ P, q.1 = d := by
      rcases hd p (hnode p hp) d hdp with h | ⟨l, h⟩
      · exact ⟨(d, []), hperm.symm.subset (List.mem_append_left _ (List.mem_map.2 ⟨d, h, rfl⟩)), rfl⟩
      · exact ⟨(d, l), hperm.symm.subset (List.mem_append_right _ h), rfl⟩
    obtain ⟨q, hq, rfl⟩ := this
    rcases List.mem_append.1 hq with h | h
    · exact absurd rfl (hD q h)
    · exact ⟨⟨q, h⟩, hdp⟩
  choose f hf using hnext
  have hne : ∃ p, p ∈ P := by
    cases P with
    | nil => exact absurd rfl hP
    | cons p ps => exact ⟨p, by simp⟩
  obtain ⟨p0, hp0⟩ := hne
  let s : Nat → {p // p ∈ P} := fun n => f^[n] ⟨p0, hp0⟩
  have hfin : Finite {p // p ∈ P} := by
    classical
    exact Finite.of_injective (β := Fin P.length) (fun p => ⟨P.idxOf p.1, List.idxOf_lt_length_iff.2 p.2⟩) (by
      intro a b h
      have : P.idxOf a.1 = P.idxOf b.1 := by simpa using h
      exact Subtype.ext ((List.idxOf_inj a.2).1 this))
  obtain ⟨i, j, hij, hs⟩ := Finite.exists_ne_map_eq_of_infinite s
  have hstep : ∀ n, DependsOn nodes (s n).1.1 (s (n + 1)).1.1 := by
    intro n
    have : s (n + 1) = f (s n) := Function.iterate_succ_apply' f n _
    rw [this]
    exact ⟨(s n).1.2, hnode _ (s n).2, hf (s n)⟩
  have hchain : ∀ k n, Relation.TransGen (DependsOn nodes) (s n).1.1 (s (n + k + 1)).1.1 := by
    intro k n
    induction k with
    | zero => exact .single (hstep n)
    | succ k ih => exact .tail ih (hstep _)
  rcases Nat.lt_or_gt_of_ne hij with hlt | hlt
  · have := hchain (j - i - 1) i
    rw [show i + (j - i - 1) + 1 = j by omega, ← hs] at this
    exact ⟨_, this⟩
  · have := hchain (i - j - 1) j
    rw [show j + (i - j - 1) + 1 = i by omega, hs] at this
    exact ⟨_, this⟩

/-- With a cycle there is no order, if nothing is declared twice. -/
theorem sortNodes_acyclic {imports l : List α} {nodes : List (α × List α)} (hn : (imports ++ nodes.map Prod.fst).Nodup)
    (h : sortNodes (fun d n => decide (d = n)) imports nodes = .ok l) : ¬ Cyclic (DependsOn nodes) := by
  obtain ⟨entries, hp, rfl, ho⟩ := sortNodes_ok _ h
  have hn' : (entries.map Prod.fst).Nodup := by
    have := hp.map Prod.fst
    rw [allEntries, List.map_append, List.map_map] at this
    refine this.symm.nodup ?_
    simpa [Function.comp_def] using hn
  have hstep : ∀ a b, DependsOn nodes a b → (entries.map Prod.fst).idxOf b < (entries.map Prod.fst).idxOf a := by
    rintro a b ⟨lb, hm, hb⟩
    have hm' : (a, lb) ∈ entries := hp.symm.subset (List.mem_append_right _ hm)
    obtain ⟨before, after, he⟩ := List.append_of_mem hm'
    obtain ⟨x, hx, hc⟩ := ho before _ after he b hb
    have hbx : b = x.1 := by simpa using hc
    have hbm : b ∈ before.map Prod.fst := by rw [hbx]; exact List.mem_map_of_mem hx
    rw [he, List.map_append, List.map_cons] at hn' ⊢
    have hna : a ∉ before.map Prod.fst := by
      intro hc
      exact (List.nodup_append.1 hn').2.2 a hc a (by simp) rfl
    rw [List.idxOf_append_of_mem hbm, List.idxOf_append_of_notMem hna]
    have := List.idxOf_lt_length_iff.2 hbm
    omega
  have htrans : ∀ a b, Relation.TransGen (DependsOn nodes) a b → (entries.map Prod.fst).idxOf b < (entries.map Prod.fst).idxOf a := by
    intro a b hab
    induction hab with
    | single h => exact hstep _ _ h
    | tail _ h ih => exact Nat.lt_trans (hstep _ _ h) ih
  rintro ⟨a, ha⟩
  exact absurd (htrans a a ha) (Nat.lt_irrefl _)

end

mutual
theorem typeDeps_iff : ∀ (t : TShape) (n : TypeName), n ∈ typeDeps t ↔ Mentions t n
  | .leaf prms, n => ⟨.leafPrm, fun h => by cases h; assumption⟩
  | .seqOf prms t, n => by
    simp only [typeDeps, List.mem_append, typeDeps_iff t n]
    exact ⟨fun h => h.elim .seqOfPrm .seqOf, fun h => by cases h <;> tauto⟩
  | .sequence prms ts, n => by
    simp only [typeDeps, List.mem_append, typesDeps_iff ts n]
    exact ⟨fun h => h.elim .sequencePrm .sequence, fun h => by cases h <;> tauto⟩
  | .choice prms ts, n => by
    simp only [typeDeps, List.mem_append, typesDeps_iff ts n]
    exact ⟨fun h => h.elim .choicePrm .choice, fun h => by cases h <;> tauto⟩
  | .reference prms m, n => by
    simp only [typeDeps, List.mem_cons]
    exact ⟨fun h => h.elim (fun e => e ▸ .reference) .referencePrm, fun h => by cases h <;> tauto⟩
theorem typesDeps_iff : ∀ (ts : TShapes) (n : TypeName), n ∈ typesDeps ts ↔ MentionsAny ts n
  | .nil, n => ⟨fun h => absurd h (by simp [typesDeps]), fun h => by cases h⟩
  | .cons t ts, n => by
    simp only [typesDeps, List.mem_append, typeDeps_iff t n, typesDeps_iff ts n]
    exact ⟨fun h => h.elim .here .there, fun h => by cases h <;> tauto⟩
end

theorem mem_tases (f : AsnFile) (n : TypeName) (t : TShape) : (n, t) ∈ f.tases ↔ f.Declares n t := by
  simp only [AsnFile.tases, AsnFile.Declares, List.mem_flatMap, List.mem_map]
  constructor
  · rintro ⟨m, hm, ⟨s, t'⟩, hs, he⟩
    simp only [Prod.mk.injEq] at he
    obtain ⟨rfl, rfl⟩ := he
    exact ⟨m, hm, rfl, hs⟩
  · rintro ⟨m, hm, he, hs⟩
    refine ⟨m, hm, (n.tasName, t), hs, ?_⟩
    cases n
    simp at he ⊢
    exact he

theorem mem_importedTypes (f : AsnFile) (n : TypeName) : n ∈ f.importedTypes ↔ f.Imports n := by
  simp only [AsnFile.importedTypes, List.mem_eraseDups, AsnFile.importedModules, List.mem_flatMap, List.mem_filter, List.mem_map,
    AsnFile.Imports]
  constructor
  · rintro ⟨⟨im, l⟩, ⟨⟨m, hm, hi⟩, hno⟩, s, hs, rfl⟩
    refine ⟨⟨m, hm, l, hi, hs⟩, ?_⟩
    simpa using hno
  · rintro ⟨⟨m, hm, l, hi, hs⟩, hno⟩
    exact ⟨(n.modName, l), ⟨⟨m, hm, hi⟩, by simpa using hno⟩, n.tasName, hs, rfl⟩

end Asn1
