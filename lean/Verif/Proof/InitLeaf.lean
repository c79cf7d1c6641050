import Verif.Model.Init
import Verif.Spec.Init
import Verif.Proof.Valid
/-!
# Initial values of the elementary types
-/
namespace Asn1

/-! ## Evaluation -/

theorem acEval_sat {leaf : AC → Bool} {P : AC → Prop} {a : AV} (h : ∀ c, P c → (leaf c = true ↔ c.Sat a)) :
    ∀ c : AC, c.Over P → (acEval leaf c = true ↔ c.Sat a) := by
  intro c
  induction c using AC.rec (motive_2 := fun _ => True) with
  | union c d ih1 ih2 => intro ho; simp only [AC.Over] at ho; simp only [acEval, AC.Sat, Bool.or_eq_true, ih1 ho.1, ih2 ho.2]
  | inter c d ih1 ih2 => intro ho; simp only [AC.Over] at ho; simp only [acEval, AC.Sat, Bool.and_eq_true, ih1 ho.1, ih2 ho.2]
  | allExcept c ih =>
    intro ho; simp only [AC.Over] at ho
    simp only [acEval, AC.Sat, ← ih ho, Bool.not_eq_true', Bool.not_eq_true]
  | «except» c d ih1 ih2 =>
    intro ho; simp only [AC.Over] at ho
    simp only [acEval, AC.Sat, Bool.and_eq_true, ← ih1 ho.1, ← ih2 ho.2, Bool.not_eq_true', Bool.not_eq_true]
  | root c ih => intro ho; simp only [AC.Over] at ho; simp only [acEval, AC.Sat, ih ho]
  | root2 c d ih1 ih2 => intro ho; simp only [AC.Over] at ho; simp only [acEval, AC.Sat, Bool.or_eq_true, ih1 ho.1, ih2 ho.2]
  | range l => exact h _
  | realRange l => exact h _
  | boolean b => exact h _
  | item v => exact h _
  | octetsVal v => exact h _
  | bitsVal v => exact h _
  | strVal v => exact h _
  | oidVal v => exact h _
  | size c => exact h _
  | alphabet c => exact h _
  | value w => exact h _
  | component c => exact h _
  | components ncs => exact h _
  | nil => trivial
  | bare => trivial
  | cons => trivial

theorem allEval_sat {leaf : AC → Bool} {P : AC → Prop} {a : AV} (h : ∀ c, P c → (leaf c = true ↔ c.Sat a)) {cons : List AC}
    (ho : ∀ c ∈ cons, c.Over P) : allEval leaf cons = true ↔ SatAll cons a := by
  simp only [allEval, List.all_eq_true, SatAll]
  exact forall_congr' fun c => forall_congr' fun hc => acEval_sat h c (ho c hc)

theorem intLeaf_sat {m n v : Int} : ∀ c : AC, AC.IntLeaf m n c → (intLeafEval v c = true ↔ c.Sat (.int v)) := by
  intro c hc
  unfold AC.IntLeaf at hc
  split at hc
  · simp [intLeafEval, AC.Sat, RLeaf.Sat, eq_comm]
  · rename_i v1 v2 i j
    cases i <;> cases j <;> simp [intLeafEval, AC.Sat, RLeaf.Sat]
  · rename_i v1 i; cases i <;> simp [intLeafEval, AC.Sat, RLeaf.Sat]
  · rename_i v2 i; cases i <;> simp [intLeafEval, AC.Sat, RLeaf.Sat]
  · exact hc.elim

theorem dblEq_comm (a b : Dbl) : dblEq a b = dblEq b a := by
  unfold dblEq
  rw [Bool.and_comm (!dblIsNan a)]
  congr 1
  exact decide_eq_decide.2 eq_comm

theorem realLeaf_sat {d : Dbl} : ∀ c : AC, AC.RealLeafIncl c → (realLeafEval d c = true ↔ c.Sat (.real d)) := by
  intro c hc
  unfold AC.RealLeafIncl at hc
  split at hc
  · simp [realLeafEval, AC.Sat, RealLeaf.Sat, dblEq_comm]
  · rename_i v1 v2 i j
    cases i <;> cases j <;> simp [realLeafEval, AC.Sat, RealLeaf.Sat]
  · rename_i v1 i; cases i <;> simp [realLeafEval, AC.Sat, RealLeaf.Sat]
  · rename_i v2 i; cases i <;> simp [realLeafEval, AC.Sat, RealLeaf.Sat]
  · exact hc.elim

theorem boolLeaf_sat {b : Bool} : ∀ c : AC, AC.BoolLeaf c → (boolLeafEval b c = true ↔ c.Sat (.bool b)) := by
  intro c hc
  unfold AC.BoolLeaf at hc
  split at hc
  · simp [boolLeafEval, AC.Sat, eq_comm]
  · exact hc.elim

theorem itemLeaf_sat {v : Int} : ∀ c : AC, AC.ItemLeaf c → (itemLeafEval v c = true ↔ c.Sat (.enum v)) := by
  intro c hc
  unfold AC.ItemLeaf at hc
  split at hc
  · simp [itemLeafEval, AC.Sat, eq_comm]
  · exact hc.elim

/-! ## The largest lower bound not above a solution is a solution -/

section
variable {α : Type} {leaf : α → AC → Bool} {cands : AC → List α} {P : AC → Prop} {le : α → α → Prop} {v : α}

theorem cand_mono {w : α}
    (h : ∀ c, P c → leaf v c = true → (∀ x ∈ cands c, le x v → le x w) → leaf w c = true) :
    ∀ c : AC, c.Positive → c.Over P → acEval (leaf v) c = true → (∀ x ∈ acCandidates cands c, le x v → le x w) →
      acEval (leaf w) c = true := by
  intro c
  induction c using AC.rec (motive_2 := fun _ => True) with
  | union c d ih1 ih2 =>
    intro hp ho he hx
    simp only [AC.Over, AC.Positive] at hp ho
    simp only [acEval, Bool.or_eq_true] at he ⊢
    simp only [acCandidates, List.mem_append] at hx
    exact he.imp (ih1 hp.1 ho.1 · fun x h => hx x (.inl h)) (ih2 hp.2 ho.2 · fun x h => hx x (.inr h))
  | inter c d ih1 ih2 =>
    intro hp ho he hx
    simp only [AC.Over, AC.Positive] at hp ho
    simp only [acEval, Bool.and_eq_true] at he ⊢
    simp only [acCandidates, List.mem_append] at hx
    exact he.imp (ih1 hp.1 ho.1 · fun x h => hx x (.inl h)) (ih2 hp.2 ho.2 · fun x h => hx x (.inr h))
  | allExcept c ih => intro hp; exact hp.elim
  | «except» c d ih1 ih2 => intro hp; exact hp.elim
  | root c ih =>
    intro hp ho he hx
    simp only [AC.Over, AC.Positive] at hp ho
    simp only [acEval] at he ⊢
    exact ih hp ho he hx
  | root2 c d ih1 ih2 =>
    intro hp ho he hx
    simp only [AC.Over, AC.Positive] at hp ho
    simp only [acEval, Bool.or_eq_true] at he ⊢
    simp only [acCandidates, List.mem_append] at hx
    exact he.imp (ih1 hp.1 ho.1 · fun x h => hx x (.inl h)) (ih2 hp.2 ho.2 · fun x h => hx x (.inr h))
  | range l => intro _ ho he hx; exact h _ ho he hx
  | realRange l => intro _ ho he hx; exact h _ ho he hx
  | boolean b => intro _ ho he hx; exact h _ ho he hx
  | item v => intro _ ho he hx; exact h _ ho he hx
  | octetsVal v => intro _ ho he hx; exact h _ ho he hx
  | bitsVal v => intro _ ho he hx; exact h _ ho he hx
  | strVal v => intro _ ho he hx; exact h _ ho he hx
  | oidVal v => intro _ ho he hx; exact h _ ho he hx
  | size c => intro _ ho he hx; exact h _ ho he hx
  | alphabet c => intro _ ho he hx; exact h _ ho he hx
  | value w => intro _ ho he hx; exact h _ ho he hx
  | component c => intro _ ho he hx; exact h _ ho he hx
  | components ncs => intro _ ho he hx; exact h _ ho he hx
  | nil => trivial
  | bare => trivial
  | cons => trivial

theorem cand_exists (h : ∀ c, P c → leaf v c = true → ∃ x ∈ cands c, le x v) :
    ∀ c : AC, c.Positive → c.Over P → acEval (leaf v) c = true → ∃ x ∈ acCandidates cands c, le x v := by
  intro c
  induction c using AC.rec (motive_2 := fun _ => True) with
  | union c d ih1 ih2 =>
    intro hp ho he
    simp only [AC.Over, AC.Positive] at hp ho
    simp only [acEval, Bool.or_eq_true] at he
    simp only [acCandidates, List.mem_append]
    rcases he with he | he
    · obtain ⟨x, hx, hl⟩ := ih1 hp.1 ho.1 he; exact ⟨x, .inl hx, hl⟩
    · obtain ⟨x, hx, hl⟩ := ih2 hp.2 ho.2 he; exact ⟨x, .inr hx, hl⟩
  | inter c d ih1 ih2 =>
    intro hp ho he
    simp only [AC.Over, AC.Positive] at hp ho
    simp only [acEval, Bool.and_eq_true] at he
    simp only [acCandidates, List.mem_append]
    obtain ⟨x, hx, hl⟩ := ih1 hp.1 ho.1 he.1; exact ⟨x, .inl hx, hl⟩
  | allExcept c ih => intro hp; exact hp.elim
  | «except» c d ih1 ih2 => intro hp; exact hp.elim
  | root c ih =>
    intro hp ho he
    simp only [AC.Over, AC.Positive] at hp ho
    exact ih hp ho he
  | root2 c d ih1 ih2 =>
    intro hp ho he
    simp only [AC.Over, AC.Positive] at hp ho
    simp only [acEval, Bool.or_eq_true] at he
    simp only [acCandidates, List.mem_append]
    rcases he with he | he
    · obtain ⟨x, hx, hl⟩ := ih1 hp.1 ho.1 he; exact ⟨x, .inl hx, hl⟩
    · obtain ⟨x, hx, hl⟩ := ih2 hp.2 ho.2 he; exact ⟨x, .inr hx, hl⟩
  | range l => intro _ ho he; exact h _ ho he
  | realRange l => intro _ ho he; exact h _ ho he
  | boolean b => intro _ ho he; exact h _ ho he
  | item v => intro _ ho he; exact h _ ho he
  | octetsVal v => intro _ ho he; exact h _ ho he
  | bitsVal v => intro _ ho he; exact h _ ho he
  | strVal v => intro _ ho he; exact h _ ho he
  | oidVal v => intro _ ho he; exact h _ ho he
  | size c => intro _ ho he; exact h _ ho he
  | alphabet c => intro _ ho he; exact h _ ho he
  | value w => intro _ ho he; exact h _ ho he
  | component c => intro _ ho he; exact h _ ho he
  | components ncs => intro _ ho he; exact h _ ho he
  | nil => trivial
  | bare => trivial
  | cons => trivial
end

/-- Among the elements with property `Q` one has the largest key. -/
theorem exists_largest {α : Type} (key : α → Int) (Q : α → Prop) :
    ∀ l : List α, (∃ x ∈ l, Q x) → ∃ w ∈ l, Q w ∧ ∀ x ∈ l, Q x → key x ≤ key w := by
  intro l
  induction l with
  | nil => rintro ⟨x, hx, _⟩; cases hx
  | cons y l ih =>
    intro _
    by_cases hq : ∃ x ∈ l, Q x
    · obtain ⟨w, hw, hQ, hm⟩ := ih hq
      by_cases hy : Q y ∧ key w < key y
      · refine ⟨y, List.mem_cons_self .., hy.1, fun x hx hQx => ?_⟩
        rcases List.mem_cons.1 hx with rfl | hx
        · exact Int.le_refl _
        · have := hm x hx hQx; omega
      · refine ⟨w, List.mem_cons_of_mem _ hw, hQ, fun x hx hQx => ?_⟩
        rcases List.mem_cons.1 hx with rfl | hx
        · by_contra hc; exact hy ⟨hQx, by omega⟩
        · exact hm x hx hQx
    · rename_i h
      obtain ⟨x, hx, hQx⟩ := h
      rcases List.mem_cons.1 hx with rfl | hx
      · refine ⟨x, List.mem_cons_self .., hQx, fun z hz hQz => ?_⟩
        rcases List.mem_cons.1 hz with rfl | hz
        · exact Int.le_refl _
        · exact (hq ⟨z, hz, hQz⟩).elim
      · exact (hq ⟨x, hx, hQx⟩).elim

/-- A solution among the candidates. -/
theorem cand_solution {α : Type} {leaf : α → AC → Bool} {cands : AC → List α} {P : AC → Prop} (key : α → Int)
    (good : α → Prop) {v : α}
    (h1 : ∀ c, P c → leaf v c = true → ∃ x ∈ cands c, good x ∧ key x ≤ key v)
    (h2 : ∀ w, good w → key w ≤ key v → ∀ c, P c → leaf v c = true →
      (∀ x ∈ cands c, (good x ∧ key x ≤ key v) → key x ≤ key w) → leaf w c = true)
    {cons : List AC} (hc : ∀ c ∈ cons, c.Positive ∧ c.Over P) (hne : cons ≠ []) (hv : allEval (leaf v) cons = true) :
    ∃ w ∈ cons.flatMap (acCandidates cands), allEval (leaf w) cons = true := by
  simp only [allEval, List.all_eq_true] at hv
  have hex : ∃ x ∈ cons.flatMap (acCandidates cands), good x ∧ key x ≤ key v := by
    obtain ⟨c, rest, rfl⟩ := List.exists_cons_of_ne_nil hne
    have hm : c ∈ c :: rest := List.mem_cons_self ..
    obtain ⟨x, hx, hl⟩ := cand_exists (le := fun x v => good x ∧ key x ≤ key v) h1 c (hc c hm).1 (hc c hm).2 (hv c hm)
    exact ⟨x, List.mem_flatMap.2 ⟨c, hm, hx⟩, hl⟩
  obtain ⟨w, hw, ⟨hg, hle⟩, hmax⟩ := exists_largest key (fun x => good x ∧ key x ≤ key v) _ hex
  refine ⟨w, hw, ?_⟩
  simp only [allEval, List.all_eq_true]
  intro c hcm
  have := cand_mono (leaf := leaf) (cands := cands) (P := P) (le := fun x y => (good x ∧ key x ≤ key v) → key x ≤ key y)
    (v := v) (w := w)
    (fun c hP hl hx => h2 w hg hle c hP hl fun x hxm hq => hx x hxm (fun _ => hq.2) hq)
    c (hc c hcm).1 (hc c hcm).2 (hv c hcm)
    (fun x hxm _ hq => hmax x (List.mem_flatMap.2 ⟨c, hcm, hxm⟩) hq)
  exact this

/-! ## INTEGER -/

theorem storeInt_id {cls : IntClass} {v : Int} (h1 : cls.min ≤ v) (h2 : v ≤ cls.max) : storeInt cls v = v := by
  unfold storeInt
  rw [Int.emod_eq_of_lt (by omega) (by omega)]
  omega

theorem IntClass.word_iff (cls : IntClass) (v : Int) : cls.Word v ↔ cls.wordMin ≤ v ∧ v ≤ cls.wordMax := by
  unfold IntClass.Word IntClass.wordMin IntClass.wordMax
  cases cls.positive <;> simp <;> omega

theorem intCand_word {cls : IntClass} {c : AC} (h : AC.IntLeaf cls.wordMin cls.wordMax c) :
    ∀ x ∈ intLeafCandidates cls c, cls.wordMin ≤ x ∧ x ≤ cls.wordMax := by
  have hmm : cls.wordMin ≤ cls.wordMax := by
    unfold IntClass.wordMin IntClass.wordMax; cases cls.positive <;> decide
  have hn : ∀ a, cls.wordMin ≤ a → cls.wordMin ≤ cls.next a ∧ cls.next a ≤ cls.wordMax := by
    intro a ha; unfold IntClass.next; split <;> omega
  have hp : ∀ a, a ≤ cls.wordMax → cls.wordMin ≤ cls.prev a ∧ cls.prev a ≤ cls.wordMax := by
    intro a ha; unfold IntClass.prev; split <;> omega
  unfold AC.IntLeaf at h
  split at h
  · intro x hx; simp only [intLeafCandidates, List.mem_singleton] at hx; subst hx; exact h
  · rename_i v1 v2 i j
    intro x hx
    simp only [intLeafCandidates, List.mem_cons, List.not_mem_nil, or_false] at hx
    rcases hx with rfl | rfl
    · split
      · exact h.1
      · exact hn _ h.1.1
    · split
      · exact h.2
      · exact hp _ h.2.2
  · intro x hx
    simp only [intLeafCandidates, List.mem_cons, List.not_mem_nil, or_false] at hx
    rcases hx with rfl | rfl
    · split
      · exact h
      · exact hn _ h.1
    · exact ⟨hmm, Int.le_refl _⟩
  · intro x hx
    simp only [intLeafCandidates, List.mem_cons, List.not_mem_nil, or_false] at hx
    rcases hx with rfl | rfl
    · exact ⟨Int.le_refl _, hmm⟩
    · split
      · exact h
      · exact hp _ h.2
  · exact h.elim

theorem cands_all {α : Type} {cands : AC → List α} {P : AC → Prop} {Q : α → Prop} (h : ∀ c, P c → ∀ x ∈ cands c, Q x) :
    ∀ c : AC, c.Over P → ∀ x ∈ acCandidates cands c, Q x := by
  intro c
  induction c using AC.rec (motive_2 := fun _ => True) with
  | union c d ih1 ih2 =>
    intro ho x hx; simp only [AC.Over] at ho; simp only [acCandidates, List.mem_append] at hx
    exact hx.elim (ih1 ho.1 x) (ih2 ho.2 x)
  | inter c d ih1 ih2 =>
    intro ho x hx; simp only [AC.Over] at ho; simp only [acCandidates, List.mem_append] at hx
    exact hx.elim (ih1 ho.1 x) (ih2 ho.2 x)
  | allExcept c ih => intro ho x hx; simp only [acCandidates] at hx; cases hx
  | «except» c d ih1 ih2 => intro ho x hx; simp only [AC.Over] at ho; simp only [acCandidates] at hx; exact ih1 ho.1 x hx
  | root c ih => intro ho x hx; simp only [AC.Over] at ho; simp only [acCandidates] at hx; exact ih ho x hx
  | root2 c d ih1 ih2 =>
    intro ho x hx; simp only [AC.Over] at ho; simp only [acCandidates, List.mem_append] at hx
    exact hx.elim (ih1 ho.1 x) (ih2 ho.2 x)
  | range l => exact h _
  | realRange l => exact h _
  | boolean b => exact h _
  | item v => exact h _
  | octetsVal v => exact h _
  | bitsVal v => exact h _
  | strVal v => exact h _
  | oidVal v => exact h _
  | size c => exact h _
  | alphabet c => exact h _
  | value w => exact h _
  | component c => exact h _
  | components ncs => exact h _
  | nil => trivial
  | bare => trivial
  | cons => trivial

theorem initInt_ok {cls : IntClass} {cons : List AC}
    (hc : ∀ c ∈ cons, c.Positive ∧ c.Over (AC.IntLeaf cls.wordMin cls.wordMax))
    (hex : ∃ v, cls.Word v ∧ SatAll cons (.int v))
    (hcls : ∀ v, cls.Word v → SatAll cons (.int v) → cls.min ≤ v ∧ v ≤ cls.max) :
    SatAll cons (.int (initInt cls cons)) ∧ cls.min ≤ initInt cls cons ∧ initInt cls cons ≤ cls.max := by
  have hsat : ∀ v, allEval (intLeafEval v) cons = true ↔ SatAll cons (.int v) :=
    fun v => allEval_sat intLeaf_sat fun c h => (hc c h).2
  have fin : ∀ x, cls.Word x → SatAll cons (.int x) →
      SatAll cons (.int (storeInt cls x)) ∧ cls.min ≤ storeInt cls x ∧ storeInt cls x ≤ cls.max := by
    intro x hx hs
    have := hcls x hx hs
    rw [storeInt_id this.1 this.2]
    exact ⟨hs, this⟩
  unfold initInt
  split
  · rename_i h0
    refine fin 0 ?_ ((hsat 0).1 h0)
    unfold IntClass.Word
    cases cls.positive <;> decide
  · rename_i h0
    have hne : cons ≠ [] := by rintro rfl; exact h0 rfl
    obtain ⟨v, hvw, hvs⟩ := hex
    have hw := (cls.word_iff v).1 hvw
    obtain ⟨w, hwm, hwe⟩ := cand_solution (leaf := intLeafEval) (cands := intLeafCandidates cls)
      (P := AC.IntLeaf cls.wordMin cls.wordMax) id (fun _ => True) (v := v)
      (by
        intro c hP hl
        unfold AC.IntLeaf at hP
        split at hP
        · simp only [intLeafEval, decide_eq_true_eq] at hl
          exact ⟨_, List.mem_singleton.2 rfl, trivial, by simp only [id]; omega⟩
        · rename_i v1 v2 i j
          refine ⟨_, List.mem_cons_self .., trivial, ?_⟩
          cases i <;> cases j <;> simp [intLeafEval, IntClass.next] at hl ⊢ <;> (try split) <;> omega
        · rename_i v1 i
          refine ⟨_, List.mem_cons_self .., trivial, ?_⟩
          cases i <;> simp [intLeafEval, IntClass.next] at hl ⊢ <;> (try split) <;> omega
        · exact ⟨_, List.mem_cons_self .., trivial, hw.1⟩
        · exact hP.elim)
      (by
        intro w _ hwv c hP hl hx
        simp only [id] at hwv hx
        unfold AC.IntLeaf at hP
        split at hP
        · simp only [intLeafEval, decide_eq_true_eq] at hl ⊢
          have := hx _ (List.mem_singleton.2 rfl) ⟨trivial, by omega⟩
          omega
        · rename_i v1 v2 i j
          have h1 := hx _ (List.mem_cons_self ..)
          cases i <;> cases j <;> simp [intLeafEval, IntClass.next] at hl h1 ⊢ <;> (try split at h1) <;> omega
        · rename_i v1 i
          have h1 := hx _ (List.mem_cons_self ..)
          cases i <;> simp [intLeafEval, IntClass.next] at hl h1 ⊢ <;> (try split at h1) <;> omega
        · rename_i v2 j
          cases j <;> simp [intLeafEval] at hl ⊢ <;> omega
        · exact hP.elim)
      hc hne ((hsat v).2 hvs)
    have hsome : ((cons.flatMap (acCandidates (intLeafCandidates cls))).find? fun v => allEval (intLeafEval v) cons).isSome := by
      rw [List.find?_isSome]; exact ⟨w, hwm, hwe⟩
    obtain ⟨x, hx⟩ := Option.isSome_iff_exists.1 hsome
    rw [hx]
    have hxe := List.find?_some hx
    have hxm := List.mem_of_find?_eq_some hx
    refine fin x ?_ ((hsat x).1 hxe)
    obtain ⟨c, hcm, hxc⟩ := List.mem_flatMap.1 hxm
    exact (cls.word_iff x).2 (cands_all (fun c h => intCand_word h) c (hc c hcm).2 x hxc)

/-! ## REAL -/

theorem dblLe_iff (a b : Dbl) : dblLe a b = true ↔ dblIsNan a = false ∧ dblIsNan b = false ∧ dblKey a ≤ dblKey b := by
  simp [dblLe, and_assoc]

theorem dblLt_iff (a b : Dbl) : dblLt a b = true ↔ dblIsNan a = false ∧ dblIsNan b = false ∧ dblKey a < dblKey b := by
  simp [dblLt, and_assoc]

theorem dblEq_iff (a b : Dbl) : dblEq a b = true ↔ dblIsNan a = false ∧ dblIsNan b = false ∧ dblKey a = dblKey b := by
  simp [dblEq, and_assoc]

theorem dblMin_le {d : Dbl} (h : IsFinite d) : dblKey dblMin ≤ dblKey d := by
  have hm : dblMag d < 2047 * 2 ^ 52 := by
    unfold IsFinite at h; unfold dblMag
    omega
  have : dblKey dblMin = -(2047 * 2 ^ 52 - 1) := by decide
  rw [this]
  unfold dblKey
  split <;> omega

theorem initReal_ok {cons : List AC} (hc : ∀ c ∈ cons, c.Positive ∧ c.Over AC.RealLeafIncl)
    (hex : ∃ d : Dbl, IsFinite d ∧ SatAll cons (.real d)) : SatAll cons (.real (initReal cons)) := by
  have hsat : ∀ v, allEval (realLeafEval v) cons = true ↔ SatAll cons (.real v) :=
    fun v => allEval_sat realLeaf_sat fun c h => (hc c h).2
  unfold initReal
  split
  · rename_i h0; exact (hsat _).1 h0
  · rename_i h0
    have hne : cons ≠ [] := by rintro rfl; exact h0 rfl
    obtain ⟨v, hvf, hvs⟩ := hex
    obtain ⟨w, hwm, hwe⟩ := cand_solution (leaf := realLeafEval) (cands := realLeafCandidates)
      (P := AC.RealLeafIncl) dblKey (fun d => dblIsNan d = false) (v := v)
      (by
        intro c hP hl
        unfold AC.RealLeafIncl at hP
        split at hP
        · simp only [realLeafEval, dblEq_iff] at hl
          exact ⟨_, List.mem_singleton.2 rfl, hl.1, by omega⟩
        · rename_i v1 v2 i j
          subst hP
          simp only [realLeafEval, if_true, Bool.and_eq_true, dblLe_iff] at hl
          exact ⟨_, List.mem_cons_self .., hl.1.1, hl.1.2.2⟩
        · rename_i v1 i
          subst hP
          simp only [realLeafEval, if_true, dblLe_iff] at hl
          exact ⟨_, List.mem_cons_self .., hl.1, hl.2.2⟩
        · exact ⟨_, List.mem_cons_self .., by decide, dblMin_le hvf⟩
        · exact hP.elim)
      (by
        intro w hg hwv c hP hl hx
        unfold AC.RealLeafIncl at hP
        split at hP
        · simp only [realLeafEval, dblEq_iff] at hl ⊢
          have := hx _ (List.mem_singleton.2 rfl) ⟨hl.1, by omega⟩
          exact ⟨hl.1, hg, by omega⟩
        · rename_i v1 v2 i j
          subst hP
          have h1 := hx _ (List.mem_cons_self ..)
          cases j <;> simp only [realLeafEval, if_true, Bool.and_eq_true, dblLe_iff, dblLt_iff, Bool.false_eq_true, if_false] at hl ⊢
          · exact ⟨⟨hl.1.1, hg, h1 ⟨hl.1.1, hl.1.2.2⟩⟩, hg, hl.2.2.1, by omega⟩
          · exact ⟨⟨hl.1.1, hg, h1 ⟨hl.1.1, hl.1.2.2⟩⟩, hg, hl.2.2.1, by omega⟩
        · rename_i v1 i
          subst hP
          have h1 := hx _ (List.mem_cons_self ..)
          simp only [realLeafEval, if_true, dblLe_iff] at hl ⊢
          exact ⟨hl.1, hg, h1 ⟨hl.1, hl.2.2⟩⟩
        · rename_i v2 j
          cases j <;> simp only [realLeafEval, if_true, dblLe_iff, dblLt_iff, Bool.false_eq_true, if_false] at hl ⊢
          · exact ⟨hg, hl.2.1, by omega⟩
          · exact ⟨hg, hl.2.1, by omega⟩
        · exact hP.elim)
      hc hne ((hsat v).2 hvs)
    have hsome : ((cons.flatMap (acCandidates realLeafCandidates)).find? fun v => allEval (realLeafEval v) cons).isSome := by
      rw [List.find?_isSome]; exact ⟨w, hwm, hwe⟩
    obtain ⟨x, hx⟩ := Option.isSome_iff_exists.1 hsome
    rw [hx]
    have hxe := List.find?_some hx
    exact (hsat x).1 hxe

/-! ## BOOLEAN, ENUMERATED, alphabets -/

theorem initBool_ok {cons : List AC} (hc : ∀ c ∈ cons, c.Over AC.BoolLeaf) (hex : ∃ b, SatAll cons (.bool b)) :
    SatAll cons (.bool (initBool cons)) := by
  have hsat : ∀ v, allEval (boolLeafEval v) cons = true ↔ SatAll cons (.bool v) :=
    fun v => allEval_sat boolLeaf_sat hc
  unfold initBool
  cases h : allEval (boolLeafEval false) cons
  · obtain ⟨b, hb⟩ := hex
    cases b
    · rw [(hsat false).2 hb] at h; cases h
    · exact hb
  · exact (hsat _).1 h

theorem initEnum_ok {items : List Int} {cons : List AC} (hc : ∀ c ∈ cons, c.Over AC.ItemLeaf)
    (hex : ∃ v ∈ items, SatAll cons (.enum v)) :
    ∃ v, initEnum items cons = some v ∧ v ∈ items ∧ SatAll cons (.enum v) := by
  have hsat : ∀ v, allEval (itemLeafEval v) cons = true ↔ SatAll cons (.enum v) :=
    fun v => allEval_sat itemLeaf_sat hc
  obtain ⟨w, hw, hs⟩ := hex
  have hsome : (initEnum items cons).isSome := by
    unfold initEnum; rw [List.find?_isSome]; exact ⟨w, hw, (hsat w).2 hs⟩
  obtain ⟨x, hx⟩ := Option.isSome_iff_exists.1 hsome
  refine ⟨x, hx, ?_⟩
  unfold initEnum at hx
  have hxe := List.find?_some hx
  exact ⟨List.mem_of_find?_eq_some hx, (hsat x).1 hxe⟩

theorem initChar_ok {alphabet : List Byte} (h : ∃ ch ∈ alphabet, 32 ≤ ch.toNat ∧ ch.toNat ≤ 126) :
    initChar alphabet ∈ alphabet ∧ 32 ≤ (initChar alphabet).toNat ∧ (initChar alphabet).toNat ≤ 126 := by
  have hsome : (alphabet.find? fun c => decide (32 ≤ c.toNat ∧ c.toNat ≤ 126)).isSome := by
    rw [List.find?_isSome]
    obtain ⟨ch, hm, h1⟩ := h
    exact ⟨ch, hm, by simpa using h1⟩
  obtain ⟨x, hx⟩ := Option.isSome_iff_exists.1 hsome
  unfold initChar
  rw [hx]
  have := List.find?_some hx
  simp only [decide_eq_true_eq] at this
  exact ⟨List.mem_of_find?_eq_some hx, this⟩

/-! ## Single values -/

theorem acValues_nil {α : Type} {leaf : AC → List α} {P : AC → Prop} (h : ∀ c, P c → leaf c = []) :
    ∀ c : AC, c.Over P → acValues leaf c = [] := by
  intro c
  induction c using AC.rec (motive_2 := fun _ => True) with
  | union c d ih1 ih2 => intro ho; simp only [AC.Over] at ho; simp only [acValues, ih1 ho.1, ih2 ho.2, List.append_nil]
  | inter c d ih1 ih2 => intro ho; simp only [AC.Over] at ho; simp only [acValues, ih1 ho.1, ih2 ho.2, List.append_nil]
  | allExcept c ih => intro ho; simp only [AC.Over] at ho; simp only [acValues, ih ho]
  | «except» c d ih1 ih2 => intro ho; simp only [AC.Over] at ho; simp only [acValues, ih1 ho.1, ih2 ho.2, List.append_nil]
  | root c ih => intro ho; simp only [AC.Over] at ho; simp only [acValues, ih ho]
  | root2 c d ih1 ih2 => intro ho; simp only [AC.Over] at ho; simp only [acValues, ih1 ho.1, ih2 ho.2, List.append_nil]
  | range l => exact h _
  | realRange l => exact h _
  | boolean b => exact h _
  | item v => exact h _
  | octetsVal v => exact h _
  | bitsVal v => exact h _
  | strVal v => exact h _
  | oidVal v => exact h _
  | size c => exact h _
  | alphabet c => exact h _
  | value w => exact h _
  | component c => exact h _
  | components ncs => exact h _
  | nil => trivial
  | bare => trivial
  | cons => trivial

theorem values_nil {α : Type} {leaf : AC → List α} (h : ∀ c, AC.SizeLeaf c → leaf c = []) {cons : List AC}
    (hc : ∀ c ∈ cons, c.Over AC.SizeLeaf) : cons.flatMap (acValues leaf) = [] := by
  rw [List.flatMap_eq_nil_iff]
  exact fun c hm => acValues_nil h c (hc c hm)

theorem octetsLeaf_nil : ∀ c, AC.SizeLeaf c → octetsLeafValues c = [] := by
  intro c h; unfold AC.SizeLeaf at h; split at h
  · rfl
  · exact h.elim

theorem bitsLeaf_nil : ∀ c, AC.SizeLeaf c → bitsLeafValues c = [] := by
  intro c h; unfold AC.SizeLeaf at h; split at h
  · rfl
  · exact h.elim

theorem acValues_octets : ∀ c : AC, c.Alternatives → c.Over AC.OctetsLeaf →
    acValues octetsLeafValues c ≠ [] ∧ ∀ w ∈ acValues octetsLeafValues c, c.Sat (.octets w) := by
  intro c
  have leaf : ∀ c, AC.OctetsLeaf c → octetsLeafValues c ≠ [] ∧ ∀ w ∈ octetsLeafValues c, c.Sat (.octets w) := by
    intro c h; unfold AC.OctetsLeaf at h; split at h
    · refine ⟨by simp [octetsLeafValues], fun w hw => ?_⟩
      simp only [octetsLeafValues, List.mem_singleton] at hw
      simp only [AC.Sat, hw]
    · exact h.elim
  induction c using AC.rec (motive_2 := fun _ => True) with
  | union c d ih1 ih2 =>
    intro ha ho; simp only [AC.Over, AC.Alternatives] at ha ho
    obtain ⟨h1, h2⟩ := ih1 ha.1 ho.1
    obtain ⟨h3, h4⟩ := ih2 ha.2 ho.2
    simp only [acValues, List.mem_append, AC.Sat]
    exact ⟨fun h => h1 (List.append_eq_nil_iff.1 h).1, fun w hw => hw.imp (h2 w) (h4 w)⟩
  | inter c d ih1 ih2 => intro ha; exact ha.elim
  | allExcept c ih => intro ha; exact ha.elim
  | «except» c d ih1 ih2 => intro ha; exact ha.elim
  | root c ih =>
    intro ha ho; simp only [AC.Over, AC.Alternatives] at ha ho
    simp only [acValues, AC.Sat]; exact ih ha ho
  | root2 c d ih1 ih2 =>
    intro ha ho; simp only [AC.Over, AC.Alternatives] at ha ho
    obtain ⟨h1, h2⟩ := ih1 ha.1 ho.1
    obtain ⟨h3, h4⟩ := ih2 ha.2 ho.2
    simp only [acValues, List.mem_append, AC.Sat]
    exact ⟨fun h => h1 (List.append_eq_nil_iff.1 h).1, fun w hw => hw.imp (h2 w) (h4 w)⟩
  | octetsVal v => intro _ ho; exact leaf _ ho
  | range l => intro _ ho; exact leaf _ ho
  | realRange l => intro _ ho; exact leaf _ ho
  | boolean b => intro _ ho; exact leaf _ ho
  | item v => intro _ ho; exact leaf _ ho
  | bitsVal v => intro _ ho; exact leaf _ ho
  | strVal v => intro _ ho; exact leaf _ ho
  | oidVal v => intro _ ho; exact leaf _ ho
  | size c => intro _ ho; exact leaf _ ho
  | alphabet c => intro _ ho; exact leaf _ ho
  | value w => intro _ ho; exact leaf _ ho
  | component c => intro _ ho; exact leaf _ ho
  | components ncs => intro _ ho; exact leaf _ ho
  | nil => trivial
  | bare => trivial
  | cons => trivial

end Asn1
