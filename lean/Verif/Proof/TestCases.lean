import Verif.Spec.TestCases
import Verif.Proof.Init
import Verif.Props.Init
/-!
# The test cases of all types store allowed values
-/
namespace Asn1

/-! ## Lists -/

theorem mem_seqDistinct {α : Type} [DecidableEq α] {x : α} : ∀ {l : List α}, x ∈ seqDistinct l ↔ x ∈ l := by
  intro l
  induction l with
  | nil => exact Iff.rfl
  | cons y l ih =>
    simp only [seqDistinct, List.mem_cons, List.mem_filter, ih, decide_eq_true_eq]
    by_cases h : x = y <;> simp [h]

theorem mem_bundles_sub {α : Type} {n : Nat} {cases b : List α} (h : b ∈ bundles n cases) :
    (∀ f ∈ b, f ∈ cases) ∧ b ≠ [] := by
  unfold bundles at h
  rcases List.mem_append.1 h with h | h
  · obtain ⟨i, hi, rfl⟩ := List.mem_map.1 h
    refine ⟨fun f hf => List.mem_of_mem_drop (List.mem_of_mem_take hf), fun h0 => ?_⟩
    rw [List.mem_range] at hi
    have hl := congrArg List.length h0
    simp only [List.length_take, List.length_drop, List.length_nil] at hl
    rcases Nat.eq_zero_or_pos n with rfl | hn
    · simp at hi
    have := (Nat.le_div_iff_mul_le hn).1 (Nat.succ_le_of_lt hi)
    rw [Nat.succ_mul] at this
    omega
  · split at h
    · rename_i hp
      simp only [List.mem_singleton] at h
      subst h
      refine ⟨fun f hf => List.mem_of_mem_drop (List.mem_of_mem_take hf), fun h0 => ?_⟩
      have hl := congrArg List.length h0
      simp only [List.length_take, List.length_drop, List.length_nil] at hl
      have := Nat.div_add_mod cases.length n
      rw [Nat.mul_comm] at this
      omega
    · cases h

/-- Every case is in a bundle, at a position below `n`. -/
theorem bundles_cover {α : Type} {n : Nat} (hn : 0 < n) {cases : List α} {f : α} (h : f ∈ cases) :
    ∃ b ∈ bundles n cases, ∃ p, p < n ∧ p < b.length ∧ b[p]? = some f := by
  obtain ⟨k, hk, rfl⟩ := List.getElem_of_mem h
  have hdm := Nat.div_add_mod k n
  have hmod := Nat.mod_lt k hn
  have hdc := Nat.div_add_mod cases.length n
  have hmc := Nat.mod_lt cases.length hn
  have hle : k / n ≤ cases.length / n := Nat.div_le_div_right (by omega)
  rw [Nat.mul_comm] at hdm hdc
  by_cases hq : k / n < cases.length / n
  · refine ⟨_, List.mem_append_left _ (List.mem_map.2 ⟨k / n, List.mem_range.2 hq, rfl⟩), k % n, hmod, ?_, ?_⟩
    · have := (Nat.le_div_iff_mul_le hn).1 (Nat.succ_le_of_lt hq)
      rw [Nat.succ_mul] at this
      simp only [List.length_take, List.length_drop]; omega
    · rw [List.getElem?_take_of_lt hmod, List.getElem?_drop, hdm, List.getElem?_eq_getElem hk]
  · have he : k / n = cases.length / n := by omega
    have hpos : 0 < cases.length % n := by rw [← he] at hdc; omega
    refine ⟨(cases.drop (cases.length / n * n)).take (cases.length % n), ?_, k % n, hmod, ?_, ?_⟩
    · refine List.mem_append_right _ ?_
      rw [if_pos hpos]; exact List.mem_singleton_self _
    · rw [← he] at hdc ⊢
      simp only [List.length_take, List.length_drop]; omega
    · rw [← he] at hdc ⊢
      rw [List.getElem?_take_of_lt (by omega), List.getElem?_drop, hdm, List.getElem?_eq_getElem hk]

theorem caseAt_ok {α : Type} {cases : List (α → M α)} {i : Nat} {f : α → M α} (h : cases[i % cases.length]? = some f) (x : α) :
    caseAt cases i x = f x := by
  unfold caseAt; rw [h]

theorem caseAt_nil {α : Type} (i : Nat) (x : α) : caseAt [] i x = pure x := rfl

theorem caseAt_some {α : Type} {l : List α} (h : l ≠ []) (i : Nat) : ∃ f ∈ l, l[i % l.length]? = some f := by
  have hl : 0 < l.length := List.length_pos_of_ne_nil h
  have := Nat.mod_lt i hl
  exact ⟨l[i % l.length], List.getElem_mem _, List.getElem?_eq_getElem this⟩

theorem putFirst_ok {α : Type} {arr : List α} {n : Nat} {f : Nat → α} (h : n ≤ arr.length) (s : BitStream) :
    putFirst arr n f s = .ok ((List.range n).map f ++ arr.drop n, s) := by
  unfold putFirst; rw [if_pos h]; rfl

theorem bytesBits_length8 (l : List Byte) : (bytesBits l).length = 8 * l.length := by
  induction l with
  | nil => rfl
  | cons x xs ih =>
    show (byteBits x ++ bytesBits xs).length = _
    rw [List.length_append, ih, List.length_cons]
    have : (byteBits x).length = 8 := by simp [byteBits]
    omega

/-! ## Values -/

theorem testInts_ok {cls : IntClass} {cons : List AC} (hc : ∀ c ∈ cons, c.Over (AC.IntLeaf cls.wordMin cls.wordMax)) {x : Int}
    (h : x ∈ testInts cls cons) : cls.Word x ∧ SatAll cons (.int x) := by
  cases cons with
  | nil =>
    refine ⟨?_, by simp [SatAll]⟩
    simp only [testInts, mem_seqDistinct, List.mem_cons, List.not_mem_nil, or_false] at h
    rw [IntClass.word_iff]
    unfold IntClass.wordMin IntClass.wordMax at *
    cases hp : cls.positive <;> rw [hp] at h <;> rcases h with rfl | rfl | rfl <;> simp
  | cons c cons =>
    simp only [testInts, List.mem_filter, mem_seqDistinct] at h
    refine ⟨?_, (allEval_sat intLeaf_sat hc).1 h.2⟩
    obtain ⟨d, hd, hx⟩ := List.mem_flatMap.1 h.1
    rw [IntClass.word_iff]
    exact cands_all (fun c hc => intCand_word hc) d (hc d hd) x hx

theorem realRange_sat {d : Dbl} : ∀ c : AC, AC.RealRange c → (realLeafEval d c = true ↔ c.Sat (.real d)) := by
  intro c hc
  unfold AC.RealRange at hc
  split at hc
  · rename_i l
    cases l with
    | single w => simp [realLeafEval, AC.Sat, RealLeaf.Sat, dblEq_comm]
    | range v1 v2 i j => cases i <;> cases j <;> simp [realLeafEval, AC.Sat, RealLeaf.Sat]
    | valMax v1 i => cases i <;> simp [realLeafEval, AC.Sat, RealLeaf.Sat]
    | minVal v2 i => cases i <;> simp [realLeafEval, AC.Sat, RealLeaf.Sat]
  · exact hc.elim

theorem testReals_ok {cons : List AC} (hc : ∀ c ∈ cons, c.Over AC.RealRange) {x : Dbl}
    (h : x ∈ testReals cons) : SatAll cons (.real x) := by
  cases cons with
  | nil => simp [SatAll]
  | cons c cons =>
    simp only [testReals, List.mem_filter] at h
    exact (allEval_sat realRange_sat hc).1 h.2

theorem testSizes_ok {a b n : Nat} (hab : a ≤ b) (h : n ∈ testSizes a b) : TestSize a b n ∧ n ≤ b ∧ (a = b → n = a) := by
  unfold testSizes at h
  split at h
  · simp only [List.mem_singleton] at h
    exact ⟨.inl h, by omega, fun _ => h⟩
  · simp only [List.mem_cons] at h
    rcases h with rfl | rfl | h
    · exact ⟨.inl rfl, hab, fun _ => rfl⟩
    · exact ⟨.inr (.inl rfl), Nat.le_refl _, fun h => h.symm⟩
    · split at h
      · simp only [fragSizes, List.mem_cons, List.not_mem_nil, or_false] at h
        refine ⟨.inr (.inr ⟨by omega, by omega, by omega, by omega⟩), by omega, by omega⟩
      · cases h

theorem acCandidates_oid : ∀ c : AC, c.Alternatives → c.Over AC.OidLeaf →
    acCandidates oidLeafValues c ≠ [] ∧ ∀ w ∈ acCandidates oidLeafValues c, c.Sat (.oid w) := by
  intro c
  induction c using AC.rec (motive_2 := fun _ => True) with
  | union c d ih1 ih2 =>
    intro ha ho
    simp only [AC.Alternatives, AC.Over] at ha ho
    obtain ⟨h1, h2⟩ := ih1 ha.1 ho.1
    obtain ⟨h3, h4⟩ := ih2 ha.2 ho.2
    simp only [acCandidates, AC.Sat, List.mem_append]
    exact ⟨by simp [h1], fun w hw => hw.imp (h2 w) (h4 w)⟩
  | inter c d ih1 ih2 => intro ha; exact ha.elim
  | allExcept c ih => intro ha; exact ha.elim
  | «except» c d ih1 ih2 => intro ha; exact ha.elim
  | root c ih => intro ha ho; exact ih ha ho
  | root2 c d ih1 ih2 =>
    intro ha ho
    simp only [AC.Alternatives, AC.Over] at ha ho
    obtain ⟨h1, h2⟩ := ih1 ha.1 ho.1
    obtain ⟨h3, h4⟩ := ih2 ha.2 ho.2
    simp only [acCandidates, AC.Sat, List.mem_append]
    exact ⟨by simp [h1], fun w hw => hw.imp (h2 w) (h4 w)⟩
  | oidVal v => intro _ _; simp [acCandidates, oidLeafValues, AC.Sat]
  | range l => intro _ ho; exact ho.elim
  | realRange l => intro _ ho; exact ho.elim
  | boolean b => intro _ ho; exact ho.elim
  | item v => intro _ ho; exact ho.elim
  | octetsVal v => intro _ ho; exact ho.elim
  | bitsVal v => intro _ ho; exact ho.elim
  | strVal v => intro _ ho; exact ho.elim
  | size c => intro _ ho; exact ho.elim
  | alphabet c => intro _ ho; exact ho.elim
  | value w => intro _ ho; exact ho.elim
  | component c => intro _ ho; exact ho.elim
  | components ncs => intro _ ho; exact ho.elim
  | nil => trivial
  | bare => trivial
  | cons => trivial

theorem testOids_ok {rel : Bool} {cons : List AC} (h : cons = [] ∨
    ∃ c, cons = [c] ∧ c.Alternatives ∧ c.Over AC.OidLeaf ∧ ∀ w, c.Sat (.oid w) → w.length ≤ 20 ∧ OidArcsOk rel w) {w : List U64}
    (hw : w ∈ testOids cons) : w.length ≤ 20 ∧ OidArcsOk rel w ∧ SatAll cons (.oid w) := by
  rcases h with rfl | ⟨c, rfl, h1, h2, h3⟩
  · simp only [testOids, List.flatMap_nil, List.mem_cons, List.not_mem_nil, or_false] at hw
    refine ⟨?_, ?_, by simp [SatAll]⟩
    · rcases hw with rfl | rfl <;> simp
    · unfold OidArcsOk
      split
      · rcases hw with rfl | rfl <;> simp
      · rcases hw with rfl | rfl
        · exact ⟨_, _, _, rfl, by decide, by decide⟩
        · exact ⟨_, _, _, rfl, by decide, by decide⟩
  · obtain ⟨h4, h5⟩ := acCandidates_oid c h1 h2
    have hm : w ∈ acCandidates oidLeafValues c := by
      unfold testOids at hw
      simp only [List.flatMap_cons, List.flatMap_nil, List.append_nil] at hw
      exact hw
    have hs := h5 w hm
    obtain ⟨h6, h7⟩ := h3 w hs
    exact ⟨h6, h7, by simpa [SatAll] using hs⟩

/-! ## Elementary cases -/

theorem octetsCase_runs {lo hi a b n : Nat} {cons : List AC} (hc : Counted lo hi a b) (hn : n ∈ testSizes a b) :
    Runs (.octets lo hi cons) (octetsCase (decide (a = b)) n) (.octets ((List.range n).map fun i => BitVec.ofNat 8 i)) := by
  obtain ⟨h1, h2, h3, h4⟩ := hc
  obtain ⟨_, h5, h6⟩ := testSizes_ok h1 hn
  intro s
  have hlen : (((List.range n).map fun i => BitVec.ofNat 8 i) ++ (List.replicate hi 0#8).drop n).length = hi := by simp; omega
  refine ⟨.octets (if decide (a = b) then 0 else n) (((List.range n).map fun i => BitVec.ofNat 8 i) ++ (List.replicate hi 0#8).drop n),
    ?_, ?_⟩
  · simp only [zeroMem, octetsCase]
    rw [bind_ok (putFirst_ok (by simp; omega) s)]; rfl
  · simp only [meaning]
    rw [if_pos hlen, counted_prefix (by simp; omega) hlen (fun h => by simp; have := h4 h; have := h6 (h3.1 h); omega)
      (fun h => by rw [if_neg (by simpa using fun e => h (h3.2 e))]; simp)]; rfl

theorem octetsLit_runs {lo hi a b : Nat} {cons : List AC} {w : List Byte} (hc : Counted lo hi a b) (h1 : w.length ≤ hi)
    (h2 : lo = hi → w.length = hi) : Runs (.octets lo hi cons) (octetsLit hi a b w) (.octets w) := by
  obtain ⟨_, _, h3, _⟩ := hc
  intro s
  have hlen : (w ++ List.replicate (hi - w.length) 0#8).length = hi := by simp; omega
  refine ⟨.octets (if a = b then 0 else w.length) (w ++ List.replicate (hi - w.length) 0#8), ?_, ?_⟩
  · simp only [zeroMem, octetsLit]
    rw [bind_ok (literalArr_ok h1 s)]; rfl
  · simp only [meaning]
    rw [if_pos hlen, counted_prefix h1 hlen h2 (fun h => by rw [if_neg fun e => h (h3.2 e)])]; rfl

theorem bitsCase_runs {lo hi a b n : Nat} {cons : List AC} (hc : Counted lo hi a b) (hn : n ∈ testSizes a b) :
    ∃ l : List Bool, l.length = n ∧ Runs (.bits lo hi cons) (bitsCase (decide (a = b)) n) (.bits l) := by
  obtain ⟨h1, h2, h3, h4⟩ := hc
  obtain ⟨_, h5, h6⟩ := testSizes_ok h1 hn
  let arr := (List.range ((n + 7) / 8)).map (fun _ => 0x55#8) ++ (List.replicate ((hi + 7) / 8) 0#8).drop ((n + 7) / 8)
  have hlen : arr.length = (hi + 7) / 8 := by simp [arr]; omega
  have hbl := bytesBits_length8 arr
  refine ⟨(bytesBits arr).take n, by rw [List.length_take]; omega, fun s => ⟨.bits (if decide (a = b) then 0 else n) arr, ?_, ?_⟩⟩
  · simp only [zeroMem, bitsCase]
    rw [bind_ok (putFirst_ok (by simp; omega) s)]; rfl
  · simp only [meaning]
    rw [if_pos hlen]
    by_cases hlh : lo = hi
    · have := h4 hlh; have := h6 (h3.1 hlh)
      rw [if_pos hlh, show hi = n by omega]; rfl
    · rw [if_neg hlh, if_neg (by simpa using fun e => hlh (h3.2 e))]
      unfold counted
      rw [if_pos ⟨by omega, by omega⟩]
      have : ((n : Int)).toNat = n := by omega
      rw [this]; rfl

theorem testChar_ok {alphabet : List Byte}
    (h : (alphabet ≠ [] ∧ alphabet.length < 128 ∧ ∀ ch ∈ alphabet, ch ≠ 0#8 ∧ ch.toNat < 128) ∨
      (128 ≤ alphabet.length ∧ ∀ ch : Byte, ch.toNat < 128 → ch ∈ alphabet)) (i : Nat) :
    testChar alphabet i ∈ alphabet ∧ testChar alphabet i ≠ 0#8 ∧ (testChar alphabet i).toNat < 128 := by
  unfold testChar
  rcases h with ⟨h1, h2, h3⟩ | ⟨h1, h2⟩
  · rw [if_pos h2]
    have hl := Nat.mod_lt i (List.length_pos_of_ne_nil h1)
    rw [List.getD_eq_getElem?_getD, List.getElem?_eq_getElem hl]
    exact ⟨List.getElem_mem _, h3 _ (List.getElem_mem _)⟩
  · rw [if_neg (by omega)]
    have hm := Nat.mod_lt i (show 26 > 0 by omega)
    have ht : (BitVec.ofNat 8 (65 + i % 26)).toNat = 65 + i % 26 := by rw [BitVec.toNat_ofNat]; omega
    refine ⟨h2 _ (by omega), fun h0 => ?_, by omega⟩
    rw [h0] at ht; simp at ht; omega

theorem strCase_runs {lo hi a b n : Nat} {alphabet : List Byte} {cons : List AC} (hab : a ≤ b) (hb : b ≤ hi)
    (h : (alphabet ≠ [] ∧ alphabet.length < 128 ∧ ∀ ch ∈ alphabet, ch ≠ 0#8 ∧ ch.toNat < 128) ∨
      (128 ≤ alphabet.length ∧ ∀ ch : Byte, ch.toNat < 128 → ch ∈ alphabet)) (hn : n ∈ testSizes a b) :
    Runs (.str lo hi alphabet cons) (strCase alphabet b n) (.str ((List.range n).map (testChar alphabet))) := by
  obtain ⟨_, h5, _⟩ := testSizes_ok hab hn
  have hne : alphabet ≠ [] := by
    rcases h with h | h
    · exact h.1
    · rintro rfl; simp at h
  intro s
  have h1 : List.replicate (b + 1) 0#8 ++ (List.replicate (hi + 1) 0#8).drop (b + 1) = List.replicate (hi + 1) 0#8 := by
    rw [List.drop_replicate, List.replicate_append_replicate]; congr 1; omega
  have h2 : (List.replicate (hi + 1) 0#8).drop n = 0#8 :: List.replicate (hi - n) 0#8 := by
    rw [List.drop_replicate, ← List.replicate_succ]; congr 1; omega
  refine ⟨.str ((List.range n).map (testChar alphabet) ++ 0#8 :: List.replicate (hi - n) 0#8), ?_, ?_⟩
  · simp only [zeroMem, strCase]
    rw [bind_ok (memSet_ok (by simp; omega) s), h1, if_neg (by simp [hne]), ← h2]
    rw [bind_ok (putFirst_ok (by simp; omega) s)]; rfl
  · simp only [meaning]
    rw [if_pos (by simp; omega), cString_ok]
    · rfl
    · intro c hc
      obtain ⟨i, _, rfl⟩ := List.mem_map.1 hc
      exact (testChar_ok h i).2

theorem oidCase_runs {rel : Bool} {cons : List AC} {w : List U64} (h : w.length ≤ 20) : Runs (.oid rel cons) (oidCase w) (.oid w) := by
  intro s
  refine ⟨.oid ⟨w.length, w ++ (List.replicate 20 0#64).drop w.length⟩, ?_, ?_⟩
  · simp only [zeroMem, oidCase]
    rw [bind_ok (putAll_ok (by simpa using h) s)]; rfl
  · simp only [meaning]
    rw [if_pos ⟨by simp; omega, h⟩]
    simp

end Asn1
