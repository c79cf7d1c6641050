import Verif.Proof.TestCasesAll
import Verif.Props.Object
/-!
# Which values the test cases reach; the test function
-/
namespace Asn1

/-! ## INTEGER -/

theorem cand_lower {cls : IntClass} {v : Int} (hv : v ≤ cls.wordMax) {c : AC} (hp : c.Positive)
    (ho : c.Over (AC.IntLeaf cls.wordMin cls.wordMax)) (he : acEval (intLeafEval v) c = true)
    (hn : v ∉ acCandidates (intLeafCandidates cls) c) : acEval (intLeafEval (v - 1)) c = true := by
  refine cand_mono (leaf := intLeafEval) (cands := intLeafCandidates cls) (P := AC.IntLeaf cls.wordMin cls.wordMax)
    (le := fun x y => x ≤ y) (v := v) (w := v - 1) ?_ c hp ho he ?_
  · intro c hP hl hx
    unfold AC.IntLeaf at hP
    split at hP
    · simp only [intLeafEval, decide_eq_true_eq] at hl ⊢
      have := hx _ (List.mem_singleton.2 rfl) (by omega)
      omega
    · rename_i v1 v2 i j
      have h1 := hx _ (List.mem_cons_self ..)
      cases i <;> cases j <;> simp [intLeafEval, IntClass.next] at hl h1 ⊢ <;> (try split at h1) <;> omega
    · rename_i v1 i
      have h1 := hx _ (List.mem_cons_self ..)
      cases i <;> simp [intLeafEval, IntClass.next] at hl h1 ⊢ <;> (try split at h1) <;> omega
    · rename_i v2 j
      cases j <;> simp [intLeafEval] at hl ⊢ <;> omega
    · exact hP.elim
  · intro x hx hle
    have : x ≠ v := fun h => hn (h ▸ hx)
    show x ≤ v - 1
    omega

theorem cand_upper {cls : IntClass} {v : Int} (hv : cls.wordMin ≤ v) {c : AC} (hp : c.Positive)
    (ho : c.Over (AC.IntLeaf cls.wordMin cls.wordMax)) (he : acEval (intLeafEval v) c = true)
    (hn : v ∉ acCandidates (intLeafCandidates cls) c) : acEval (intLeafEval (v + 1)) c = true := by
  refine cand_mono (leaf := intLeafEval) (cands := intLeafCandidates cls) (P := AC.IntLeaf cls.wordMin cls.wordMax)
    (le := fun x y => y ≤ x) (v := v) (w := v + 1) ?_ c hp ho he ?_
  · intro c hP hl hx
    unfold AC.IntLeaf at hP
    split at hP
    · simp only [intLeafEval, decide_eq_true_eq] at hl ⊢
      have := hx _ (List.mem_singleton.2 rfl) (by omega)
      omega
    · rename_i v1 v2 i j
      have h1 := hx _ (List.mem_cons_of_mem _ (List.mem_cons_self ..))
      cases i <;> cases j <;> simp [intLeafEval, IntClass.prev] at hl h1 ⊢ <;> (try split at h1) <;> omega
    · rename_i v1 i
      cases i <;> simp [intLeafEval] at hl ⊢ <;> omega
    · rename_i v2 j
      have h1 := hx _ (List.mem_cons_of_mem _ (List.mem_cons_self ..))
      cases j <;> simp [intLeafEval, IntClass.prev] at hl h1 ⊢ <;> (try split at h1) <;> omega
    · exact hP.elim
  · intro x hx hle
    have : x ≠ v := fun h => hn (h ▸ hx)
    show v + 1 ≤ x
    omega

theorem cand_below {cls : IntClass} {v : Int} (hw : cls.wordMin ≤ v ∧ v ≤ cls.wordMax) {c : AC} (hp : c.Positive)
    (ho : c.Over (AC.IntLeaf cls.wordMin cls.wordMax)) (he : acEval (intLeafEval v) c = true) :
    ∃ x ∈ acCandidates (intLeafCandidates cls) c, x ≤ v := by
  refine cand_exists (leaf := intLeafEval) (cands := intLeafCandidates cls) (P := AC.IntLeaf cls.wordMin cls.wordMax)
    (le := fun x y => x ≤ y) (v := v) ?_ c hp ho he
  intro c hP hl
  unfold AC.IntLeaf at hP
  split at hP
  · simp only [intLeafEval, decide_eq_true_eq] at hl
    exact ⟨_, List.mem_singleton.2 rfl, by omega⟩
  · rename_i v1 v2 i j
    refine ⟨_, List.mem_cons_self .., ?_⟩
    cases i <;> cases j <;> simp [intLeafEval, IntClass.next] at hl ⊢ <;> (try split) <;> omega
  · rename_i v1 i
    refine ⟨_, List.mem_cons_self .., ?_⟩
    cases i <;> simp [intLeafEval, IntClass.next] at hl ⊢ <;> (try split) <;> omega
  · exact ⟨_, List.mem_cons_self .., hw.1⟩
  · exact hP.elim

theorem cand_above {cls : IntClass} {v : Int} (hw : cls.wordMin ≤ v ∧ v ≤ cls.wordMax) {c : AC} (hp : c.Positive)
    (ho : c.Over (AC.IntLeaf cls.wordMin cls.wordMax)) (he : acEval (intLeafEval v) c = true) :
    ∃ x ∈ acCandidates (intLeafCandidates cls) c, v ≤ x := by
  refine cand_exists (leaf := intLeafEval) (cands := intLeafCandidates cls) (P := AC.IntLeaf cls.wordMin cls.wordMax)
    (le := fun x y => y ≤ x) (v := v) ?_ c hp ho he
  intro c hP hl
  unfold AC.IntLeaf at hP
  split at hP
  · simp only [intLeafEval, decide_eq_true_eq] at hl
    exact ⟨_, List.mem_singleton.2 rfl, by omega⟩
  · rename_i v1 v2 i j
    refine ⟨_, List.mem_cons_of_mem _ (List.mem_cons_self ..), ?_⟩
    cases i <;> cases j <;> simp [intLeafEval, IntClass.prev] at hl ⊢ <;> (try split) <;> omega
  · exact ⟨_, List.mem_cons_of_mem _ (List.mem_cons_self ..), hw.2⟩
  · rename_i v2 j
    refine ⟨_, List.mem_cons_of_mem _ (List.mem_cons_self ..), ?_⟩
    cases j <;> simp [intLeafEval, IntClass.prev] at hl ⊢ <;> (try split) <;> omega
  · exact hP.elim

theorem testInts_boundary {cls : IntClass} {cons : List AC} (hc : ∀ c ∈ cons, c.Positive ∧ c.Over (AC.IntLeaf cls.wordMin cls.wordMax))
    {v : Int} (hw : cls.Word v) (hs : SatAll cons (.int v))
    (hb : ¬ (cls.Word (v - 1) ∧ SatAll cons (.int (v - 1))) ∨ ¬ (cls.Word (v + 1) ∧ SatAll cons (.int (v + 1)))) :
    v ∈ testInts cls cons := by
  rw [IntClass.word_iff, IntClass.word_iff] at hb
  rw [IntClass.word_iff] at hw
  have hsat : ∀ v, allEval (intLeafEval v) cons = true ↔ SatAll cons (.int v) :=
    fun v => allEval_sat intLeaf_sat fun c h => (hc c h).2
  rw [← hsat, ← hsat] at hb
  rw [← hsat] at hs
  cases cons with
  | nil =>
    simp only [testInts, mem_seqDistinct, List.mem_cons, List.not_mem_nil, or_false]
    simp only [allEval, List.all_nil, and_true] at hb
    omega
  | cons c0 cons =>
    simp only [testInts, List.mem_filter, mem_seqDistinct]
    refine ⟨?_, hs⟩
    by_contra hn
    have hn' : ∀ c ∈ c0 :: cons, v ∉ acCandidates (intLeafCandidates cls) c := fun c hm h => hn (List.mem_flatMap.2 ⟨c, hm, h⟩)
    simp only [allEval, List.all_eq_true] at hs hb
    have hm0 : c0 ∈ c0 :: cons := List.mem_cons_self ..
    rcases hb with hb | hb
    · refine hb ⟨?_, fun c hm => cand_lower hw.2 (hc c hm).1 (hc c hm).2 (hs c hm) (hn' c hm)⟩
      obtain ⟨x, hx, hle⟩ := cand_below hw (hc c0 hm0).1 (hc c0 hm0).2 (hs c0 hm0)
      have hxw := cands_all (fun c h => intCand_word h) c0 (hc c0 hm0).2 x hx
      have : x ≠ v := fun h => hn' c0 hm0 (h ▸ hx)
      omega
    · refine hb ⟨?_, fun c hm => cand_upper hw.1 (hc c hm).1 (hc c hm).2 (hs c hm) (hn' c hm)⟩
      obtain ⟨x, hx, hle⟩ := cand_above hw (hc c0 hm0).1 (hc c0 hm0).2 (hs c0 hm0)
      have hxw := cands_all (fun c h => intCand_word h) c0 (hc c0 hm0).2 x hx
      have : x ≠ v := fun h => hn' c0 hm0 (h ▸ hx)
      omega

/-! ## SEQUENCE and CHOICE -/

theorem le_maxLen {α : Type} {l : List α} : ∀ {ls : List (List α)}, l ∈ ls → l.length ≤ maxLen ls := by
  intro ls
  induction ls with
  | nil => intro h; cases h
  | cons m ls ih =>
    intro h
    simp only [maxLen]
    rcases List.mem_cons.1 h with rfl | h
    · omega
    · have := ih h; omega

theorem fieldsCases_mem : ∀ (fs : CFields) (k : Nat) {o : COpt} {t : CTy}, fs.get k = some (o, t) →
    fieldCases o t.isNull (testCases zeroMem t [] none) ∈ fieldsCases zeroMem fs
  | .nil, k, o, t, h => by simp [CFields.get] at h
  | .cons o t rest, 0, o', t', h => by
    simp only [CFields.get, Option.some.injEq, Prod.mk.injEq] at h
    obtain ⟨rfl, rfl⟩ := h
    exact List.mem_cons_self ..
  | .cons o t rest, k + 1, o', t', h => List.mem_cons_of_mem _ (fieldsCases_mem rest k h)

/-- A case of a component is in a case of the whole. -/
theorem field_covered {fs : CFields} (hf : fs.TestOk) {k : Nat} {o : COpt} {t : CTy} (hk : fs.get k = some (o, t)) {g : FieldStore}
    (hg : g ∈ fieldCases o t.isNull (testCases zeroMem t [] none)) {y : Option AV} (hy : FieldRuns o t g y) (cons : List AC) :
    ∃ l, Tested (.seq fs cons) (.seq l) ∧ l[k]? = some y := by
  obtain ⟨p, hp, rfl⟩ := List.getElem_of_mem hg
  have hle := le_maxLen (fieldsCases_mem fs k hk)
  obtain ⟨l, h1, _, h3⟩ := testFields_ok fs hf p
  simp only [Tested, TestedUnder, testCases]
  refine ⟨l, ⟨_, List.mem_map.2 ⟨p, List.mem_range.2 (by omega), rfl⟩, fun s => ?_⟩,
    h3 k o t hk _ (by rw [Nat.mod_eq_of_lt hp, List.getElem?_eq_getElem hp]) y hy⟩
  obtain ⟨m, h5, h6⟩ := h1 s
  exact ⟨.seq m, by simp only [zeroMem]; rw [bind_ok h5]; rfl, by simp only [meaning, h6]; rfl⟩

theorem alt_covered : ∀ (alts : CAlts) (i k : Nat) {t : CTy} {f : Store} {x : AV}, alts.get k = some t → f ∈ testCases zeroMem t [] none →
    Runs t f x → ∃ g ∈ altsCases zeroMem alts i, ∀ s, ∃ u, g (.choice 0 .null) s = .ok (.choice (((i + k : Nat) : Int) + 1) u, s) ∧
      meaningAlt alts k u = some x
  | .nil, i, k, t, f, x, h, _, _ => by simp [CAlts.get] at h
  | .cons t rest, i, 0, t', f, x, h, hf, hr => by
    simp only [CAlts.get, Option.some.injEq] at h
    subst h
    refine ⟨_, List.mem_append_left _ (List.mem_map.2 ⟨f, hf, rfl⟩), fun s => ?_⟩
    obtain ⟨w, h3, h4⟩ := hr s
    exact ⟨w, by simp only []; rw [bind_ok h3]; rfl, by simpa only [meaningAlt] using h4⟩
  | .cons t rest, i, k + 1, t', f, x, h, hf, hr => by
    simp only [CAlts.get] at h
    obtain ⟨g, h1, h2⟩ := alt_covered rest (i + 1) k h hf hr
    refine ⟨g, List.mem_append_right _ h1, fun s => ?_⟩
    obtain ⟨u, h3, h4⟩ := h2 s
    exact ⟨u, by rw [h3, show i + 1 + k = i + (k + 1) by omega], by simpa only [meaningAlt] using h4⟩

/-! ## The test function -/

theorem encDec_ok {t : CTy} (hf : t.Fits) (hc : Computed t) (hok : Ok (uperTy t)) (hp : PlainSizes (uperTy t)) (hr : t.noReal = true)
    {v : CVal} {a : AV} (hm : meaning t v = some a) (hcod : Codable t a) (hs : t.Sat a) {store : Val → CVal}
    (hst : Stored t (toVal t a) (store (toVal t a))) {buf : List Byte} (hb : requiredBytes (uperTy t) ≤ buf.length) :
    ∃ s0 s', bitStreamInit buf (requiredBytes (uperTy t)) = .ok s0 ∧ encDec t v store s0 = .ok ((true, 0), s') := by
  have hval := valid_of_sat t v a hm hs hc hcod
  obtain ⟨s0, h0, henc, hcount, hlen, _⟩ := init_encSt (buf := buf) (count := requiredBytes (uperTy t)) hb
  have hle := code_le (uperTy t) (toVal t a) hok hp hval
  have hroom : ([] : List Bool).length + (code false (uperTy t) (toVal t a)).length ≤ 8 * s0.count := by
    rw [hcount, requiredBytes, List.length_nil]; omega
  obtain ⟨s', h1, h2, _, h4, h5⟩ := roundTrip_of (encodeObject_appends hf hc hok hm hcod hs true) (decodeType_reads hok hval) s0 [] henc hroom
  have hp0 : s0.pos = 0 := henc.pos
  have hwf : Wf { s' with currentByte := 0, currentBit := 0 } :=
    ⟨by show 0 < 8; omega, by show s'.count ≤ s'.buf.length; rw [h4.count, h4.len, hlen, hcount]; omega⟩
  obtain ⟨t', h6, _⟩ := h5 { s' with currentByte := 0, currentBit := 0 } hwf (by rw [hp0]; rfl)
    (by show s'.pos ≤ 8 * s'.count; rw [h4.count, h2, hp0, hcount, requiredBytes]; omega)
    (fun i _ _ => rfl)
  have hmw := stored_meaning t v _ a hm hc hval hst
  have hv2 : isConstraintValid t (store (toVal t a)) none t' = .ok ((true, none), t') := by
    obtain ⟨b, e, h1, h2, h3, _⟩ := C80_valid_partial t hf _ a hmw none t'
    obtain rfl := h2.2 hs
    obtain rfl : e = none := by cases h3 rfl <;> assumption
    exact h1
  have heq : cEqual t v (store (toVal t a)) t' = .ok (true, t') := by
    obtain ⟨r, h1, h2⟩ := C79_equal_partial t hr v _ a a hm hmw t'
    obtain rfl := h2.2 rfl
    exact h1
  refine ⟨s0, t', h0, ?_⟩
  have hatt : attachSame (requiredBytes (uperTy t)) s' = .ok ((), { s' with currentByte := 0, currentBit := 0 }) := by
    unfold attachSame
    rw [← hcount, ← h4.count]
  unfold encDec
  rw [bind_ok h1]
  simp only [Bool.not_true, Bool.false_eq_true, if_false]
  rw [bind_ok hatt, bind_ok h6]
  simp only [Bool.not_true, Bool.false_eq_true, if_false]
  rw [bind_ok hv2]
  simp only [Bool.not_true, Bool.false_eq_true, if_false]
  rw [bind_ok heq]
  rfl

end Asn1
