import Verif.Proof.TestCases
/-!
# Test cases of composed types
-/
namespace Asn1

theorem runs_unique {t : CTy} {f : Store} {a b : AV} (h : Runs t f a) (h' : Runs t f b) : a = b := by
  obtain ⟨w, h1, h2⟩ := h ⟨[], 0, 0, 0⟩
  obtain ⟨w', h3, h4⟩ := h' ⟨[], 0, 0, 0⟩
  rw [h1] at h3
  simp only [Res.ok.injEq, Prod.mk.injEq, and_true] at h3
  subst h3
  rw [h2] at h4
  exact Option.some.inj h4

/-! ## SEQUENCE OF -/

theorem elems_ok {t : CTy} {bundle : List Store} (hb : bundle ≠ []) (hf : ∀ f ∈ bundle, ∃ a, t.Sat a ∧ Runs t f a) :
    ∀ n i, ∃ l : List AV, l.length = n ∧ (∀ x ∈ l, t.Sat x) ∧
      (∀ j, j < n → ∀ f a, bundle[(i + j) % bundle.length]? = some f → Runs t f a → l[j]? = some a) ∧
      ∀ k s, n ≤ k → ∃ m, elemsCase bundle i n (List.replicate k (zeroMem t)) s = .ok (m ++ List.replicate (k - n) (zeroMem t), s) ∧
        m.length = n ∧ m.mapM (meaning t) = some l := by
  intro n
  induction n with
  | zero => intro i; exact ⟨[], rfl, by simp, fun j hj => by omega, fun k s _ => ⟨[], rfl, rfl, rfl⟩⟩
  | succ n ih =>
    intro i
    obtain ⟨l, h1, h2, h3, h4⟩ := ih (i + 1)
    obtain ⟨f, hfm, hfi⟩ := caseAt_some hb i
    obtain ⟨a, hsa, hra⟩ := hf f hfm
    refine ⟨a :: l, by simp [h1], ?_, ?_, ?_⟩
    · intro x hx
      rcases List.mem_cons.1 hx with rfl | hx
      · exact hsa
      · exact h2 x hx
    · intro j hj g b hg hrb
      cases j with
      | zero =>
        rw [Nat.add_zero, hfi] at hg
        obtain rfl := Option.some.inj hg
        rw [runs_unique hrb hra]; rfl
      | succ j =>
        rw [List.getElem?_cons_succ]
        exact h3 j (by omega) g b (by rw [← hg]; congr 2; omega) hrb
    · intro k s hk
      obtain ⟨k, rfl⟩ : ∃ k', k = k' + 1 := ⟨k - 1, by omega⟩
      obtain ⟨w, hw, hm⟩ := hra s
      obtain ⟨m, h5, h6, h7⟩ := h4 k s (by omega)
      refine ⟨w :: m, ?_, by simp [h6], ?_⟩
      · rw [List.replicate_succ]
        simp only [elemsCase]
        rw [caseAt_ok hfi, bind_ok hw, bind_ok h5]
        rw [show k + 1 - (n + 1) = k - n by omega]; rfl
      · rw [List.mapM_cons, hm, h7]; rfl

theorem mem_seqOfSizes {a b n : Nat} : n ∈ (if a = b then [a] else b :: a :: if 65536 < b then fragSizes b else []) ↔ n ∈ testSizes a b := by
  unfold testSizes
  split
  · exact Iff.rfl
  · simp only [List.mem_cons]; tauto

/-- A case of a SEQUENCE OF: its elements are those of the bundle in turn. -/
theorem seqOfCase_runs {lo hi a b n : Nat} {t : CTy} {cons : List AC} {bundle : List Store} (hc : Counted lo hi a b)
    (hn : n ∈ testSizes a b) (hb : bundle ≠ []) (hf : ∀ f ∈ bundle, ∃ a, t.Sat a ∧ Runs t f a) :
    ∃ l : List AV, l.length = n ∧ (∀ x ∈ l, t.Sat x) ∧
      (∀ j, j < n → ∀ f a, bundle[j % bundle.length]? = some f → Runs t f a → l[j]? = some a) ∧
      Runs (.seqOf lo hi t cons) (seqOfCase (decide (a = b)) n bundle) (.seqOf l) := by
  obtain ⟨h1, h2, h3, h4⟩ := hc
  obtain ⟨_, h5, h6⟩ := testSizes_ok h1 hn
  obtain ⟨l, g1, g2, g3, g4⟩ := elems_ok hb hf n 0
  refine ⟨l, g1, g2, fun j hj f a hfj => g3 j hj f a (by rw [Nat.zero_add]; exact hfj), fun s => ?_⟩
  obtain ⟨m, k1, k2, k3⟩ := g4 hi s (by omega)
  have hlen : (m ++ List.replicate (hi - n) (zeroMem t)).length = hi := by simp; omega
  refine ⟨.seqOf (if decide (a = b) then 0 else n) (m ++ List.replicate (hi - n) (zeroMem t)), ?_, ?_⟩
  · simp only [zeroMem, seqOfCase]
    rw [bind_ok k1]; rfl
  · simp only [meaning]
    rw [if_pos hlen, counted_prefix (by omega) hlen (fun h => by have := h4 h; have := h6 (h3.1 h); omega)
      (fun h => by rw [if_neg (by simpa using fun e => h (h3.2 e)), k2])]
    simp only [Option.bind_some, k3]; rfl

/-! ## SEQUENCE -/

/-- The statements of a case of a component, run on zeros: `none` when the component is absent. -/
def FieldRuns (o : COpt) (t : CTy) (g : FieldStore) (y : Option AV) : Prop :=
  ∀ s, ∃ p, g (false, zeroMem t) s = .ok (p, s) ∧ meaningFields (.cons o t .nil) [p] = some [y]

theorem fieldRuns_unique {o : COpt} {t : CTy} {g : FieldStore} {y z : Option AV} (h : FieldRuns o t g y) (h' : FieldRuns o t g z) :
    y = z := by
  obtain ⟨w, h1, h2⟩ := h ⟨[], 0, 0, 0⟩
  obtain ⟨w', h3, h4⟩ := h' ⟨[], 0, 0, 0⟩
  rw [h1] at h3
  simp only [Res.ok.injEq, Prod.mk.injEq, and_true] at h3
  subst h3
  rw [h2] at h4
  simpa using h4

theorem meaningFields_cons {o : COpt} {t : CTy} {rest : CFields} {p : Bool × CVal} {ps : List (Bool × CVal)} {y : Option AV}
    {ys : List (Option AV)} (h : meaningFields (.cons o t .nil) [p] = some [y]) (h' : meaningFields rest ps = some ys) :
    meaningFields (.cons o t rest) (p :: ps) = some (y :: ys) := by
  obtain ⟨e, v⟩ := p
  cases o <;> cases e <;> simp only [meaningFields] at h ⊢ <;> rw [h'] <;>
    first
    | (cases hm : meaning t v <;> rw [hm] at h <;> simp at h <;> subst h <;> simp)
    | simp_all

theorem present_runs {o : COpt} {t : CTy} {f : Store} {a : AV} (ho : o ≠ .mandatory) (h : Runs t f a) :
    FieldRuns o t (fun p => do pure (true, ← f p.2)) (some a) := by
  intro s
  obtain ⟨w, h1, h2⟩ := h s
  refine ⟨(true, w), by simp only []; rw [bind_ok h1]; rfl, ?_⟩
  cases o <;> simp_all [meaningFields]

theorem mandatory_runs {t : CTy} {f : Store} {a : AV} (h : Runs t f a) :
    FieldRuns .mandatory t (fun p => do pure (p.1, ← f p.2)) (some a) := by
  intro s
  obtain ⟨w, h1, h2⟩ := h s
  exact ⟨(false, w), by simp only []; rw [bind_ok h1]; rfl, by simp [meaningFields, h2]⟩

theorem absent_runs {o : COpt} {t : CTy} (ho : o ≠ .mandatory) : FieldRuns o t (fun p => pure (false, p.2)) none := by
  intro s
  refine ⟨(false, zeroMem t), rfl, ?_⟩
  cases o <;> simp_all [meaningFields]

theorem fieldCases_ok {o : COpt} {t : CTy} {cases : List Store} (h : ∀ f ∈ cases, ∃ a, t.Sat a ∧ Runs t f a) {g : FieldStore}
    (hg : g ∈ fieldCases o t.isNull cases) : ∃ y, FieldRuns o t g y ∧ ∀ x, y = some x → t.Sat x := by
  have two : ∀ o : COpt, o ≠ .mandatory → g ∈ (cases.flatMap fun f =>
      [fun p => do pure (true, ← f p.2), fun p => pure (false, p.2)] : List FieldStore) →
      ∃ y, FieldRuns o t g y ∧ ∀ x, y = some x → t.Sat x := by
    intro o ho hg
    obtain ⟨f, hf, hg⟩ := List.mem_flatMap.1 hg
    simp only [List.mem_cons, List.not_mem_nil, or_false] at hg
    rcases hg with rfl | rfl
    · obtain ⟨a, h1, h2⟩ := h f hf
      exact ⟨some a, present_runs ho h2, fun x hx => by obtain rfl := Option.some.inj hx; exact h1⟩
    · exact ⟨none, absent_runs ho, fun x hx => by cases hx⟩
  cases o with
  | absent => simp [fieldCases] at hg
  | present =>
    simp only [fieldCases] at hg
    obtain ⟨f, hf, rfl⟩ := List.mem_map.1 hg
    obtain ⟨a, h1, h2⟩ := h f hf
    exact ⟨some a, present_runs (by simp) h2, fun x hx => by obtain rfl := Option.some.inj hx; exact h1⟩
  | mandatory =>
    simp only [fieldCases] at hg
    split at hg
    · cases hg
    · obtain ⟨f, hf, rfl⟩ := List.mem_map.1 hg
      obtain ⟨a, h1, h2⟩ := h f hf
      exact ⟨some a, mandatory_runs h2, fun x hx => by obtain rfl := Option.some.inj hx; exact h1⟩
  | «optional» =>
    simp only [fieldCases] at hg
    split at hg
    · cases hg
    · exact two _ (by simp) hg
  | default d =>
    simp only [fieldCases] at hg
    split at hg
    · cases hg
    · exact two _ (by simp) hg

theorem caseField_step {o : COpt} {t : CTy} {cases : List Store} (h : ∀ f ∈ cases, ∃ a, t.Sat a ∧ Runs t f a)
    (hz : o = .mandatory → cases = [] → ZeroOk t) (i : Nat) :
    ∃ y, (∀ s, ∃ p, caseAt (fieldCases o t.isNull cases) i (false, zeroMem t) s = .ok (p, s) ∧
      meaningFields (.cons o t .nil) [p] = some [y]) ∧ (∀ x, y = some x → t.Sat x) ∧
      ∀ g, (fieldCases o t.isNull cases)[i % (fieldCases o t.isNull cases).length]? = some g → ∀ y', FieldRuns o t g y' → y' = y := by
  by_cases hne : fieldCases o t.isNull cases = []
  · rw [hne]
    by_cases ho : o = .mandatory
    · subst ho
      have hzz : ZeroOk t := by
        simp only [fieldCases] at hne
        split at hne
        · rename_i hn
          cases t <;> simp [CTy.isNull] at hn
          exact ⟨.null, by simp [CTy.Sat], rfl⟩
        · exact hz rfl (List.map_eq_nil_iff.1 hne)
      obtain ⟨a, h1, h2⟩ := hzz
      exact ⟨some a, fun s => ⟨(false, zeroMem t), rfl, by simp [meaningFields, h2]⟩,
        fun x hx => by obtain rfl := Option.some.inj hx; exact h1, fun g hg => by simp at hg⟩
    · refine ⟨none, fun s => ⟨(false, zeroMem t), rfl, ?_⟩, fun x hx => (by cases hx), fun g hg => by simp at hg⟩
      cases o <;> simp_all [meaningFields]
  · obtain ⟨g, hg, hgi⟩ := caseAt_some hne i
    obtain ⟨y, h1, h2⟩ := fieldCases_ok h hg
    refine ⟨y, fun s => ?_, h2, fun g' hg' y' hr => ?_⟩
    · rw [caseAt_ok hgi]; exact h1 s
    · rw [hgi] at hg'
      obtain rfl := Option.some.inj hg'
      exact fieldRuns_unique hr h1

/-- What is said of case number `i` of a SEQUENCE. -/
def FieldsRun (fs : CFields) (i : Nat) : Prop := ∃ l : List (Option AV),
  (∀ s, ∃ m, seqCase i (fieldsCases zeroMem fs) (zeroFields fs) s = .ok (m, s) ∧ meaningFields fs m = some l) ∧ fs.Sat l ∧
  ∀ k o t, fs.get k = some (o, t) → ∀ g, (fieldCases o t.isNull (testCases zeroMem t [] none))[i %
    (fieldCases o t.isNull (testCases zeroMem t [] none)).length]? = some g → ∀ y, FieldRuns o t g y → l[k]? = some y

theorem caseFields_step {o : COpt} {t : CTy} {rest : CFields} {i : Nat} (h : o ≠ .absent → ∀ f ∈ testCases zeroMem t [] none, ∃ a, t.Sat a ∧ Runs t f a)
    (hz : o = .mandatory → testCases zeroMem t [] none = [] → ZeroOk t) (hr : FieldsRun rest i) : FieldsRun (.cons o t rest) i := by
  obtain ⟨l, h1, h2, h3⟩ := hr
  have hs : ∃ y, (∀ s, ∃ p, caseAt (fieldCases o t.isNull (testCases zeroMem t [] none)) i (false, zeroMem t) s = .ok (p, s) ∧
      meaningFields (.cons o t .nil) [p] = some [y]) ∧ (∀ x, y = some x → t.Sat x) ∧
      ∀ g, (fieldCases o t.isNull (testCases zeroMem t [] none))[i % (fieldCases o t.isNull (testCases zeroMem t [] none)).length]? = some g →
        ∀ y', FieldRuns o t g y' → y' = y := by
    by_cases ha : o = .absent
    · subst ha
      exact ⟨none, fun s => ⟨(false, zeroMem t), rfl, by simp [meaningFields]⟩, fun x hx => (by cases hx),
        fun g hg => by simp [fieldCases] at hg⟩
    · exact caseField_step (h ha) hz i
  obtain ⟨y, g1, g2, g3⟩ := hs
  refine ⟨y :: l, fun s => ?_, ?_, ?_⟩
  · obtain ⟨p, k1, k2⟩ := g1 s
    obtain ⟨m, k3, k4⟩ := h1 s
    refine ⟨p :: m, ?_, meaningFields_cons k2 k4⟩
    simp only [fieldsCases, zeroFields, seqCase]
    rw [bind_ok k1, bind_ok k3]; rfl
  · cases y with
    | none => cases o <;> simpa [CFields.Sat] using h2
    | some x => simp only [CFields.Sat]; exact ⟨g2 x rfl, h2⟩
  · intro k o' t' hk g hg y' hy
    cases k with
    | zero =>
      simp only [CFields.get, Option.some.injEq, Prod.mk.injEq] at hk
      obtain ⟨rfl, rfl⟩ := hk
      rw [g3 g hg y' hy]; rfl
    | succ k =>
      rw [List.getElem?_cons_succ]
      exact h3 k o' t' hk g hg y' hy

/-! ## All types -/

/-- What is said of the cases of a type. -/
def CasesOk (t : CTy) (acc : List AC) (sz : Option (Nat × Nat)) : Prop :=
  ∀ f ∈ testCases zeroMem t acc sz, ∃ a, (t.Sat a ∧ SatAll acc a) ∧ Runs t f a

theorem CasesOk.plain {t : CTy} (h : CasesOk t [] none) : ∀ f ∈ testCases zeroMem t [] none, ∃ a, t.Sat a ∧ Runs t f a :=
  fun f hf => let ⟨a, h1, h2⟩ := h f hf; ⟨a, h1.1, h2⟩

mutual
theorem testCases_ok : ∀ (t : CTy) (acc : List AC) (sz : Option (Nat × Nat)), t.TestOk acc sz → CasesOk t acc sz
  | .int cls cons, acc, sz, h => by
    intro f hf
    simp only [CTy.TestOk] at h
    simp only [testCases] at hf
    obtain ⟨x, hx, rfl⟩ := List.mem_map.1 hf
    obtain ⟨h1, h2⟩ := testInts_ok h.1 hx
    have h3 := h.2 x h1 h2
    refine ⟨.int x, satAll_append.1 h2, fun s => ⟨.int x, ?_, ?_⟩⟩
    · simp only [zeroMem]; rw [storeInt_id h3.1 h3.2]; rfl
    · simp only [meaning]; rw [if_pos h3]
  | .bool cons, acc, sz, h => by
    intro f hf
    simp only [CTy.TestOk] at h
    simp only [testCases] at hf
    obtain ⟨x, hx, rfl⟩ := List.mem_map.1 hf
    simp only [testBools, List.mem_filter] at hx
    exact ⟨.bool x, satAll_append.1 ((allEval_sat boolLeaf_sat h).1 hx.2), fun s => ⟨.bool x, rfl, rfl⟩⟩
  | .null, acc, sz, h => by
    intro f hf
    simp only [CTy.TestOk] at h
    simp only [testCases, List.mem_singleton] at hf
    subst h hf
    exact ⟨.null, ⟨by simp [CTy.Sat], by simp [SatAll]⟩, fun s => ⟨.null, rfl, rfl⟩⟩
  | .enum items cons, acc, sz, h => by
    intro f hf
    simp only [CTy.TestOk] at h
    simp only [testCases] at hf
    obtain ⟨x, hx, rfl⟩ := List.mem_map.1 hf
    simp only [testItems, List.mem_filter] at hx
    refine ⟨.enum x, satAll_append.1 ((allEval_sat itemLeaf_sat h).1 hx.2), fun s => ⟨.enum x, rfl, ?_⟩⟩
    simp only [meaning]; rw [if_pos hx.1]
  | .octets lo hi cons, acc, sz, h => by
    intro f hf
    simp only [CTy.TestOk] at h
    obtain ⟨hc, h | ⟨c, h1, h2, h3, h4⟩⟩ := h
    · simp only [testCases, values_nil octetsLeaf_nil h.1] at hf
      obtain ⟨n, hn, rfl⟩ := List.mem_map.1 hf
      exact ⟨_, satAll_append.1 (h.2 _ (by simpa using (testSizes_ok hc.1 hn).1)), octetsCase_runs hc hn⟩
    · obtain ⟨h5, h6⟩ := acValues_octets c h2 h3
      have hv : (cons ++ acc).flatMap (acValues octetsLeafValues) = acValues octetsLeafValues c := by rw [h1]; simp
      simp only [testCases, hv] at hf
      have : f ∈ (acValues octetsLeafValues c).map (octetsLit hi (sz.getD (lo, hi)).1 (sz.getD (lo, hi)).2) := by
        exact hf
      obtain ⟨w, hw, rfl⟩ := List.mem_map.1 this
      have hs := h6 w hw
      obtain ⟨h7, h8⟩ := h4 w hs
      exact ⟨.octets w, satAll_append.1 (by rw [h1]; simpa [SatAll] using hs), octetsLit_runs hc h7 h8⟩
  | .bits lo hi cons, acc, sz, h => by
    intro f hf
    simp only [CTy.TestOk] at h
    obtain ⟨hc, h1, h2⟩ := h
    simp only [testCases, values_nil bitsLeaf_nil h1] at hf
    obtain ⟨n, hn, rfl⟩ := List.mem_map.1 hf
    obtain ⟨l, hl, hr⟩ := bitsCase_runs (cons := cons) hc hn
    exact ⟨.bits l, satAll_append.1 (h2 l (by rw [hl]; exact (testSizes_ok hc.1 hn).1)), hr⟩
  | .str lo hi alphabet cons, acc, sz, h => by
    intro f hf
    simp only [CTy.TestOk] at h
    obtain ⟨h1, h2, h3, h4⟩ := h
    simp only [testCases] at hf
    obtain ⟨n, hn, rfl⟩ := List.mem_map.1 hf
    refine ⟨_, satAll_append.1 (h4 _ (by simpa using (testSizes_ok h1 hn).1) ?_), strCase_runs h1 h2 h3 hn⟩
    intro ch hch
    obtain ⟨i, _, rfl⟩ := List.mem_map.1 hch
    exact (testChar_ok h3 i).1
  | .oid rel cons, acc, sz, h => by
    intro f hf
    simp only [CTy.TestOk] at h
    simp only [testCases] at hf
    obtain ⟨w, hw, rfl⟩ := List.mem_map.1 hf
    obtain ⟨h1, h2, h3⟩ := testOids_ok h hw
    have h4 := satAll_append.1 h3
    refine ⟨.oid w, ⟨?_, h4.2⟩, oidCase_runs h1⟩
    simp only [CTy.Sat]
    exact ⟨⟨w, rfl, h2⟩, h4.1⟩
  | .real cons, acc, sz, h => by
    intro f hf
    simp only [CTy.TestOk] at h
    simp only [testCases] at hf
    obtain ⟨x, hx, rfl⟩ := List.mem_map.1 hf
    exact ⟨.real x, satAll_append.1 (testReals_ok h hx), fun s => ⟨.real x, rfl, rfl⟩⟩
  | .seq fs cons, acc, sz, h => by
    intro f hf
    simp only [CTy.TestOk, List.append_eq_nil_iff] at h
    obtain ⟨⟨rfl, rfl⟩, h2⟩ := h
    simp only [testCases] at hf
    obtain ⟨i, _, rfl⟩ := List.mem_map.1 hf
    obtain ⟨l, h3, h4, _⟩ := testFields_ok fs h2 i
    refine ⟨.seq l, ⟨by simp only [CTy.Sat]; exact ⟨⟨l, rfl, h4⟩, by simp⟩, by simp [SatAll]⟩, fun s => ?_⟩
    obtain ⟨m, h5, h6⟩ := h3 s
    refine ⟨.seq m, by simp only [zeroMem]; rw [bind_ok h5]; rfl, by simp only [meaning, h6]; rfl⟩
  | .seqOf lo hi t cons, acc, sz, h => by
    intro f hf
    simp only [CTy.TestOk] at h
    obtain ⟨hc, h1, h2⟩ := h
    have ih := (testCases_ok t [] none h2).plain
    simp only [testCases] at hf
    obtain ⟨n, hn, hf⟩ := List.mem_flatMap.1 hf
    rw [mem_seqOfSizes] at hn
    split at hf
    · obtain ⟨bu, hbu, rfl⟩ := List.mem_map.1 hf
      obtain ⟨hb1, hb2⟩ := mem_bundles_sub hbu
      obtain ⟨l, g1, g2, _, g4⟩ := seqOfCase_runs (cons := cons) hc hn hb2 (fun f hf => ih f (hb1 f hf))
      have hs := satAll_append.1 (h1 l (by rw [g1]; exact (testSizes_ok hc.1 hn).1))
      exact ⟨.seqOf l, ⟨by simp only [CTy.Sat]; exact ⟨hs.1, l, rfl, g2⟩, hs.2⟩, g4⟩
    · cases hf
  | .choice alts cons, acc, sz, h => by
    intro f hf
    simp only [CTy.TestOk, List.append_eq_nil_iff] at h
    obtain ⟨⟨rfl, rfl⟩, h2⟩ := h
    simp only [testCases] at hf
    obtain ⟨k, x, h3, h4⟩ := testAlts_ok alts h2 0 f hf
    refine ⟨.choice k x, ⟨by simp only [CTy.Sat]; exact ⟨by simp, k, x, rfl, h3⟩, by simp [SatAll]⟩, fun s => ?_⟩
    obtain ⟨u, h5, h6⟩ := h4 s
    refine ⟨_, by simp only [zeroMem]; exact h5, ?_⟩
    simp only [meaning]
    have : ((k : Int) + 1).toNat - 1 = k := by omega
    rw [Nat.zero_add, if_pos (by omega), this, h6]; rfl
  | .ref t sz' cons, acc, sz, h => by
    intro f hf
    simp only [CTy.TestOk] at h
    simp only [testCases] at hf
    obtain ⟨a, ⟨h1, h2⟩, h3⟩ := testCases_ok t _ _ h f hf
    have h4 := satAll_append.1 h2
    exact ⟨a, ⟨by simp only [CTy.Sat]; exact ⟨h1, h4.1⟩, h4.2⟩, fun s => by simpa only [zeroMem, meaning] using h3 s⟩
theorem testFields_ok : ∀ (fs : CFields), fs.TestOk → ∀ i, FieldsRun fs i
  | .nil, _, i => ⟨[], fun s => ⟨[], rfl, rfl⟩, by simp [CFields.Sat], fun k o t h => by simp [CFields.get] at h⟩
  | .cons .absent t rest, h, i => by
    simp only [CFields.TestOk] at h
    exact caseFields_step (fun h => absurd rfl h) (fun h => by cases h) (testFields_ok rest h i)
  | .cons .mandatory t rest, h, i => by
    simp only [CFields.TestOk] at h
    exact caseFields_step (fun _ => (testCases_ok t [] none h.1).plain) (fun _ => h.2.1) (testFields_ok rest h.2.2 i)
  | .cons .present t rest, h, i => by
    simp only [CFields.TestOk] at h
    exact caseFields_step (fun _ => (testCases_ok t [] none h.1).plain) (fun h => by cases h) (testFields_ok rest h.2.2 i)
  | .cons .optional t rest, h, i => by
    simp only [CFields.TestOk] at h
    exact caseFields_step (fun _ => (testCases_ok t [] none h.1).plain) (fun h => by cases h) (testFields_ok rest h.2 i)
  | .cons (.default d) t rest, h, i => by
    simp only [CFields.TestOk] at h
    exact caseFields_step (fun _ => (testCases_ok t [] none h.1).plain) (fun h => by cases h) (testFields_ok rest h.2 i)
theorem testAlts_ok : ∀ (alts : CAlts), alts.TestOk → ∀ i, ∀ f ∈ altsCases zeroMem alts i, ∃ k x, alts.Sat k x ∧
    ∀ s, ∃ u, f (.choice 0 .null) s = .ok (.choice (((i + k : Nat) : Int) + 1) u, s) ∧ meaningAlt alts k u = some x
  | .nil, _, i, f, hf => by simp [altsCases] at hf
  | .cons t rest, h, i, f, hf => by
    simp only [CAlts.TestOk] at h
    simp only [altsCases] at hf
    rcases List.mem_append.1 hf with hf | hf
    · obtain ⟨g, hg, rfl⟩ := List.mem_map.1 hf
      obtain ⟨a, h1, h2⟩ := (testCases_ok t [] none h.1).plain g hg
      refine ⟨0, a, by simpa [CAlts.Sat] using h1, fun s => ?_⟩
      obtain ⟨w, h3, h4⟩ := h2 s
      exact ⟨w, by simp only []; rw [bind_ok h3]; rfl, by simpa only [meaningAlt] using h4⟩
    · obtain ⟨k, x, h1, h2⟩ := testAlts_ok rest h.2 (i + 1) f hf
      refine ⟨k + 1, x, by simpa [CAlts.Sat] using h1, fun s => ?_⟩
      obtain ⟨u, h3, h4⟩ := h2 s
      exact ⟨u, by rw [h3, show i + 1 + k = i + (k + 1) by omega], by simpa only [meaningAlt] using h4⟩
end

end Asn1
