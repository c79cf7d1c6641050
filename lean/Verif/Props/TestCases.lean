import Verif.Proof.TestCasesCover
/-!
# C105: the automatic test cases
-/
namespace Asn1

/-- C105 (part): every test case stores, without touching memory outside of its object, a value of the type, and
`_IsConstraintValid` accepts the object.
Missing: what `CTy.TestOk` excludes (see the violations below), what `CTy.Fits` excludes (C80). -/
theorem C105_valid_partial (t : CTy) (h : t.TestOk [] none) (hf : t.Fits) (f : Store) (hm : f ∈ testCases zeroMem t [] none) :
    ∃ a, t.Sat a ∧ ∀ s, ∃ w, f (zeroMem t) s = .ok (w, s) ∧ meaning t w = some a ∧
      ∀ s', isConstraintValid t w none s' = .ok ((true, none), s') := by
  obtain ⟨a, h1, h2⟩ := (testCases_ok t [] none h).plain f hm
  refine ⟨a, h1, fun s => ?_⟩
  obtain ⟨w, h3, h4⟩ := h2 s
  refine ⟨w, h3, h4, fun s' => ?_⟩
  obtain ⟨b, e, h5, h6, h7, _⟩ := C80_valid_partial t hf w a h4 none s'
  obtain rfl := h6.2 h1
  obtain rfl : e = none := by cases h7 rfl <;> assumption
  exact h5

/-- C105 (part): every test case passes: the generated test function, with its buffer of one octet more than the required number,
returns TRUE and the error code 0, whatever the memory of the decoded object held before.
Missing: what `CTy.TestOk`, `CTy.Fits` (C80), `Ok` (C35), `Computed` and `Codable` (C94) exclude; REAL (C79). -/
theorem C105_passes_partial (t : CTy) (h : t.TestOk [] none) (hf : t.Fits) (hc : Computed t) (hok : Ok (uperTy t)) (hp : PlainSizes (uperTy t))
    (hr : t.noReal = true) (f : Store) (hm : f ∈ testCases zeroMem t [] none) :
    ∃ a, t.Sat a ∧ ∀ s, ∃ w, f (zeroMem t) s = .ok (w, s) ∧ meaning t w = some a ∧
      (Codable t a → ∀ store : Val → CVal, Stored t (toVal t a) (store (toVal t a)) → ∀ buf, buf.length = requiredBytes (uperTy t) + 1 →
        ∃ s0 s', bitStreamInit buf (requiredBytes (uperTy t)) = .ok s0 ∧ encDec t w store s0 = .ok ((true, 0), s')) := by
  obtain ⟨a, h1, h2⟩ := (testCases_ok t [] none h).plain f hm
  refine ⟨a, h1, fun s => ?_⟩
  obtain ⟨w, h3, h4⟩ := h2 s
  exact ⟨w, h3, h4, fun hcod store hst buf hb => encDec_ok hf hc hok hp hr h4 hcod h1 hst (by omega)⟩

/-! ## Which values are tested -/

/-- C105 (part): of an INTEGER type every value at the edge of the admitted values is tested: those of which the predecessor
or the successor is not admitted.
Missing: EXCEPT and ALL EXCEPT (see the violations below); `acc`: the constraints of references to the type. -/
theorem C105_bounds_partial (cls : IntClass) (cons acc : List AC) (sz : Option (Nat × Nat)) (h : (CTy.int cls cons).TestOk acc sz)
    (hp : ∀ c ∈ cons ++ acc, c.Positive) (v : Int) (hw : cls.Word v) (hs : SatAll (cons ++ acc) (.int v))
    (hb : ¬ (cls.Word (v - 1) ∧ SatAll (cons ++ acc) (.int (v - 1))) ∨ ¬ (cls.Word (v + 1) ∧ SatAll (cons ++ acc) (.int (v + 1)))) :
    TestedUnder acc sz (.int cls cons) (.int v) := by
  simp only [CTy.TestOk] at h
  have hv : v ∈ testInts cls (cons ++ acc) := testInts_boundary (fun c hc => ⟨hp c hc, h.1 c hc⟩) hw hs hb
  have h3 := h.2 v hw hs
  simp only [TestedUnder, testCases]
  refine ⟨_, List.mem_map.2 ⟨v, hv, rfl⟩, fun s => ⟨.int v, ?_, ?_⟩⟩
  · simp only [zeroMem]; rw [storeInt_id h3.1 h3.2]; rfl
  · simp only [meaning]; rw [if_pos h3]

/-- C105: every admitted item of an ENUMERATED type is tested. -/
theorem C105_items_partial (items : List Int) (cons acc : List AC) (sz : Option (Nat × Nat)) (h : (CTy.enum items cons).TestOk acc sz)
    (v : Int) (hv : v ∈ items) (hs : SatAll (cons ++ acc) (.enum v)) : TestedUnder acc sz (.enum items cons) (.enum v) := by
  simp only [CTy.TestOk] at h
  simp only [TestedUnder, testCases]
  refine ⟨_, List.mem_map.2 ⟨v, ?_, rfl⟩, fun s => ⟨.enum v, rfl, ?_⟩⟩
  · simp only [testItems, List.mem_filter]
    exact ⟨hv, (allEval_sat itemLeaf_sat h).2 hs⟩
  · simp only [meaning]; rw [if_pos hv]

/-- C105: every admitted truth value is tested. -/
theorem C105_booleans_partial (cons acc : List AC) (sz : Option (Nat × Nat)) (h : (CTy.bool cons).TestOk acc sz)
    (b : Bool) (hs : SatAll (cons ++ acc) (.bool b)) : TestedUnder acc sz (.bool cons) (.bool b) := by
  simp only [CTy.TestOk] at h
  simp only [TestedUnder, testCases]
  refine ⟨_, List.mem_map.2 ⟨b, ?_, rfl⟩, fun s => ⟨.bool b, rfl, rfl⟩⟩
  simp only [testBools, List.mem_filter]
  exact ⟨by cases b <;> simp, (allEval_sat boolLeaf_sat h).2 hs⟩

theorem bounds_tested {a b n : Nat} (h : n = a ∨ n = b) : n ∈ testSizes a b := by
  unfold testSizes
  split
  · simp; omega
  · rcases h with rfl | rfl <;> simp

/-- C105 (part): OCTET STRING, BIT STRING and character string types with SIZE constraints: a value of the smallest and one of the largest
size are tested. `sz`: the size that references to the type impose. -/
theorem C105_sizes_partial (t : CTy) (acc : List AC) (sz : Option (Nat × Nat)) (h : t.TestOk acc sz) (n : Nat) :
    match t with
    | .octets lo hi cons => (∀ c ∈ cons ++ acc, c.Over AC.SizeLeaf) → n = (sz.getD (lo, hi)).1 ∨ n = (sz.getD (lo, hi)).2 →
        ∃ l : List Byte, l.length = n ∧ TestedUnder acc sz t (.octets l)
    | .bits lo hi _ => n = (sz.getD (lo, hi)).1 ∨ n = (sz.getD (lo, hi)).2 → ∃ l : List Bool, l.length = n ∧ TestedUnder acc sz t (.bits l)
    | .str lo hi _ _ => n = (sz.getD (lo, hi)).1 ∨ n = (sz.getD (lo, hi)).2 → ∃ l : List Byte, l.length = n ∧ TestedUnder acc sz t (.str l)
    | _ => True := by
  cases t with
  | octets lo hi cons =>
    intro ho hn
    simp only [CTy.TestOk] at h
    refine ⟨(List.range n).map fun i => BitVec.ofNat 8 i, by simp, ?_⟩
    · simp only [TestedUnder, testCases, values_nil octetsLeaf_nil ho]
      exact ⟨_, List.mem_map.2 ⟨n, bounds_tested hn, rfl⟩, octetsCase_runs h.1 (bounds_tested hn)⟩
  | bits lo hi cons =>
    intro hn
    simp only [CTy.TestOk] at h
    obtain ⟨hc, h1, h2⟩ := h
    obtain ⟨l, hl, hr⟩ := bitsCase_runs (cons := cons) hc (bounds_tested hn)
    refine ⟨l, hl, ?_⟩
    simp only [TestedUnder, testCases, values_nil bitsLeaf_nil h1]
    exact ⟨_, List.mem_map.2 ⟨n, bounds_tested hn, rfl⟩, hr⟩
  | str lo hi al cons =>
    intro hn
    simp only [CTy.TestOk] at h
    obtain ⟨h1, h2, h3, _⟩ := h
    refine ⟨(List.range n).map (testChar al), by simp, ?_⟩
    · simp only [TestedUnder, testCases]
      exact ⟨_, List.mem_map.2 ⟨n, bounds_tested hn, rfl⟩, strCase_runs h1 h2 h3 (bounds_tested hn)⟩
  | _ => trivial

/-- C105 (part): every tested value of the type of the elements is an element of a tested value of a SEQUENCE OF, of the
largest and of the smallest size (the empty value is not tested). -/
theorem C105_elements_partial (lo hi : Nat) (t : CTy) (cons acc : List AC) (sz : Option (Nat × Nat)) (h : (CTy.seqOf lo hi t cons).TestOk acc sz)
    (x : AV) (hx : Tested t x) (n : Nat) (h0 : 0 < n) (hn : n = (sz.getD (lo, hi)).1 ∨ n = (sz.getD (lo, hi)).2) :
    ∃ l : List AV, l.length = n ∧ x ∈ l ∧ TestedUnder acc sz (.seqOf lo hi t cons) (.seqOf l) := by
  simp only [CTy.TestOk] at h
  obtain ⟨hc, h1, h2⟩ := h
  obtain ⟨f, hf, hr⟩ := hx
  have ih := (testCases_ok t [] none h2).plain
  obtain ⟨bu, hbu, p, hp, hp2, hpf⟩ := bundles_cover h0 hf
  obtain ⟨hb1, hb2⟩ := mem_bundles_sub hbu
  obtain ⟨l, g1, _, g3, g4⟩ := seqOfCase_runs (cons := cons) hc (bounds_tested hn) hb2 (fun f hf => ih f (hb1 f hf))
  have hl := g3 p hp f x (by rw [Nat.mod_eq_of_lt hp2]; exact hpf) hr
  refine ⟨l, g1, List.mem_of_getElem? hl, ?_⟩
  simp only [TestedUnder, testCases]
  refine ⟨_, List.mem_flatMap.2 ⟨n, mem_seqOfSizes.2 (bounds_tested hn), ?_⟩, g4⟩
  rw [if_pos h0]
  exact List.mem_map.2 ⟨bu, hbu, rfl⟩

/-- C105 (part): every tested value of the type of a component occurs in a tested value of the SEQUENCE, and if the component is OPTIONAL or
has a DEFAULT it is absent from another one.
Missing: components of type NULL (see the violations below), except those that WITH COMPONENTS marks PRESENT. -/
theorem C105_components_partial (fs : CFields) (cons : List AC) (h : fs.TestOk) (k : Nat) (o : COpt) (t : CTy) (hk : fs.get k = some (o, t))
    (x : AV) (hx : Tested t x) :
    (o ≠ .absent → t ≠ .null ∨ o = .present → ∃ l, Tested (.seq fs cons) (.seq l) ∧ l[k]? = some (some x)) ∧
    ((o = .optional ∨ ∃ d, o = .default d) → t ≠ .null → ∃ l, Tested (.seq fs cons) (.seq l) ∧ l[k]? = some none) := by
  obtain ⟨f, hf, hr⟩ := hx
  have hnull : t ≠ .null → t.isNull = false := by intro hn; cases t <;> first | rfl | exact absurd rfl hn
  refine ⟨fun ha hn => ?_, fun ho hn => ?_⟩
  · cases o with
    | absent => exact absurd rfl ha
    | mandatory =>
      refine field_covered h hk (g := fun p => do pure (p.1, ← f p.2)) ?_ (mandatory_runs hr) cons
      simp only [fieldCases, hnull (by simpa using hn), Bool.false_eq_true, if_false]
      exact List.mem_map.2 ⟨f, hf, rfl⟩
    | present =>
      refine field_covered h hk (g := fun p => do pure (true, ← f p.2)) ?_ (present_runs (by simp) hr) cons
      simp only [fieldCases]
      exact List.mem_map.2 ⟨f, hf, rfl⟩
    | optional =>
      refine field_covered h hk (g := fun p => do pure (true, ← f p.2)) ?_ (present_runs (by simp) hr) cons
      simp only [fieldCases, hnull (by simpa using hn), Bool.false_eq_true, if_false]
      exact List.mem_flatMap.2 ⟨f, hf, List.mem_cons_self ..⟩
    | default d =>
      refine field_covered h hk (g := fun p => do pure (true, ← f p.2)) ?_ (present_runs (by simp) hr) cons
      simp only [fieldCases, hnull (by simpa using hn), Bool.false_eq_true, if_false]
      exact List.mem_flatMap.2 ⟨f, hf, List.mem_cons_self ..⟩
  · rcases ho with rfl | ⟨d, rfl⟩
    · refine field_covered h hk (g := fun p => pure (false, p.2)) ?_ (absent_runs (by simp)) cons
      simp only [fieldCases, hnull hn, Bool.false_eq_true, if_false]
      exact List.mem_flatMap.2 ⟨f, hf, List.mem_cons_of_mem _ (List.mem_cons_self ..)⟩
    · refine field_covered h hk (g := fun p => pure (false, p.2)) ?_ (absent_runs (by simp)) cons
      simp only [fieldCases, hnull hn, Bool.false_eq_true, if_false]
      exact List.mem_flatMap.2 ⟨f, hf, List.mem_cons_of_mem _ (List.mem_cons_self ..)⟩

/-- C105: every tested value of the type of an alternative is tested as this alternative of the CHOICE. -/
theorem C105_alternatives (alts : CAlts) (cons : List AC) (k : Nat) (t : CTy) (hk : alts.get k = some t) (x : AV) (hx : Tested t x) :
    Tested (.choice alts cons) (.choice k x) := by
  obtain ⟨f, hf, hr⟩ := hx
  obtain ⟨g, h1, h2⟩ := alt_covered alts 0 k hk hf hr
  simp only [Tested, TestedUnder, testCases]
  refine ⟨g, h1, fun s => ?_⟩
  obtain ⟨u, h5, h6⟩ := h2 s
  refine ⟨_, by simp only [zeroMem]; exact h5, ?_⟩
  simp only [meaning]
  have : ((k : Int) + 1).toNat - 1 = k := by omega
  rw [Nat.zero_add, if_pos (by omega), this, h6]; rfl

/-- C105: a reference tests what the type tests under its constraints and its size. -/
theorem C105_references (t : CTy) (size : Option (Nat × Nat)) (cons acc : List AC) (sz : Option (Nat × Nat)) (a : AV) :
    TestedUnder acc sz (.ref t size cons) a ↔ TestedUnder (cons ++ acc) (sz <|> size) t a := by
  simp only [TestedUnder, testCases]
  constructor <;> rintro ⟨f, hf, hr⟩ <;> exact ⟨f, hf, fun s => by simpa only [zeroMem, meaning] using hr s⟩

/-! ## An example -/

theorem exObjTy_test : exObjTy.TestOk [] none := by
  simp only [exObjTy, CTy.TestOk, CFields.TestOk, CAlts.TestOk, List.append_nil, true_and, and_true]
  refine ⟨⟨?_, ?_⟩, ?_, ⟨?_, .inl ⟨?_, ?_⟩⟩, ⟨?_, ?_, ?_, ?_, ?_, ?_⟩, ?_, ⟨?_, ?_⟩, ?_, ⟨?_, ?_, ?_⟩, ?_, ?_, ?_⟩
  · simp [AC.Over, AC.IntLeaf]
  · simp [SatAll, AC.Sat, RLeaf.Sat, IntClass.Word]; omega
  · intro h; simp [testCases, testInts, seqDistinct, acCandidates, intLeafCandidates, allEval, acEval, intLeafEval] at h
  · unfold Counted; decide
  · simp [AC.Over, AC.SizeLeaf]
  · intro l hl; simp [TestSize] at hl; simp [SatAll, AC.Sat, AV.size, Con.Sat, RLeaf.Sat]; omega
  · unfold Counted; decide
  · intro l hl
    simp only [TestSize, Option.getD_none] at hl
    simp [SatAll, AC.Sat, AV.size, Con.Sat, RLeaf.Sat]; omega
  · decide
  · decide
  · refine .inl ⟨by decide, by decide, ?_⟩
    decide +kernel
  · intro l hl ha
    simp [TestSize] at hl
    simp [SatAll, AC.Sat, AV.size, Con.Sat, RLeaf.Sat, AlphaLeaf.Sat]
    refine ⟨by omega, fun c hc => ?_⟩
    have := ha c hc
    simp only [List.mem_map, List.mem_range'] at this
    obtain ⟨n, ⟨i, hi, rfl⟩, rfl⟩ := this
    simp; omega
  · intro h; simp [testCases, testSizes, bundles] at h
  · simp
  · simp
  · intro h; simp [testCases, altsCases, testBools, allEval] at h
  · unfold Counted; decide
  · simp [AC.Over, AC.SizeLeaf]
  · intro l hl; simp [TestSize] at hl; simp [SatAll, AC.Sat, AV.size, Con.Sat, RLeaf.Sat]; omega
  · intro h; simp [testCases, testSizes, bitsLeafValues, acValues] at h
  · simp [AC.Over, AC.IntLeaf]
  · simp [SatAll, AC.Sat, RLeaf.Sat, IntClass.Word]; omega

/-- The type has four test cases; the first one stores `{ a 0, b '00'H, c { "a", "abcde", "a" }, d x : TRUE, e '010'B, f 0 }`. -/
def exCaseVal : CVal := .seq [(false, .int 0), (true, .octets 1 [0#8, 0#8, 0#8, 0#8]),
  (false, .seqOf 3 [.str [97#8, 0#8, 0#8, 0#8, 0#8, 0#8], .str [97#8, 98#8, 99#8, 100#8, 101#8, 0#8], .str [97#8, 0#8, 0#8, 0#8, 0#8, 0#8]]),
  (false, .choice 1 (.bool true)), (false, .bits 0 [0x55#8]), (true, .int 0)]

/-- The hypotheses of `C105_valid_partial` and `C105_passes_partial` are met, and there are test cases. -/
example : exObjTy.TestOk [] none ∧ exObjTy.Fits ∧ Computed exObjTy ∧ Ok (uperTy exObjTy) ∧ PlainSizes (uperTy exObjTy) ∧ exObjTy.noReal = true ∧
    (testCases zeroMem exObjTy [] none).length = 4 ∧
    (testCases zeroMem exObjTy [] none).head?.map (fun f => f (zeroMem exObjTy) ⟨[], 0, 0, 0⟩) = some (.ok (exCaseVal, ⟨[], 0, 0, 0⟩)) :=
  ⟨exObjTy_test, exObjTy_fits, exObjTy_computed, exObjTy_ok, exObjTy_plain, rfl, by decide +kernel, by rfl⟩

/-- The value of the first case. -/
def exCaseAV : AV := .seq [some (.int 0), some (.octets [0#8]), some (.seqOf [.str [97#8], .str [97#8, 98#8, 99#8, 100#8, 101#8], .str [97#8]]),
  some (.choice 0 (.bool true)), some (.bits [false, true, false]), some (.int 0)]

/-- An object that the decoder has written. -/
def exCaseDec (junk : Byte) : CVal := .seq [(true, .int 0), (true, .octets 1 [0#8, junk, junk, junk]),
  (true, .seqOf 3 [.str [97#8, 0#8, junk, 0#8, 0#8, 0#8], .str [97#8, 98#8, 99#8, 100#8, 101#8, 0#8], .str [97#8, 0#8, junk, 0#8, 0#8, 0#8]]),
  (true, .choice 1 (.bool true)), (true, .bits junk.toNat [0x40#8]), (true, .int 0)]

/-- It is codable, an object that holds it after decoding is the given one, and the test function passes. -/
example : meaning exObjTy exCaseVal = some exCaseAV ∧ Codable exObjTy exCaseAV ∧ Stored exObjTy (toVal exObjTy exCaseAV) (exCaseDec 9#8) ∧
    encDec exObjTy exCaseVal (fun _ => exCaseDec 9#8) ⟨List.replicate (requiredBytes (uperTy exObjTy) + 1) 0#8, requiredBytes (uperTy exObjTy), 0, 0⟩ =
      .ok ((true, 0), ⟨[0xC0#8, 0x00#8, 0x60#8, 0x10#8, 0x01#8, 0x10#8, 0xC8#8, 0x00#8, 0xA0#8] ++ List.replicate 10 0#8, 18, 9, 4⟩) := by
  refine ⟨rfl, ?_, ?_, ?_⟩
  · have h1 : intRangeOf [.union (.range (.range 0 10 true true)) (.range (.range 20 30 true true))] = some (.concrete 0 30) := by decide +kernel
    have h2 : intRangeOf [.range (.range 0 255 true true)] = some (.concrete 0 255) := by decide +kernel
    simp [exObjTy, exCaseAV, Codable, CodableIn, CodableFields, CodableAlt, COpt.markedAbsent, h1, h2, Rng.holds64]
  · have hp : packBits [false, true, false] <+: [0x40#8] := by decide +kernel
    simp [exObjTy, exCaseAV, exCaseDec, toVal, toValFields, toValAlt, Stored, StoredIn, StoredFields, StoredAlt]
    refine ⟨?_, hp, rfl⟩
    intro i v x h1 h2
    rcases i with _ | _ | _ | i <;> simp at h1 h2 <;> subst h1 h2 <;> simp [StoredIn]
  · decide +kernel

/-- The hypotheses of the theorems on the values are met by `INTEGER (0..10 | 20..30)` and 10, a reference `(5..30)` to it and 5, `ENUMERATED
{ r(1), g(2) } (g)`, and by the components of the type above (`exObjTy_test`). -/
example : TestedUnder [] none (.int ⟨true, 0, 2 ^ 64 - 1⟩ [.union (.range (.range 0 10 true true)) (.range (.range 20 30 true true))]) (.int 10) ∧
    TestedUnder [] none (.ref (.int ⟨true, 0, 2 ^ 64 - 1⟩ [.union (.range (.range 0 10 true true)) (.range (.range 20 30 true true))]) none
      [.range (.range 5 30 true true)]) (.int 5) ∧
    TestedUnder [] none (.enum [1, 2] [.item 2]) (.enum 2) := by
  refine ⟨C105_bounds_partial _ _ _ _ ?_ ?_ 10 ?_ ?_ ?_, (C105_references ..).2 (C105_bounds_partial _ _ _ _ ?_ ?_ 5 ?_ ?_ ?_),
    C105_items_partial _ _ _ _ ?_ 2 (by simp) ?_⟩
  · simp [CTy.TestOk, AC.Over, AC.IntLeaf, SatAll, AC.Sat, RLeaf.Sat, IntClass.Word]; omega
  · simp [AC.Positive]
  · simp [IntClass.Word]
  · simp [SatAll, AC.Sat, RLeaf.Sat]
  · simp [SatAll, AC.Sat, RLeaf.Sat]
  · simp [CTy.TestOk, AC.Over, AC.IntLeaf, SatAll, AC.Sat, RLeaf.Sat, IntClass.Word]; omega
  · simp [AC.Positive]
  · simp [IntClass.Word]
  · simp [SatAll, AC.Sat, RLeaf.Sat]
  · simp [SatAll, AC.Sat, RLeaf.Sat]
  · simp [CTy.TestOk, AC.Over, AC.ItemLeaf]
  · simp [SatAll, AC.Sat]

/-! ## Where the claims fail -/

/-- A test case stores what is not a value of the type, although the type has values. -/
def TestViolates (t : CTy) : Prop := (∃ a, t.Sat a ∧ ∃ v, meaning t v = some a) ∧ ∃ a, Tested t a ∧ ¬ t.Sat a

/-- `OCTET STRING (SIZE(60000..70000))` is tested with 16385 octets: the sizes at which an encoding is cut into fragments are not compared with
the smallest size. -/
theorem C105_fragment_violation : TestViolates (.octets 60000 70000 [.size (.leaf (.range 60000 70000 true true))]) := by
  have hc : Counted 60000 70000 60000 70000 := by unfold Counted; decide
  have hn : 16385 ∈ testSizes 60000 70000 := by simp [testSizes, fragSizes]
  have hm : 60000 ∈ testSizes 60000 70000 := by simp [testSizes]
  obtain ⟨w, _, hw⟩ := octetsCase_runs (cons := [.size (.leaf (.range 60000 70000 true true))]) hc hm ⟨[], 0, 0, 0⟩
  refine ⟨⟨_, ?_, w, hw⟩, _, ⟨_, ?_, octetsCase_runs hc hn⟩, ?_⟩
  · simp [CTy.Sat, AC.Sat, AV.size, Con.Sat, RLeaf.Sat]
  · simp only [testCases, List.append_nil, List.flatMap_cons, List.flatMap_nil, acValues, octetsLeafValues, Option.getD_none]
    exact List.mem_map.2 ⟨16385, hn, rfl⟩
  · simp [CTy.Sat, AC.Sat, AV.size, Con.Sat, RLeaf.Sat]

/-- A reference that fixes the size, `T (SIZE(2))` with `T ::= OCTET STRING (SIZE(1..4))`: the count stays 0. -/
theorem C105_fixedReference_violation :
    TestViolates (.ref (.octets 1 4 [.size (.leaf (.range 1 4 true true))]) (some (2, 2)) [.size (.leaf (.single 2))]) :=
  ⟨⟨.octets [0#8, 0#8], by simp [CTy.Sat, AC.Sat, AV.size, Con.Sat, RLeaf.Sat], .octets 2 [0#8, 0#8, 0#8, 0#8], rfl⟩, .octets [],
    ⟨octetsCase true 2, by simp [testCases, acValues, octetsLeafValues, testSizes], fun s => ⟨.octets 0 [0#8, 1#8, 0#8, 0#8], rfl, rfl⟩⟩,
    by simp [CTy.Sat, AC.Sat, AV.size, Con.Sat, RLeaf.Sat]⟩

/-- `IA5String (SIZE(2)) (FROM ("a" | nul))` is tested with "a": the NUL ends the string. -/
theorem C105_nul_violation : TestViolates (.str 2 2 [97#8, 0#8] [.size (.leaf (.single 2)), .alphabet (.leaf (.chars [97, 0]))]) :=
  ⟨⟨.str [97#8, 97#8], by simp [CTy.Sat, AC.Sat, AV.size, Con.Sat, RLeaf.Sat, AlphaLeaf.Sat], .str [97#8, 97#8, 0#8], rfl⟩, .str [97#8],
    ⟨strCase [97#8, 0#8] 2 2, by simp [testCases, testSizes], fun s => ⟨.str [97#8, 0#8, 0#8], rfl, rfl⟩⟩,
    by simp [CTy.Sat, AC.Sat, AV.size, Con.Sat, RLeaf.Sat]⟩

/-- `IA5String ("ba")` is tested with "ab": single values are not considered. -/
theorem C105_strValue_violation : TestViolates (.str 2 2 [97#8, 98#8] [.strVal [98#8, 97#8]]) :=
  ⟨⟨.str [98#8, 97#8], by simp [CTy.Sat, AC.Sat], .str [98#8, 97#8, 0#8], rfl⟩, .str [97#8, 98#8],
    ⟨strCase [97#8, 98#8] 2 2, by simp [testCases, testSizes], fun s => ⟨.str [97#8, 98#8, 0#8], rfl, rfl⟩⟩, by simp [CTy.Sat, AC.Sat]⟩

/-- `OCTET STRING (SIZE(1)) (ALL EXCEPT 'FF'H)` is tested with `'FF'H`, and with nothing else. -/
theorem C105_octetsExcept_violation : TestViolates (.octets 1 1 [.size (.leaf (.single 1)), .allExcept (.octetsVal [0xFF#8])]) ∧
    (testCases zeroMem (.octets 1 1 [.size (.leaf (.single 1)), .allExcept (.octetsVal [0xFF#8])]) [] none).length = 1 :=
  ⟨⟨⟨.octets [0#8], by simp [CTy.Sat, AC.Sat, AV.size, Con.Sat, RLeaf.Sat], .octets 0 [0#8], rfl⟩, .octets [0xFF#8],
    ⟨octetsLit 1 1 1 [0xFF#8], by simp [testCases, acValues, octetsLeafValues], fun s => ⟨.octets 0 [0xFF#8], rfl, rfl⟩⟩,
    by simp [CTy.Sat, AC.Sat]⟩, by simp [testCases, acValues, octetsLeafValues]⟩

/-- `BIT STRING ('101'B | '0'B)` is tested with `'1'B`: the bits of a value, the length of the shortest. -/
theorem C105_bitsValue_violation : TestViolates (.bits 1 3 [.union (.bitsVal [true, false, true]) (.bitsVal [false])]) :=
  ⟨⟨.bits [false], by simp [CTy.Sat, AC.Sat], .bits 1 [0#8], rfl⟩, .bits [true],
    ⟨bitsLit 3 1 3 [true, false, true], by simp [testCases, acValues, bitsLeafValues], fun s => ⟨.bits 1 [0xA0#8], rfl, rfl⟩⟩,
    by simp [CTy.Sat, AC.Sat]⟩

/-- `SEQUENCE { a INTEGER (ALL EXCEPT 0), b BOOLEAN }` is tested with `a 0`: the type of `a` has no test case, so nothing is stored in `a`. -/
theorem C105_noCase_violation : TestViolates (.seq (.cons .mandatory (.int ⟨false, -(2 ^ 63), 2 ^ 63 - 1⟩ [.allExcept (.range (.single 0))])
    (.cons .mandatory (.bool []) .nil)) []) :=
  ⟨⟨.seq [some (.int 1), some (.bool true)], by simp [CTy.Sat, CFields.Sat, AC.Sat, RLeaf.Sat], .seq [(true, .int 1), (true, .bool true)],
      by simp [meaning, meaningFields]⟩,
    .seq [some (.int 0), some (.bool true)], by
      simp only [Tested, TestedUnder, testCases]
      exact ⟨_, List.mem_map.2 ⟨0, by decide +kernel, rfl⟩, fun s => ⟨.seq [(false, .int 0), (false, .bool true)], rfl, by simp [meaning, meaningFields]⟩⟩,
    by simp [CTy.Sat, CFields.Sat, AC.Sat, RLeaf.Sat]⟩

/-- `SEQUENCE { a NULL, b NULL OPTIONAL }` has two values and no test case. -/
theorem C105_null_violation :
    let t : CTy := .seq (.cons .mandatory .null (.cons .optional .null .nil)) []
    t.TestOk [] none ∧ (∀ e : Bool, ∃ a, t.Sat a ∧ meaning t (.seq [(true, .null), (e, .null)]) = some a) ∧ testCases zeroMem t [] none = [] := by
  refine ⟨?_, ?_, rfl⟩
  · simp [CTy.TestOk, CFields.TestOk, testCases]
  · intro e
    cases e
    · exact ⟨.seq [some .null, none], by simp [CTy.Sat, CFields.Sat], rfl⟩
    · exact ⟨.seq [some .null, some .null], by simp [CTy.Sat, CFields.Sat], rfl⟩

/-- The smallest value of `INTEGER (0..5 EXCEPT 0)` is 1; only 5 is tested. -/
theorem C105_except_violation :
    let t : CTy := .int ⟨true, 0, 255⟩ [.except (.range (.range 0 5 true true)) (.range (.single 0))]
    t.TestOk [] none ∧ t.Sat (.int 1) ∧ ¬ t.Sat (.int 0) ∧ ∀ a, Tested t a → a = .int 5 := by
  refine ⟨?_, ?_, ?_, ?_⟩
  · simp [CTy.TestOk, AC.Over, AC.IntLeaf, SatAll, AC.Sat, RLeaf.Sat, IntClass.Word]; omega
  · simp [CTy.Sat, AC.Sat, RLeaf.Sat]
  · simp [CTy.Sat, AC.Sat, RLeaf.Sat]
  · rintro a ⟨f, hf, hr⟩
    have hl : testInts ⟨true, 0, 255⟩ ([.except (.range (.range 0 5 true true)) (.range (.single 0))] ++ []) = [5] := by decide +kernel
    simp only [testCases, hl, List.map_cons, List.map_nil, List.mem_singleton] at hf
    subst hf
    obtain ⟨w, h1, h2⟩ := hr ⟨[], 0, 0, 0⟩
    have : w = .int 5 := by
      have h3 := h1.symm
      simp only [zeroMem] at h3
      cases h3
      rfl
    subst this
    simp [meaning] at h2
    exact h2.symm

end Asn1
