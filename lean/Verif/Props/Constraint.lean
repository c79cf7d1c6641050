import Verif.Proof.Constraint
import Verif.Props.Gen
/-!
# Properties of what the compiler computes from constraints: C33, C49, C50
-/
namespace Asn1

/-- `INTEGER ((0..10 | 20..MAX) EXCEPT 5) (-3..100)`. -/
def exCons : List (Con RLeaf) :=
  [.except (.union (.leaf (.range 0 10 true true)) (.leaf (.valMax 20 true))) (.leaf (.single 5)),
   .leaf (.range (-3) 100 true true)]

/-! ## C33 -/

/-- C33 for INTEGER: every value that satisfies all constraints of the type is in the computed range. Missing: types
where a range `MIN..v` is intersected with something, for which it is false (`C33_violation`). -/
theorem C33_integer_partial (cons : List (Con RLeaf)) (r : Rng) (v : Int)
    (hm : SerialNoMin (fun _ => True) RLeaf.NotMin cons) (hr : intRange cons = some r) (hs : IntSat cons v) :
    r.contains v :=
  intRange_contains cons r v hm hr hs

example : SerialNoMin (fun _ => True) RLeaf.NotMin exCons ∧ (∃ r, intRange exCons = some r) ∧ IntSat exCons 42 := by
  refine ⟨.inr ?_, ⟨_, rfl⟩, ?_⟩
  · intro c hc
    simp only [exCons, List.mem_cons, List.not_mem_nil, or_false] at hc
    rcases hc with rfl | rfl <;> simp [Con.Leaves, RLeaf.NotMin]
  · intro c hc
    simp only [exCons, List.mem_cons, List.not_mem_nil, or_false] at hc
    rcases hc with rfl | rfl <;> simp [Con.Sat, RLeaf.Sat]

/-- C33 for the SIZE of OCTET STRING, BIT STRING and SEQUENCE OF: the number of octets, bits or elements of every
value that satisfies all constraints is in the computed range. Missing: as above. -/
theorem C33_size_partial {V : Type} (len : V → Nat) (cons : List (Con (SizeLeaf V))) (r : Rng) (v : V)
    (hu : ∀ c ∈ cons, c.Leaves SizeLeaf.U32) (hm : SerialNoMin SizeLeaf.NoMinInter SizeLeaf.NotMin cons)
    (hr : sizeRange len cons = some r) (hs : SizeSat len cons v) : r.contains (len v : Int) :=
  sizeRange_contains len cons r v hu hm hr hs

/-- `OCTET STRING (SIZE(1<..5) | '0102'H)`, the value `'010203'H`. -/
example : let cons : List (Con (SizeLeaf (List Nat))) :=
      [.union (.leaf (.size (.leaf (.range 1 5 false true)))) (.leaf (.single [1, 2]))]
    (∀ c ∈ cons, c.Leaves SizeLeaf.U32) ∧ SerialNoMin SizeLeaf.NoMinInter SizeLeaf.NotMin cons ∧
    (∃ r, sizeRange List.length cons = some r) ∧ SizeSat List.length cons [1, 2, 3] := by
  refine ⟨?_, .inl ⟨_, rfl, ?_⟩, ⟨_, rfl⟩, ?_⟩
  · intro c hc
    simp only [List.mem_cons, List.not_mem_nil, or_false] at hc
    subst hc
    simp [Con.Leaves, SizeLeaf.U32, RLeaf.U32]
  · simp [Con.NoMinInter, SizeLeaf.NoMinInter]
  · intro c hc
    simp only [List.mem_cons, List.not_mem_nil, or_false] at hc
    subst hc
    simp [Con.Sat, SizeLeaf.Sat, RLeaf.Sat]

/-- C33 for the SIZE of strings. Missing: as above. -/
theorem C33_string_size_partial (cons : List (Con StrLeaf)) (r : Rng) (s : List Nat)
    (hu : ∀ c ∈ cons, c.Leaves StrLeaf.U32) (hm : SerialNoMin StrLeaf.NoMinInter StrLeaf.NotMin cons)
    (hr : strSizeRange cons = some r) (hs : StrSat cons s) : r.contains (s.length : Int) :=
  strSizeRange_contains cons r s hu hm hr hs

/-- `IA5String (SIZE(0..20)) (FROM("A".."Z"))`, the value "ABC". -/
def exStrCons : List (Con StrLeaf) :=
  [.leaf (.size (.leaf (.range 0 20 true true))), .leaf (.alphabet (.leaf (.range 65 90 true true)))]

theorem exStrCons_sat : StrSat exStrCons [65, 66, 67] := by
  intro c hc
  simp only [exStrCons, List.mem_cons, List.not_mem_nil, or_false] at hc
  rcases hc with rfl | rfl
  · simp [Con.Sat, StrLeaf.Sat, RLeaf.Sat]
  · intro ch hch
    simp only [List.mem_cons, List.not_mem_nil, or_false] at hch
    rcases hch with rfl | rfl | rfl <;> simp [Con.Sat, AlphaLeaf.Sat]

example : (∀ c ∈ exStrCons, c.Leaves StrLeaf.U32) ∧ SerialNoMin StrLeaf.NoMinInter StrLeaf.NotMin exStrCons ∧
    (∃ r, strSizeRange exStrCons = some r) ∧ StrSat exStrCons [65, 66, 67] := by
  refine ⟨?_, .inr ?_, ⟨_, rfl⟩, exStrCons_sat⟩
  · intro c hc
    simp only [exStrCons, List.mem_cons, List.not_mem_nil, or_false] at hc
    rcases hc with rfl | rfl <;> simp [Con.Leaves, StrLeaf.U32, RLeaf.U32]
  · intro c hc
    simp only [exStrCons, List.mem_cons, List.not_mem_nil, or_false] at hc
    rcases hc with rfl | rfl <;> simp [Con.Leaves, StrLeaf.NotMin, RLeaf.NotMin]

/-- The code violates C33: for `INTEGER (0..10) (MIN..5)` it computes the range 5..10. The value 3 satisfies both
constraints and the generated test accepts it, but the encoder stops in an assertion. -/
theorem C33_violation :
    ∃ cons : List (Con RLeaf), cons = [.leaf (.range 0 10 true true), .leaf (.minVal 5 true)] ∧
      intRange cons = some (.concrete 5 10) ∧ IntSat cons 3 ∧ ¬ (Rng.concrete 5 10).contains 3 ∧
      isConstraintValidInt (intClassOf false (.concrete 5 10)) cons 3 = true ∧
      ∃ s0, bitStreamInit (List.replicate 16 0#8) 16 = .ok s0 ∧
        encTy (.int 64 (.concrete 5 10)) (.int 3) s0 = .abort := by
  refine ⟨_, rfl, rfl, ?_, by simp [Rng.contains], by decide, _, rfl, ?_⟩
  · intro c hc
    simp only [List.mem_cons, List.not_mem_nil, or_false] at hc
    rcases hc with rfl | rfl <;> simp [Con.Sat, RLeaf.Sat]
  · simp only [encTy]
    unfold encInt
    decide

/-! ## C49 -/

/-- C49: the generated test of an INTEGER accepts exactly the values that satisfy the constraints, for all constraint
expressions and all values that the C type holds. Missing: unsigned types whose constraints mention a negative upper end
or a negative single value, for which it is false (`C49_violation`). -/
theorem C49_valid_iff_partial (slim : Bool) (cons : List (Con RLeaf)) (r : Rng) (v : Int)
    (_hr : intRange cons = some r)
    (hl : ∀ c ∈ cons, c.Leaves (RLeaf.LitsFit (intClassOf slim r)))
    (h1 : (intClassOf slim r).min ≤ v) (h2 : v ≤ (intClassOf slim r).max) :
    isConstraintValidInt (intClassOf slim r) cons v = true ↔ IntSat cons v := by
  unfold isConstraintValidInt IntSat
  rw [List.all_eq_true]
  constructor
  · intro h c hc
    exact (con_eval _ (intClassOf_bounds slim r) v h1 h2 c (hl c hc)).1 (h c hc)
  · intro h c hc
    exact (con_eval _ (intClassOf_bounds slim r) v h1 h2 c (hl c hc)).2 (h c hc)

example : intRange exCons = some (.concrete 0 100) ∧
    (∀ c ∈ exCons, c.Leaves (RLeaf.LitsFit (intClassOf true (.concrete 0 100)))) ∧
    (intClassOf true (.concrete 0 100)).min ≤ 42 ∧ 42 ≤ (intClassOf true (.concrete 0 100)).max := by
  refine ⟨rfl, ?_, by decide, by decide⟩
  intro c hc
  simp only [exCons, List.mem_cons, List.not_mem_nil, or_false] at hc
  rcases hc with rfl | rfl <;> simp [Con.Leaves, RLeaf.LitsFit]

/-- The C type of an INTEGER holds every value of the computed range that 64 bits can hold: unsigned when the range
begins at zero or above, signed otherwise. -/
theorem C49_type_holds (slim : Bool) (r : Rng) (v : Int) (hv : r.contains v)
    (h64 : if 0 ≤ v ∧ r.unsigned = true then v < 2 ^ 64 else -(2 ^ 63) ≤ v ∧ v < 2 ^ 63) :
    (intClassOf slim r).min ≤ v ∧ v ≤ (intClassOf slim r).max :=
  intClassOf_holds slim r v hv h64

example : (Rng.concrete (-5) 300).contains 299 ∧
    (if (0 : Int) ≤ 299 ∧ (Rng.concrete (-5) 300).unsigned = true then (299 : Int) < 2 ^ 64
      else -(2 ^ 63) ≤ (299 : Int) ∧ (299 : Int) < 2 ^ 63) := by
  simp [Rng.contains, Rng.unsigned]

/-- The code violates C49: `INTEGER (-10..-3 | 0..5) (0..20)` has the range 0..5 and an unsigned C type, the upper end
is printed as `-3UL`, and the test accepts 17. -/
theorem C49_violation :
    ∃ cons : List (Con RLeaf),
      cons = [.union (.leaf (.range (-10) (-3) true true)) (.leaf (.range 0 5 true true)),
        .leaf (.range 0 20 true true)] ∧
      intRange cons = some (.concrete 0 5) ∧ ¬ IntSat cons 17 ∧
      isConstraintValidInt (intClassOf false (.concrete 0 5)) cons 17 = true := by
  refine ⟨_, rfl, rfl, ?_, by decide⟩
  intro h
  have := h _ List.mem_cons_self
  simp [Con.Sat, RLeaf.Sat] at this

/-! ## C50 -/

/-- C50: all characters of a string that satisfies all constraints are in the computed alphabet, whatever the base
alphabet (increasing, as both constants are). -/
theorem C50_alphabet (dflt : List Nat) (hp : dflt.Pairwise (· < ·)) (cons : List (Con StrLeaf)) (a s : List Nat)
    (ha : strAlphabet dflt cons = some a) (hd : ∀ ch ∈ s, ch ∈ dflt) (hs : StrSat cons s) : ∀ ch ∈ s, ch ∈ a :=
  serialAlphabet_mem hp cons dflt a s hd hd ha hs

/-- C50: the computed alphabet is increasing, so the number of a character is its rank, as X.691 30.5.4 demands. -/
theorem C50_increasing (dflt : List Nat) (hp : dflt.Pairwise (· < ·)) (cons : List (Con StrLeaf)) (a : List Nat)
    (ha : strAlphabet dflt cons = some a) : a.Pairwise (· < ·) :=
  hp.sublist (serialAlphabet_sublist cons dflt a ha)

/-- C50: every character of the computed alphabet is one of the base alphabet. -/
theorem C50_within (dflt : List Nat) (cons : List (Con StrLeaf)) (a : List Nat)
    (ha : strAlphabet dflt cons = some a) : ∀ ch ∈ a, ch ∈ dflt :=
  fun _ hch => (serialAlphabet_sublist cons dflt a ha).subset hch

theorem ia5Chars_increasing : ia5Chars.Pairwise (· < ·) := List.pairwise_lt_range
theorem numericChars_increasing : numericChars.Pairwise (· < ·) := by decide

example : strAlphabet ia5Chars exStrCons = some ((List.range 128).filter (fun c => decide (65 ≤ c ∧ c ≤ 90))) ∧
    StrSat exStrCons [65, 66, 67] := ⟨by decide +kernel, exStrCons_sat⟩

end Asn1
