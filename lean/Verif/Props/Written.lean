import Verif.Proof.Written
/-!
# C99: MIN..MAX and type inclusion in constraints
-/
namespace Asn1

/-- C99 (part): the constraints that are left when MIN..MAX and included types are gone admit exactly the values that the constraint
in the file admits, in constraints of any nesting.
Missing: included types without constraints in a union, in what is excluded, and inside WITH COMPONENTS (`SC.Regular`; the
violations below). -/
theorem C99_kept_partial (s : SC) (cs : List XC) (h : keptCons s = some cs) (hr : s.Regular) (t : NTy) (hd : t.Distinct) (a : AV) (hs : s.Suits t a) :
    (∀ c ∈ cs, c.Sat t a) ↔ s.Sat t a := by
  obtain ⟨o, ho, rfl⟩ := keptCons_some h
  exact kept_sat s o ho hr t a hd hs

/-- C99 (part): the same for the constraints that checks, sizes and codecs are generated from. -/
theorem C99_translated_partial (s : SC) (cs : List XC) (h : keptCons s = some cs) (hr : s.Regular) (t : NTy) (hd : t.Distinct)
    (hv : ∀ c ∈ cs, c.Valued t) (acs : List AC) (hm : cs.mapM (mapCon t) = some acs) (a : AV) (hs : s.Suits t a) :
    (∀ c ∈ acs, c.Sat a) ↔ s.Sat t a := by
  rw [← C99_kept_partial s cs h hr t hd a hs]
  clear h
  induction cs generalizing acs with
  | nil => simp at hm; subst hm; simp
  | cons c cs ih =>
    rw [List.mapM_cons] at hm
    simp only [Option.bind_eq_bind, Option.bind_eq_some_iff, Option.pure_def, Option.some.injEq] at hm
    obtain ⟨x, hx, xs, hxs, rfl⟩ := hm
    have h1 := mapCon_sat c t x a hx hd (hv c (by simp))
    have h2 := ih (fun c hc => hv c (by simp [hc])) xs hxs
    simp only [List.mem_cons, forall_eq_or_imp, h1, h2]

/-- C99 (part): a constraint disappears only if it admits all values that it can be applied to. -/
theorem C99_dropped_partial (s : SC) (h : keptCons s = some []) (hr : s.Regular) (t : NTy) (hd : t.Distinct) (a : AV) (hs : s.Suits t a) :
    s.Sat t a := (C99_kept_partial s [] h hr t hd a hs).1 (by simp)

/-- C99 (part): without MIN..MAX and type inclusion nothing is dropped: a constraint is left of every constraint. -/
theorem C99_something_partial (s : SC) (cs : List XC) (h : keptCons s = some cs) (hs : s.Solid) (ho : s.Open = false) : cs ≠ [] := by
  obtain ⟨o, hp, rfl⟩ := keptCons_some h
  cases o with
  | none => rw [(parse_open s none hp).2 rfl] at ho; cases ho
  | some k => exact solid_ne s k hp hs

/-! ## A constraint that meets the hypotheses -/

/-- With `T ::= INTEGER (0..20) (MIN..15 | 18)`: `(T EXCEPT 7 | MIN..MAX ^ 100<..MAX, ..., ALL EXCEPT (MIN..1000))`. -/
def exWritten : SC :=
  .root2 (.union (.except (.includes (.cons (.range (.int 0) (.int 20) true true) (.cons (.union (.minVal (.int 15) true) (.single (.int 18))) .nil))) (.single (.int 7)))
      (.inter .minMax (.valMax (.int 100) false)))
    (.allExcept (.minVal (.int 1000) true))

example : keptCons exWritten = some [.root2 (.union (.except (.inter (.range (.int 0) (.int 20) true true) (.union (.minVal (.int 15) true) (.single (.int 18)))) (.single (.int 7)))
      (.valMax (.int 100) false)) (.allExcept (.minVal (.int 1000) true))] ∧ exWritten.Regular ∧ (NTy.int []).Distinct ∧
    exWritten.Suits (.int []) (.int 18) := by
  refine ⟨rfl, ?_, ?_, ?_⟩ <;>
  simp [exWritten, SC.Regular, SC.Solid, SCs.Solid, SCs.SomeClosed, SC.Open, NTy.Distinct, SC.Suits, SCs.Suits]

/-- With `T ::= INTEGER (0..9)`: `SEQUENCE { a INTEGER OPTIONAL, l SEQUENCE OF IA5String } (WITH COMPONENTS { a (T) PRESENT,
l (SIZE (1..MAX ^ MIN..MAX) ^ WITH COMPONENT (FROM ("a".."z") ^ SIZE (2))) })`. -/
def exWrittenTy : NTy := .seq (.cons "a" .optional (.int []) (.cons "l" .mandatory (.seqOf (.str []) []) .nil)) []

def exWritten2 : SC := .components (.cons "a" .present (.includes (.cons (.range (.int 0) (.int 9) true true) .nil))
  (.cons "l" .noMark (.inter (.size (.inter (.valMax (.int 1) true) .minMax))
    (.component (.inter (.alphabet (.range (.str [97#8]) (.str [122#8]) true true)) (.size (.single (.int 2)))))) .nil))

example : (∃ cs, keptCons exWritten2 = some cs ∧ cs ≠ []) ∧ exWritten2.Regular ∧ exWrittenTy.Distinct ∧
    exWritten2.Suits exWrittenTy (.seq [some (.int 3), some (.seqOf [.str [97#8, 98#8]])]) := by
  refine ⟨⟨_, rfl, by simp [fixCon]⟩, ?_, ?_, ?_⟩
  · simp [exWritten2, SC.Regular, SNs.Solid, SC.Solid, SCs.Solid, SCs.SomeClosed, SC.Open]
  · simp [exWrittenTy, NTy.Distinct, NFields.Distinct, NFields.toList]
  · refine ⟨⟨0, .int [], ⟨.optional, rfl⟩, fun x hx => by simp [SC.Suits, SCs.Suits]⟩, ⟨1, .seqOf (.str []) [], ⟨.mandatory, rfl⟩, fun x hx => ?_⟩, trivial⟩
    obtain rfl : AV.seqOf [.str [97#8, 98#8]] = x := by simpa [AV.part] using hx
    exact ⟨⟨1, rfl, trivial, trivial⟩, .str [], _, rfl, rfl, fun y hy => by
      simp only [List.mem_singleton] at hy
      subst hy
      exact ⟨⟨⟨_, rfl⟩, trivial⟩, 2, rfl, trivial⟩⟩

/-! ## Where the full claim fails -/

/-- With `T ::= INTEGER`, of `INTEGER (1..5 | T)` only `1..5` is left, although every integer is admitted. -/
theorem C99_union_violation : ∃ (s : SC) (cs : List XC) (t : NTy) (a : AV), keptCons s = some cs ∧ t.Distinct ∧ s.Suits t a ∧
    s.Sat t a ∧ ¬ ∀ c ∈ cs, c.Sat t a := by
  refine ⟨.union (.range (.int 1) (.int 5) true true) (.includes .nil), _, .int [], .int 7, rfl, by simp [NTy.Distinct],
    ⟨trivial, trivial⟩, .inr trivial, fun h => ?_⟩
  obtain ⟨_, b, ⟨x, hx, rfl⟩, hb⟩ := h (.range (.int 1) (.int 5) true true) List.mem_cons_self
  cases hx
  simp [AV.UpTo] at hb

/-- With `T ::= INTEGER`, of `(WITH COMPONENTS { a (T) PRESENT })` nothing is left: a value without `a` is admitted. -/
theorem C99_mark_violation : ∃ (s : SC) (cs : List XC) (t : NTy) (a : AV), keptCons s = some cs ∧ t.Distinct ∧ s.Suits t a ∧
    ¬ s.Sat t a ∧ ∀ c ∈ cs, c.Sat t a := by
  have hp : NTy.IsPart (.seq (.cons "a" .optional (.int []) .nil) []) "a" 0 (.int []) := ⟨.optional, rfl⟩
  have hd : NTy.Distinct (.seq (.cons "a" .optional (.int []) .nil) []) := by simp [NTy.Distinct, NFields.Distinct, NFields.toList]
  refine ⟨.components (.cons "a" .present (.includes .nil) .nil), _, .seq (.cons "a" .optional (.int []) .nil) [], .seq [none], rfl,
    hd, ⟨⟨0, _, hp, fun x hx => by cases hx⟩, trivial⟩, ?_, ?_⟩
  · rintro ⟨⟨i, u, h1, h2, _⟩, _⟩
    obtain ⟨rfl, _⟩ := NTy.isPart_unique hd h1 hp
    simp [AV.part, Mark.Sat] at h2
  · simp [fixCon, fixNamed, fixCons, namedAll, XC.Sat, XCs.Sat]

/-- With `T ::= INTEGER`, of `INTEGER (1..5 EXCEPT T)` the exception is dropped. -/
theorem C99_except_violation : ∃ (s : SC) (cs : List XC) (t : NTy) (a : AV), keptCons s = some cs ∧ t.Distinct ∧ s.Suits t a ∧
    ¬ s.Sat t a ∧ ∀ c ∈ cs, c.Sat t a := by
  refine ⟨.except (.range (.int 1) (.int 5) true true) (.includes .nil), _, .int [], .int 3, rfl, by simp [NTy.Distinct],
    ⟨trivial, trivial⟩, fun h => h.2 trivial, fun c hc => ?_⟩
  obtain rfl : c = .range (.int 1) (.int 5) true true := by simpa [fixCon, fixCons] using hc
  exact ⟨⟨.int 1, ⟨1, .written (by simp [VN.IsName]), rfl⟩, by simp [AV.UpTo]⟩, ⟨.int 5, ⟨5, .written (by simp [VN.IsName]), rfl⟩, by simp [AV.UpTo]⟩⟩

/-- Of `INTEGER (1..5, ..., MIN..MAX)` only `1..5` is left. -/
theorem C99_extension_violation : ∃ (s : SC) (cs : List XC) (t : NTy) (a : AV), keptCons s = some cs ∧ t.Distinct ∧ s.Suits t a ∧
    s.Sat t a ∧ ¬ ∀ c ∈ cs, c.Sat t a := by
  refine ⟨.root2 (.range (.int 1) (.int 5) true true) .minMax, _, .int [], .int 7, rfl, by simp [NTy.Distinct],
    ⟨trivial, trivial⟩, .inr trivial, fun h => ?_⟩
  obtain ⟨_, b, ⟨x, hx, rfl⟩, hb⟩ := h (.root (.range (.int 1) (.int 5) true true)) List.mem_cons_self
  cases hx
  simp [AV.UpTo] at hb

end Asn1
