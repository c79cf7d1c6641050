import Verif.Proof.AcnExprParse
import Verif.Proof.AcnExprEval
/-!
# Theorems: presence expressions of ACN
-/
namespace Asn1

/-- The C path of a reference in the generated code. -/
def accessIn (seq : SFields) (p : List String) : List String := (fieldAccess p seq).getD []

/-! ## C88: the generated condition reads as it was written -/

/-- C88, full statement: whatever expression the compiler accepts, the text of the generated condition is an expression of C, it
can be read in one way only, and this is the expression of the ACN file; and every path that leads to an INTEGER that is
always there is accepted as a reference. -/
def C88_full : Prop :=
  (∀ seq e t, expType seq e = some t → CParses 7 (printExp (accessIn seq) e).2 e ∧
    ∀ e', CParses 7 (printExp (accessIn seq) e).2 e' → e' = e) ∧
  (∀ seq p u w, LeadsAlways seq p (.int u w) → fieldType p seq = some .int)

/-- C88: the text of the generated condition is an expression of C and can only be read as the expression of the ACN file, with
the C paths of its references. Missing: ACN constants (see `C88_constant_violation`). -/
theorem C88_text_partial (acc : List String → List String) (e : AcnExp) (h : e.NoConst) :
    CParses 7 (printExp acc e).2 (e.withPaths acc) ∧ ∀ l e', CParses l (printExp acc e).2 e' → e' = e.withPaths acc :=
  ⟨(printExp_parses acc e h).mono (outerLevel_le e), fun _ _ h' => h'.unique (printExp_parses acc e h)⟩

/-- C88: an expression that the compiler accepts and whose references name components is printed as itself. -/
theorem C88_accepted_partial (seq : SFields) (e : AcnExp) (t : ExpType) (h : expType seq e = some t) (hc : e.NoConst)
    (hl : ∀ p, e.MentionsPath p → ∃ ty, Leads seq p ty) :
    CParses 7 (printExp (accessIn seq) e).2 e ∧ ∀ l e', CParses l (printExp (accessIn seq) e).2 e' → e' = e := by
  have hs : e.withPaths (accessIn seq) = e := by
    refine withPaths_self fun p hp => ?_
    obtain ⟨t', ht'⟩ := expType_paths h p hp
    obtain ⟨ty, hty⟩ := hl p hp
    unfold accessIn
    rw [fieldAccess_self ht' hty]
    rfl
  have := C88_text_partial (accessIn seq) e hc
  rwa [hs] at this

/-- C88: whatever reference is accepted, the generated code has a component for it, of the type that the check has found. It is the
component at the longest beginning of the path that there is; see `C88_longer_violation`. -/
theorem C88_reference (seq : SFields) (p : List String) (t : ExpType) (h : fieldType p seq = some t) :
    ∃ ty, accessIn seq p <+: p ∧ Leads seq (accessIn seq p) ty ∧
      (match ty with
        | .int _ _ => t = .int
        | .real => t = .real
        | .bool => t = .bool
        | _ => False) := by
  obtain ⟨q, ty, hq, hpre, hl, ht⟩ := fieldAccess_of_fieldType h
  have : accessIn seq p = q := by unfold accessIn; rw [hq]; rfl
  rw [this]
  exact ⟨ty, hpre, hl, ht⟩

/-- `{ a INTEGER (0..MAX), n INTEGER, h { v { m INTEGER, f BOOLEAN }, k INTEGER }, b BOOLEAN, o INTEGER OPTIONAL }` -/
def exFields : SFields :=
  .cons "a" false false (.int true 64) <| .cons "n" false false (.int false 64) <| .cons "h" false false (.seq <|
    .cons "v" false false (.seq <| .cons "m" false false (.int false 64) <| .cons "f" false false .bool .nil) <|
    .cons "k" false false (.int false 64) .nil) <|
  .cons "b" false false .bool <| .cons "o" false true (.int false 64) .nil

/-- `(a - (n - 1) > 3 || b) && !(a == -(-1)) || false` -/
def exCond : AcnExp :=
  .bin .or (.bin .and (.bin .or (.bin .gt (.bin .sub (.field ["a"]) (.bin .sub (.field ["n"]) (.int 1))) (.int 3)) (.field ["b"]))
    (.not (.bin .eq (.field ["a"]) (.neg (.neg (.int 1)))))) (.bool false)

example : expType exFields exCond = some .bool := by decide
example : exCond.NoConst := by simp [exCond, AcnExp.NoConst]
example : ∀ p, exCond.MentionsPath p → ∃ ty, Leads exFields p ty := by
  intro p hp
  have hp' : p = ["a"] ∨ p = ["n"] ∨ p = ["b"] := by
    simp only [exCond, AcnExp.MentionsPath] at hp
    grind
  rcases hp' with rfl | rfl | rfl
  · exact ⟨_, .here rfl⟩
  · exact ⟨_, .here rfl⟩
  · exact ⟨_, .here rfl⟩
example : (printExp (accessIn exFields) exCond).2 =
    [.lparen, .lparen, .path ["a"], .op .sub, .lparen, .path ["n"], .op .sub, .int 1, .rparen, .op .gt, .int 3, .op .or, .path ["b"],
      .rparen, .op .and, .bang, .lparen, .path ["a"], .op .eq, .op .sub, .lparen, .op .sub, .int 1, .rparen, .rparen, .rparen, .op .or,
      .bool false] := by decide
example : fieldType ["b"] exFields = some .bool := by decide

/-- C88 violation: an ACN constant is accepted and printed as nothing; the condition `a == c` is no expression of C. -/
theorem C88_constant_violation :
    expType exFields (.bin .eq (.field ["a"]) (.const "c")) = some .bool ∧
    (printExp (accessIn exFields) (.bin .eq (.field ["a"]) (.const "c"))).2 = [.path ["a"], .op .eq] ∧
    ∀ l e, ¬ CParses l [.path ["a"], .op .eq] e := by
  refine ⟨by decide, by decide, fun l e h => ?_⟩
  have noRight : ∀ l ts e, CParses l ts e → ∀ o, ts.getLast? ≠ some (.op o) := by
    intro l ts e h
    induction h with
    | paren _ _ => intro o; rw [← List.cons_append, List.getLast?_append]; simp
    | up _ ih => exact ih
    | @not ts e h ih =>
      intro o
      rw [List.getLast?_cons]
      have := h.ne_nil
      cases hh : ts.getLast? with
      | none => exact absurd (List.getLast?_eq_none_iff.1 hh) this
      | some x => simp only [Option.getD_some]; rw [← hh]; exact ih o
    | @neg ts e h ih =>
      intro o
      rw [List.getLast?_cons]
      have := h.ne_nil
      cases hh : ts.getLast? with
      | none => exact absurd (List.getLast?_eq_none_iff.1 hh) this
      | some x => simp only [Option.getD_some]; rw [← hh]; exact ih o
    | @bin o' l ts us a b _ _ hb _ ih =>
      intro o
      rw [List.getLast?_append, List.getLast?_cons]
      have := hb.ne_nil
      cases hh : us.getLast? with
      | none => exact absurd (List.getLast?_eq_none_iff.1 hh) this
      | some x => simp only [Option.getD_some, Option.some_or]; rw [← hh]; exact ih o
    | _ => simp
  exact noRight l _ e h .eq rfl

/-- C88 violation: a path into a SEQUENCE is always rejected, although it leads to a component. -/
theorem C88_nested_violation (seq : SFields) (p : List String) (ty : FieldTy) (h : Leads seq p ty) (h2 : 2 ≤ p.length) :
    fieldType p seq = none := fieldType_nested h h2

example : LeadsAlways exFields ["h", "v", "m"] (.int false 64) ∧ Leads exFields ["h", "v", "m"] (.int false 64) :=
  ⟨.inside rfl (.inside rfl (.here rfl)), .inside rfl (.inside rfl (.here rfl))⟩

/-- C88 violation: a path that leads nowhere is accepted, and the condition reads another component. -/
theorem C88_longer_violation :
    fieldType ["h", "k", "z"] exFields = some .int ∧ (∀ ty, ¬ Leads exFields ["h", "k", "z"] ty) ∧
    accessIn exFields ["h", "k", "z"] = ["h", "k"] := by
  refine ⟨by decide, fun ty h => ?_, by decide⟩
  cases h with
  | inside h1 h =>
    have e : exFields.find "h" = some (false, false, .seq (.cons "v" false false (.seq <| .cons "m" false false (.int false 64) <|
      .cons "f" false false .bool .nil) <| .cons "k" false false (.int false 64) .nil)) := rfl
    rw [e] at h1
    cases h1
    cases h with
    | inside h2 _ =>
      have e2 : (SFields.cons "v" false false (.seq <| .cons "m" false false (.int false 64) <|
        .cons "f" false false .bool .nil) <| .cons "k" false false (.int false 64) .nil).find "k" = some (false, false, .int false 64) := rfl
      rw [e2] at h2
      cases h2

/-! ## C89: the generated condition computes what was written -/

/-- C89, full statement: for every value of the components, the encoder accepts a value if and only if the optional component is
present when the expression is true, and the decoder finds the component present if and only if the expression is true. -/
def C89_full : Prop :=
  ∀ seq e, expType seq e = some .bool → ∀ ty env, (∀ p, e.MentionsPath p → (ty p).has (env p)) → ∃ x, expValue env e = some x ∧
    (∀ exist, presenceCheck ty env e exist = .ok (exist == decide (x ≠ 0))) ∧ presenceDecode ty env e = .ok (decide (x ≠ 0))

/-- C89: the condition computes the value of the expression if all numbers that occur fit the types in which C computes. -/
theorem C89_value_partial (ty : List String → CT) (env : List String → Int) (e : AcnExp) (hr : Representable ty env e) (x : Int)
    (hx : expValue env e = some x) :
    evalC ty env e = .ok (cType ty e, x) ∧ (∀ exist, presenceCheck ty env e exist = .ok (exist == decide (x ≠ 0))) ∧
      presenceDecode ty env e = .ok (decide (x ≠ 0)) := by
  have h := evalC_value hr hx
  refine ⟨h, fun exist => ?_, ?_⟩
  · unfold presenceCheck; rw [h]
  · unfold presenceDecode; rw [h]

/-- C89: this is so if all numbers that occur are less than 2^31, and not negative or at least -2^31 with only signed components. -/
theorem C89_small_partial (ty : List String → CT) (env : List String → Int) (e : AcnExp)
    (h : AllSmall 0 env e ∨ (AllSmall (-(2 ^ 31)) env e ∧ ∀ p, e.MentionsPath p → ty p = .i32 ∨ ty p = .i64)) (x : Int)
    (hx : expValue env e = some x) : presenceDecode ty env e = .ok (decide (x ≠ 0)) := by
  have hr : Representable ty env e := by
    rcases h with h | ⟨h, ht⟩
    · exact representable_of_small (by decide) (by decide) h fun _ _ => .inl (by decide)
    · exact representable_of_small (by decide) (by decide) h fun p hp => .inr ⟨by decide, ht p hp⟩
  exact (C89_value_partial ty env e hr x hx).2.2

/-- C89: the value of an expression that the compiler accepts as boolean is 0 or 1. -/
theorem C89_boolean (seq : SFields) (env : List String → Int) (e : AcnExp) (h : expType seq e = some .bool)
    (hf : ∀ p, e.MentionsPath p → fieldType p seq = some .bool → env p = 0 ∨ env p = 1) (x : Int) (hx : expValue env e = some x) :
    x = 0 ∨ x = 1 := expValue_bool hf h hx

/-- C89: whatever C computes, a value that the encoder accepts is decoded with the same components, if the decoder has decoded all
components that the expression mentions. -/
theorem C89_presence_partial (ty : List String → CT) (env env' : List String → Int) (e : AcnExp)
    (h : ∀ p, e.MentionsPath p → env p = env' p) (exist : Bool) (he : presenceCheck ty env e exist = .ok true) :
    presenceDecode ty env' e = .ok exist := by
  unfold presenceCheck at he
  unfold presenceDecode
  rw [← evalC_congr h]
  split at he
  · cases he' : exist <;> simp_all
  · cases he
  · cases he

/-- The C types and values of `exFields`. -/
def exExprTy (p : List String) : CT := if p = ["a"] then promote true 64 else if p = ["b"] then promote true 8 else promote false 64
def exExprEnv (a n b : Int) (p : List String) : Int := if p = ["a"] then a else if p = ["b"] then b else if p = ["n"] then n else 0

example : expValue (exExprEnv 7 3 0) exCond = some 1 := by decide
example : Representable exExprTy (exExprEnv 7 3 0) exCond := by
  have e : Representable exExprTy (exExprEnv 7 3 0) exCond ↔ True := by
    simp [exCond, Representable, HasValue, expValue, exExprEnv, exExprTy, cType, commonType, promote, CT.has, CT.lo, CT.hi]
  exact e.2 trivial
example : presenceCheck exExprTy (exExprEnv 7 3 0) exCond true = .ok true := by decide

/-- `n * 3 % 5 < -1` -/
def exCond2 : AcnExp := .bin .lt (.bin .mod (.bin .mul (.field ["n"]) (.int 3)) (.int 5)) (.neg (.int 1))
example : expValue (exExprEnv 0 (-4) 0) exCond2 = some 1 := by decide
example : AllSmall (-(2 ^ 31)) (exExprEnv 0 (-4) 0) exCond2 := by
  simp [exCond2, AllSmall, expValue, exExprEnv]
example : ∀ p, exCond2.MentionsPath p → exExprTy p = .i32 ∨ exExprTy p = .i64 := by
  intro p hp
  simp only [exCond2, AcnExp.MentionsPath, or_false] at hp
  subst hp
  decide

/-- C89 violation: `a > -1` is false for every value of a component that is not negative: C compares unsigned numbers. -/
theorem C89_unsigned_violation (n : Nat) (h : n < 2 ^ 64) :
    expType exFields (.bin .gt (.field ["a"]) (.neg (.int 1))) = some .bool ∧
    expValue (exExprEnv n 0 0) (.bin .gt (.field ["a"]) (.neg (.int 1))) = some 1 ∧
    presenceDecode exExprTy (exExprEnv n 0 0) (.bin .gt (.field ["a"]) (.neg (.int 1))) = .ok false := by
  refine ⟨by decide, ?_, ?_⟩
  · have e : expValue (exExprEnv n 0 0) (.bin .gt (.field ["a"]) (.neg (.int 1))) = some (if (-1 : Int) < n then 1 else 0) := rfl
    rw [e, if_pos (by omega)]
  · have e : presenceDecode exExprTy (exExprEnv n 0 0) (.bin .gt (.field ["a"]) (.neg (.int 1))) =
      .ok (decide ((if decide (((n : Int) % (2 ^ 64)) > ((-1 : Int) % (2 ^ 64))) = true then (1 : Int) else 0) ≠ 0)) := rfl
    rw [e]
    have : ¬ ((n : Int) % (2 ^ 64) > (-1 : Int) % (2 ^ 64)) := by omega
    rw [decide_eq_false this]
    rfl

/-- C89 violation: `a - 1 < a` is false for 0. -/
theorem C89_wrap_violation :
    expValue (exExprEnv 0 0 0) (.bin .lt (.bin .sub (.field ["a"]) (.int 1)) (.field ["a"])) = some 1 ∧
    presenceDecode exExprTy (exExprEnv 0 0 0) (.bin .lt (.bin .sub (.field ["a"]) (.int 1)) (.field ["a"])) = .ok false := by
  constructor <;> decide +kernel

/-- C89 violation: the product of two constants may overflow, and a received 0 is a divisor; both are undefined behaviour. -/
theorem C89_undefined_violation :
    expType exFields (.bin .lt (.field ["a"]) (.bin .mul (.int 65536) (.int 65536))) = some .bool ∧
    presenceDecode exExprTy (exExprEnv 0 0 0) (.bin .lt (.field ["a"]) (.bin .mul (.int 65536) (.int 65536))) = .ub ∧
    expType exFields (.bin .eq (.bin .div (.int 10) (.field ["a"])) (.int 2)) = some .bool ∧
    presenceDecode exExprTy (exExprEnv 0 0 0) (.bin .eq (.bin .div (.int 10) (.field ["a"])) (.int 2)) = .ub := by
  refine ⟨?_, ?_, ?_, ?_⟩ <;> decide +kernel

/-- `{ x OCTET STRING OPTIONAL [present-when n > 0], n INTEGER }` -/
def exLate : SFields := .cons "x" false true .other <| .cons "n" false false (.int true 64) .nil

/-- C89 violation: an expression may mention a component that comes after the optional one. When the decoder looks at it, it holds
what it held before (here 0), and the component that the encoder has written is skipped. -/
theorem C89_late_violation :
    expType exLate (.bin .gt (.field ["n"]) (.int 0)) = some .bool ∧
    presenceCheck (fun _ => .u64) (fun _ => 5) (.bin .gt (.field ["n"]) (.int 0)) true = .ok true ∧
    presenceDecode (fun _ => .u64) (fun _ => 0) (.bin .gt (.field ["n"]) (.int 0)) = .ok false := by
  refine ⟨?_, ?_, ?_⟩ <;> decide +kernel

end Asn1
