import Verif.Proof.ParamProg
/-
C101: parameterized types. Once the compiler has removed them, every type that is left has exactly
the values that X.683 gives it: the values of the body with the dummy references standing for the
actual parameters.
-/
namespace Asn1

/-- **C101, same values.** For a tidy specification, if the removal of the parameterized types ends
with a result, then every type assignment without parameters has the same values in the result as
in the text. (The names of the types with parameters have no values on either side.) -/
theorem C101_instance_partial (r r' : PProg) (n : Nat) (ht : r.Tidy)
    (h : removeParams n r = some r') (G : String → String → Option PV) (B : Nat → PV → Prop)
    (md ts : String) (v : PV) : r.Has G B md ts v ↔ r'.Has G B md ts v :=
  progRel_has (progRel ht h) md ts v

/-- **C101, nothing left.** In the result no assignment has parameters and no reference has actual
parameters, and exactly the assignments without parameters of the text are there. -/
theorem C101_gone_partial (r r' : PProg) (n : Nat) (ht : r.Tidy)
    (h : removeParams n r = some r') (md ts : String) :
    (∀ tas', r'.find md ts = some tas' → tas'.params = [] ∧ tas'.body.argFree = true) ∧
    ((∃ tas', r'.find md ts = some tas') ↔ ∃ tas, r.find md ts = some tas ∧ tas.params = []) := by
  have hp := progRel ht h
  refine ⟨fun tas' hf => ?_, ?_, ?_⟩
  · obtain ⟨_, _, _, h1, _, h2⟩ := hp.bwd md ts tas' hf
    exact ⟨h1, h2⟩
  · rintro ⟨tas', hf⟩
    obtain ⟨tas, h1, h2, _⟩ := hp.bwd md ts tas' hf
    exact ⟨tas, h1, h2⟩
  · rintro ⟨tas, hf, hq⟩
    obtain ⟨tas', h1, _⟩ := hp.fwd md ts tas hf hq
    exact ⟨tas', h1⟩

/-! ## A specification with nested instances -/

/-- The type number 0 is INTEGER. -/
def exKinds : Nat → PV → Prop := fun b v => b = 0 ∧ ∃ i, v = .int i

/-- Actual parameters: the constraint `(a..b)`. -/
def exRange (a b : PVal) : PCon := .range a b true true

/--
```
Buffer {INTEGER:max, Elem} ::= SEQUENCE {
   used   INTEGER (0..max) DEFAULT max,
   items  SEQUENCE (SIZE (0..max)) OF Elem }
Pair {T} ::= SEQUENCE { left T, right Buffer {3, T} OPTIONAL }
My ::= Pair {INTEGER (0..top)}
```
-/
def exParam : PProg := [⟨"M", [
  ⟨"Buffer", [.value "max", .type "Elem"], .mk (.seq [
    .mk "used" (.mk (.base 0) [exRange (.int 0) (.name "M" "max")]) (.default (.name "M" "max")),
    .mk "items" (.mk (.seqOf (.mk (.ref "M" "Elem" []) []))
      [.size (exRange (.int 0) (.name "M" "max"))]) .mandatory]) []⟩,
  ⟨"Pair", [.type "T"], .mk (.seq [
    .mk "left" (.mk (.ref "M" "T" []) []) .mandatory,
    .mk "right" (.mk (.ref "M" "Buffer" [.val (.int 3), .type (.mk (.ref "M" "T" []) [])]) [])
      .optional]) []⟩,
  ⟨"My", [], .mk (.ref "M" "Pair"
    [.type (.mk (.base 0) [exRange (.int 0) (.name "M" "top")])]) []⟩]⟩]

/-- `My` with everything put in. -/
def exParamOut : PProg := [⟨"M", [
  ⟨"My", [], .mk (.seq [
    .mk "left" (.mk (.base 0) [exRange (.int 0) (.name "M" "top")]) .mandatory,
    .mk "right" (.mk (.seq [
      .mk "used" (.mk (.base 0) [exRange (.int 0) (.int 3)]) (.default (.int 3)),
      .mk "items" (.mk (.seqOf (.mk (.base 0) [exRange (.int 0) (.name "M" "top")]))
        [.size (exRange (.int 0) (.int 3))]) .mandatory]) []) .optional]) []⟩]⟩]

theorem exParam_tidy : exParam.Tidy := by decide

theorem exParam_out : removeParams 10 exParam = some exParamOut := rfl

/-- The hypotheses of the theorems above are met. -/
example (G : String → String → Option PV) (md ts : String) (v : PV) :
    exParam.Has G exKinds md ts v ↔ exParamOut.Has G exKinds md ts v :=
  C101_instance_partial exParam exParamOut 10 exParam_tidy exParam_out G exKinds md ts v

/-- `My` has a value with a right part that stands for the default: `top` is 9. -/
theorem exParam_has : exParam.Has (fun _ n => if n = "top" then some (.int 9) else none) exKinds
    "M" "My" (.record [("left", .present (.int 9)),
      ("right", .present (.record [("used", .defaulted (.int 3)),
        ("items", .present (.list [.int 1, .int 2]))]))]) := by
  have el : ∀ i : Int, 0 ≤ i → i ≤ 9 → PTy.Has exParamOut
      (fun _ n => if n = "top" then some (.int 9) else none) exKinds []
      (.mk (.base 0) [exRange (.int 0) (.name "M" "top")]) (.int i) := by
    intro i h0 h9
    refine .base ⟨rfl, i, rfl⟩ ?_
    intro c hc
    simp only [List.mem_singleton] at hc; subst hc
    exact ⟨0, 9, i, rfl, rfl, rfl, h0, h9⟩
  rw [C101_instance_partial exParam exParamOut 10 exParam_tidy exParam_out]
  refine .ref (fun _ => rfl) rfl rfl (by intro i p a h; simp at h) ?_ (by simp)
  refine .seq rfl ?_ ?_ ?_ (by simp)
  · intro i c n x hc hf
    match i with
    | 0 =>
      simp at hc hf; subst hc; obtain ⟨_, rfl⟩ := hf
      exact el 9 (by decide) (by decide)
    | 1 =>
      simp at hc hf; subst hc; obtain ⟨_, rfl⟩ := hf
      refine .seq rfl ?_ ?_ ?_ (by simp)
      · intro i c n x hc hf
        match i with
        | 0 => simp at hf
        | 1 =>
          simp at hc hf; subst hc; obtain ⟨_, rfl⟩ := hf
          refine .seqOf ?_ ?_
          · intro x hx
            simp at hx
            rcases hx with rfl | rfl
            · exact el 1 (by decide) (by decide)
            · exact el 2 (by decide) (by decide)
          · intro c hc
            simp only [List.mem_singleton] at hc; subst hc
            exact ⟨2, rfl, 0, 3, 2, rfl, rfl, rfl, by decide, by decide⟩
        | i + 2 => simp at hc
      · intro i c n hc hf
        match i with
        | 0 => simp at hf
        | 1 => simp at hf
        | i + 2 => simp at hc
      · intro i c n d hc hf
        match i with
        | 0 =>
          simp at hc hf; subst hc; obtain ⟨_, rfl⟩ := hf
          exact ⟨.int 3, rfl, rfl⟩
        | 1 => simp at hf
        | i + 2 => simp at hc
    | i + 2 => simp at hc
  · intro i c n hc hf
    match i with
    | 0 => simp at hf
    | 1 => simp at hf
    | i + 2 => simp at hc
  · intro i c n d hc hf
    match i with
    | 0 => simp at hf
    | 1 => simp at hf
    | i + 2 => simp at hc

example : exParamOut.find "M" "Pair" = none ∧ ∃ t, exParamOut.find "M" "My" = some t :=
  ⟨rfl, _, rfl⟩

/-! ## What the compiler does with specifications that are not tidy -/

theorem exInt (i : Int) : exKinds 0 (.int i) := ⟨rfl, i, rfl⟩

/-- `T {INTEGER:m} ::= INTEGER (0..m, ...)`, `U ::= T {5}`. -/
def exExt : PProg := [⟨"M", [
  ⟨"T", [.value "m"], .mk (.base 0) [.root (exRange (.int 0) (.name "M" "m"))]⟩,
  ⟨"U", [], .mk (.ref "M" "T" [.val (.int 5)]) []⟩]⟩]

/-- **C101, extension marker.** With an extensible constraint in a parameterized type the removal
never ends, although the specification is tidy and its types have values. -/
theorem C101_extensible_violation :
    exExt.Tidy ∧ (∀ n, removeParams n exExt = none) ∧
    exExt.Has (fun _ _ => none) exKinds "M" "U" (.int 3) := by
  refine ⟨by decide, ?_, ?_⟩
  · intro n
    match n with
    | 0 => rfl
    | 1 => rfl
    | 2 => rfl
    | 3 => rfl
    | n + 4 => rfl
  · refine .ref (fun _ => rfl) rfl rfl (by intro i p a h; simp at h) ?_ (by simp)
    refine .ref (by simp) rfl rfl ?_ ?_ (by simp)
    · intro i p a hp ha
      cases i with
      | zero => simp at hp ha; subst hp; subst ha; trivial
      | succ i => simp at hp
    · refine .base (exInt 3) ?_
      intro c hc
      simp only [List.mem_singleton] at hc; subst hc
      exact ⟨0, 5, 3, rfl, rfl, rfl, by decide, by decide⟩

/-- `T {INTEGER:n, E} ::= E`, `U ::= T {5, INTEGER (n)}`, with a value assignment `n`. -/
def exCapture : PProg := [⟨"M", [
  ⟨"T", [.value "n", .type "E"], .mk (.ref "M" "E" []) []⟩,
  ⟨"U", [], .mk (.ref "M" "T" [.val (.int 5), .type (.mk (.base 0) [.val (.name "M" "n")])]) []⟩]⟩]

def exCaptureOut : PProg := [⟨"M", [⟨"U", [], .mk (.base 0) [.val (.int 5)]⟩]⟩]

/-- **C101, captured name.** A name in the constraint of an actual parameter is taken for the dummy
reference of the same name: with `n INTEGER ::= 10`, the type `U` has the value 10, but the result
of the removal has only 5. -/
theorem C101_capture_violation :
    removeParams 10 exCapture = some exCaptureOut ∧
    exCapture.Has (fun _ n => if n = "n" then some (.int 10) else none) exKinds "M" "U" (.int 10) ∧
    ¬ exCaptureOut.Has (fun _ n => if n = "n" then some (.int 10) else none) exKinds "M" "U"
      (.int 10) := by
  refine ⟨rfl, ?_, ?_⟩
  · refine .ref (fun _ => rfl) rfl rfl (by intro i p a h; simp at h) ?_ (by simp)
    refine .ref (by simp) rfl rfl ?_ ?_ (by simp)
    · intro i p a hp ha
      match i with
      | 0 => simp at hp ha; subst hp; subst ha; trivial
      | 1 => simp at hp ha; subst hp; subst ha; trivial
      | i + 2 => simp at hp
    · refine .param (ρ' := []) (t := .mk (.base 0) [.val (.name "M" "n")]) rfl ?_ (by simp)
      refine .base (exInt 10) ?_
      intro c hc
      simp only [List.mem_singleton] at hc; subst hc
      rfl
  · intro h
    cases h with
    | param hr => simp [List.lookup] at hr
    | ref h0 hf hl hk ht hc =>
      simp only [exCaptureOut, PProg.find, List.find?, Option.bind] at hf
      simp at hf
      subst hf
      cases ht with
      | base hb hc =>
        have := hc _ (List.mem_singleton.2 rfl)
        simp [PCon.Sat, PVal.eval] at this

/-- `Inner {INTEGER:m} ::= SEQUENCE OF INTEGER (m)`, `Outer {INTEGER:k} ::= Inner {k}`,
`U ::= Outer {5}`. -/
def exPass : PProg := [⟨"M", [
  ⟨"Inner", [.value "m"], .mk (.seqOf (.mk (.base 0) [.val (.name "M" "m")])) []⟩,
  ⟨"Outer", [.value "k"], .mk (.ref "M" "Inner" [.val (.name "M" "k")]) []⟩,
  ⟨"U", [], .mk (.ref "M" "Outer" [.val (.int 5)]) []⟩]⟩]

def exPassOut : PProg := [⟨"M", [
  ⟨"U", [], .mk (.seqOf (.mk (.base 0) [.val (.name "M" "k")])) []⟩]⟩]

/-- **C101, value passed on.** A value that one parameterized type passes on to another is not put
in below the top: the result still names the dummy reference `k`. Where a value assignment `k`
exists, the type silently takes that value. -/
theorem C101_passedOn_violation :
    removeParams 10 exPass = some exPassOut ∧
    exPass.Has (fun _ n => if n = "k" then some (.int 7) else none) exKinds "M" "U"
      (.list [.int 5]) ∧
    ¬ exPassOut.Has (fun _ n => if n = "k" then some (.int 7) else none) exKinds "M" "U"
      (.list [.int 5]) := by
  refine ⟨rfl, ?_, ?_⟩
  · refine .ref (fun _ => rfl) rfl rfl (by intro i p a h; simp at h) ?_ (by simp)
    refine .ref (by simp) rfl rfl ?_ ?_ (by simp)
    · intro i p a hp ha
      match i with
      | 0 => simp at hp ha; subst hp; subst ha; trivial
      | i + 1 => simp at hp
    · refine .ref (by simp) rfl rfl ?_ ?_ (by simp)
      · intro i p a hp ha
        match i with
        | 0 => simp at hp ha; subst hp; subst ha; trivial
        | i + 1 => simp at hp
      · refine .seqOf ?_ (by simp)
        intro x hx
        simp only [List.mem_singleton] at hx; subst hx
        refine .base (exInt 5) ?_
        intro c hc
        simp only [List.mem_singleton] at hc; subst hc
        rfl
  · intro h
    cases h with
    | param hr => simp [List.lookup] at hr
    | ref h0 hf hl hk ht hc =>
      simp only [exPassOut, PProg.find, List.find?, Option.bind] at hf
      simp at hf
      subst hf
      cases ht with
      | seqOf hl hc =>
        have h1 := hl (.int 5) (by simp)
        cases h1 with
        | base hb hc =>
          have := hc _ (List.mem_singleton.2 rfl)
          simp [PCon.Sat, PVal.eval] at this

/-- `Inner {S} ::= S`, `Outer {T} ::= Inner {T (1)}`, `U ::= Outer {INTEGER}`. -/
def exConstr : PProg := [⟨"M", [
  ⟨"Inner", [.type "S"], .mk (.ref "M" "S" []) []⟩,
  ⟨"Outer", [.type "T"],
    .mk (.ref "M" "Inner" [.type (.mk (.ref "M" "T" []) [.val (.int 1)])]) []⟩,
  ⟨"U", [], .mk (.ref "M" "Outer" [.type (.mk (.base 0) [])]) []⟩]⟩]

def exConstrOut : PProg := [⟨"M", [⟨"U", [], .mk (.base 0) []⟩]⟩]

/-- **C101, dropped constraint.** A constraint written on a dummy reference that is passed on as an
actual parameter is lost: `U` has only the value 1, the result has every number. -/
theorem C101_dropped_violation :
    removeParams 10 exConstr = some exConstrOut ∧
    ¬ exConstr.Has (fun _ _ => none) exKinds "M" "U" (.int 2) ∧
    exConstrOut.Has (fun _ _ => none) exKinds "M" "U" (.int 2) := by
  refine ⟨rfl, ?_, ?_⟩
  · intro h
    cases h with
    | param hr => simp [List.lookup] at hr
    | ref h0 hf hl hk ht hc =>
      simp [exConstr, PProg.find, List.find?] at hf
      subst hf
      cases ht with
      | ref h0 hf hl hk ht hc =>
        simp [exConstr, PProg.find, List.find?] at hf
        subst hf
        cases ht with
        | ref h0 hf hl hk ht hc =>
          simp [exConstr, PProg.find, List.find?] at hf
          subst hf
          cases ht with
          | param hr ht hc =>
            simp [PArg.close, PParam.name] at hr
            obtain ⟨rfl, rfl⟩ := hr
            cases ht with
            | param hr ht hc =>
              have := hc _ (List.mem_singleton.2 rfl)
              simp [PCon.Sat, PVal.eval] at this
            | ref h0 hf hl hk ht hc =>
              have := hc _ (List.mem_singleton.2 rfl)
              simp [PCon.Sat, PVal.eval] at this
          | ref h0 hf hl hk ht hc =>
            have := h0 rfl
            simp [PParam.name] at this
  · refine .ref (fun _ => rfl) rfl rfl (by intro i p a h; simp at h) ?_ (by simp)
    exact .base (exInt 2) (by simp)

/-- `Inner {S} ::= S`, `Outer {T} ::= Inner {SEQUENCE OF T}`, `U ::= Outer {INTEGER}`. -/
def exDeep : PProg := [⟨"M", [
  ⟨"Inner", [.type "S"], .mk (.ref "M" "S" []) []⟩,
  ⟨"Outer", [.type "T"],
    .mk (.ref "M" "Inner" [.type (.mk (.seqOf (.mk (.ref "M" "T" []) [])) [])]) []⟩,
  ⟨"U", [], .mk (.ref "M" "Outer" [.type (.mk (.base 0) [])]) []⟩]⟩]

def exDeepOut : PProg := [⟨"M", [⟨"U", [], .mk (.seqOf (.mk (.ref "M" "T" []) [])) []⟩]⟩]

/-- **C101, dummy reference inside an actual parameter.** A dummy reference below the top of an
actual parameter stays: the result refers to a type `T` that does not exist. -/
theorem C101_deep_violation :
    removeParams 10 exDeep = some exDeepOut ∧
    exDeep.Has (fun _ _ => none) exKinds "M" "U" (.list [.int 1]) ∧
    ¬ exDeepOut.Has (fun _ _ => none) exKinds "M" "U" (.list [.int 1]) := by
  refine ⟨rfl, ?_, ?_⟩
  · refine .ref (fun _ => rfl) rfl rfl (by intro i p a h; simp at h) ?_ (by simp)
    refine .ref (by simp) rfl rfl ?_ ?_ (by simp)
    · intro i p a hp ha
      match i with
      | 0 => simp at hp ha; subst hp; subst ha; trivial
      | i + 1 => simp at hp
    · refine .ref (by simp) rfl rfl ?_ ?_ (by simp)
      · intro i p a hp ha
        match i with
        | 0 => simp at hp ha; subst hp; subst ha; trivial
        | i + 1 => simp at hp
      · refine .param (ρ' := [("T", .ty [] (.mk (.base 0) []))])
          (t := .mk (.seqOf (.mk (.ref "M" "T" []) [])) []) rfl ?_ (by simp)
        refine .seqOf ?_ (by simp)
        intro x hx
        simp only [List.mem_singleton] at hx; subst hx
        exact .param (ρ' := []) (t := .mk (.base 0) []) rfl (.base (exInt 1) (by simp)) (by simp)
  · intro h
    cases h with
    | param hr => simp [List.lookup] at hr
    | ref h0 hf hl hk ht hc =>
      simp [exDeepOut, PProg.find, List.find?] at hf
      subst hf
      cases ht with
      | seqOf hl hc =>
        have h1 := hl (.int 1) (by simp)
        cases h1 with
        | param hr => simp [List.lookup] at hr
        | ref h0 hf => simp [exDeepOut, PProg.find, List.find?] at hf

end Asn1
