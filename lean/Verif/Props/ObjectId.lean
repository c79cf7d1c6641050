import Verif.Proof.ObjectId
/-!
# C107: OBJECT IDENTIFIER and RELATIVE-OID values stand for the numbers that X.680 and X.660 give them
-/
namespace Asn1

/-! ## An example -/

/-- `base OBJECT IDENTIFIER ::= {itu-t recommendation x 501}`, `part RELATIVE-OID ::= {seven(7) 3}`, `also RELATIVE-OID ::= part`,
`twelve INTEGER ::= 12`, and what the counterexamples need. -/
def exOids : OEnv :=
  [(("M", "base"), .oid false [.name "M" "itu-t", .name "M" "recommendation", .name "M" "x", .num 501]),
   (("M", "part"), .oid true [.nameNum "seven" 7, .num 3]),
   (("M", "also"), .alias "M" "part"),
   (("M", "twelve"), .int 12),
   (("M", "minus"), .int (-4)),
   (("M", "loop"), .oid true [.num 1, .name "M" "loop"])]

theorem exOids_free : exOids.RootsFree := by
  intro md nm k h
  have h1 : nm ∉ ["base", "part", "also", "twelve", "minus", "loop"] := by
    have : ∀ e ∈ x660, e.1 = [] → e.2.1 ∉ ["base", "part", "also", "twelve", "minus", "loop"] := by decide +kernel
    exact this _ h rfl
  simp only [List.mem_cons, List.not_mem_nil, or_false, not_or] at h1
  obtain ⟨h1, h2, h3, h4, h5, h6⟩ := h1
  have hne : ∀ {s : String}, ¬ nm = s → ((md, nm) == ("M", s)) = false := by
    intro s hs
    simp [hs]
  simp only [exOids, List.lookup_cons, hne h1, hne h2, hne h3, hne h4, hne h5, hne h6, List.lookup_nil]

/-- `{base also x(twelve)}`. -/
def exOid : List OComp := [.name "M" "base", .name "M" "also", .nameRef "x" "M" "twelve"]

theorem exOid_means : exOids.MeansPlainly false exOid [0, 0, 24, 501, 7, 3, 12] := by
  have hb : exOids.Denotes false false [] true
      [.name "M" "itu-t", .name "M" "recommendation", .name "M" "x", .num 501] [0, 0, 24, 501] :=
    .registered (by decide +kernel) (.inl rfl) (.registered (by decide +kernel) (.inl rfl)
      (.registered (by decide +kernel) (.inl rfl) (.num (by decide) .nil)))
  have hp : exOids.Denotes false true [] true [.nameNum "seven" 7, .num 3] [7, 3] :=
    .nameNum (by decide) (.num (by decide) .nil)
  have none : ∀ nm ∈ ["base", "also"], ∀ e ∈ x660, e.2.1 ≠ nm := by decide +kernel
  have hr : exOids.Denotes false false [0, 0, 24, 501, 7, 3] false [.nameRef "x" "M" "twelve"] [12] :=
    .nameRef (.this rfl id) (by decide) .nil
  have h2 : exOids.Denotes false false [0, 0, 24, 501] false [.name "M" "also", .nameRef "x" "M" "twelve"] ([7, 3] ++ [12]) :=
    .relValue (md := "M") (nm := "also") ⟨rfl, rfl, .inr fun k h => none _ (by simp) _ h rfl⟩ (.name rfl (.this rfl id)) hp hr
  exact OEnv.Denotes.oidValue (c := .name "M" "base") (l' := [0, 0, 24, 501]) (l := [7, 3] ++ [12]) (md := "M") (nm := "base") ⟨rfl, rfl, .inr fun k h => none _ (by simp) _ h rfl⟩ (.this rfl id) hb h2

/-! ## The theorems -/

/-- **C107.** When the compiler accepts a legal OBJECT IDENTIFIER or RELATIVE-OID value, the numbers that it puts in place of the
value are those that the value stands for. Partial: no value may have one of the names `iso`, `itu-t` etc. (needed for
RELATIVE-OID, see `C107_capture_violation`). -/
theorem C107_numbers_partial (E : OEnv) (hE : E.RootsFree) (rel : Bool) (cs : List OComp) (l : List Int) (h : E.Means rel cs l)
    (n : Nat) (l' : List Int) (hc : oidNumbers E n cs = some l') : l' = l := by
  simp only [oidNumbers, Option.bind_eq_bind, Option.bind_eq_some_iff] at hc
  obtain ⟨ast, h1, h2⟩ := hc
  exact h.numbers hE (foldState_start rel) h1 h2

example : exOids.RootsFree ∧ exOids.Means false exOid [0, 0, 24, 501, 7, 3, 12] ∧
    oidNumbers exOids 3 exOid = some [0, 0, 24, 501, 7, 3, 12] :=
  ⟨exOids_free, exOid_means.widen, by decide +kernel⟩

/-- **C107.** Every legal value is accepted if it is written in the part of the notation that the compiler knows: without
`Module.value`, without INTEGER values as components of their own, and with the names of X.660 only where everything before
them is such a name. Partial: the rest of the notation (see the counterexamples). -/
theorem C107_accepts_partial (E : OEnv) (hE : E.RootsFree) (rel : Bool) (cs : List OComp) (l : List Int)
    (h : E.MeansPlainly rel cs l) : ∃ n, oidNumbers E n cs = some l := by
  obtain ⟨ast, n, h1, h2⟩ := h.accepted hE rfl (root := true) (parent := none) (foldState_start rel)
  exact ⟨n, by simp [oidNumbers, h1, h2]⟩

example : exOids.RootsFree ∧ exOids.MeansPlainly false exOid [0, 0, 24, 501, 7, 3, 12] := ⟨exOids_free, exOid_means⟩

/-- **C107.** A value stands for one list of numbers only, if it is written in the part of the notation that the compiler knows:
the specification leaves no choice. -/
theorem C107_unique (E : OEnv) (hE : E.RootsFree) (rel : Bool) (cs : List OComp) (l l' : List Int)
    (h : E.MeansPlainly rel cs l) (h' : E.Means rel cs l') : l = l' := by
  obtain ⟨n, hn⟩ := C107_accepts_partial E hE rel cs l h
  exact C107_numbers_partial E hE rel cs l' h' n l hn

example : exOids.MeansPlainly false exOid [0, 0, 24, 501, 7, 3, 12] ∧ exOids.Means false exOid [0, 0, 24, 501, 7, 3, 12] :=
  ⟨exOid_means, exOid_means.widen⟩

/-- **C107.** The number of calls does not matter once there is an answer. -/
theorem C107_stable (E : OEnv) (n m : Nat) (cs : List OComp) (l : List Int) (hm : n ≤ m) (h : oidNumbers E n cs = some l) :
    oidNumbers E m cs = some l := by
  simp only [oidNumbers, Option.bind_eq_bind, Option.bind_eq_some_iff] at h ⊢
  obtain ⟨ast, h1, h2⟩ := h
  exact ⟨ast, h1, mapComps_mono hm h2⟩

example : oidNumbers exOids 3 exOid = some [0, 0, 24, 501, 7, 3, 12] := by decide +kernel

/-! ## Counterexamples -/

/-- The numbers of a value that stands for some are never negative. -/
theorem OEnv.Denotes.nonneg {E : OEnv} {all rel : Bool} {pre : List Int} {b : Bool} {cs : List OComp} {l : List Int}
    (h : E.Denotes all rel pre b cs l) : ∀ i ∈ l, 0 ≤ i := by
  have hx : ∀ e ∈ x660, 0 ≤ e.2.2 := by decide +kernel
  induction h with
  | nil => simp
  | num h _ ih => exact fun i hi => (List.mem_cons.1 hi).elim (fun hi => hi ▸ h) (fun hi => ih i hi)
  | nameNum h _ ih => exact fun i hi => (List.mem_cons.1 hi).elim (fun hi => hi ▸ h) (fun hi => ih i hi)
  | nameRef _ h _ ih => exact fun i hi => (List.mem_cons.1 hi).elim (fun hi => hi ▸ h) (fun hi => ih i hi)
  | registered h _ _ ih => exact fun i hi => (List.mem_cons.1 hi).elim (fun hi => hi ▸ hx _ h) (fun hi => ih i hi)
  | relValue _ _ _ _ ih1 ih2 => exact fun i hi => (List.mem_append.1 hi).elim (fun hi => ih1 i hi) (fun hi => ih2 i hi)
  | oidValue _ _ _ _ ih1 ih2 => exact fun i hi => (List.mem_append.1 hi).elim (fun hi => ih1 i hi) (fun hi => ih2 i hi)
  | intValue _ _ _ h _ ih => exact fun i hi => (List.mem_cons.1 hi).elim (fun hi => hi ▸ h) (fun hi => ih i hi)

/-- `{iso x(minus)}` with `minus INTEGER ::= -4`: a negative number is accepted through a name, though the value stands for
nothing. Written directly it is refused. -/
theorem C107_negative_violation :
    oidNumbers exOids 3 [.name "M" "iso", .nameRef "x" "M" "minus"] = some [1, -4] ∧
    oidNumbers exOids 3 [.name "M" "iso", .nameNum "x" (-4)] = none ∧
    ∀ l, ¬ exOids.Means false [.name "M" "iso", .nameRef "x" "M" "minus"] l := by
  refine ⟨by decide +kernel, by decide +kernel, ?_⟩
  intro l h
  have := C107_numbers_partial _ exOids_free _ _ _ h 3 [1, -4] (by decide +kernel)
  subst this
  exact absurd (h.nonneg (-4) (by simp)) (by decide)

/-- `{iso base}`: an OBJECT IDENTIFIER value in the middle of another is accepted, though it is not legal. -/
theorem C107_middle_violation :
    oidNumbers exOids 3 [.name "M" "iso", .name "M" "base"] = some [1, 0, 0, 24, 501] ∧
    ∀ l, ¬ exOids.Means false [.name "M" "iso", .name "M" "base"] l := by
  refine ⟨by decide +kernel, ?_⟩
  intro l h
  have hb : ∀ e ∈ x660, e.2.1 ≠ "base" := by decide +kernel
  have hbase : exOids.RefersTo "M" "base"
      (.oid false [.name "M" "itu-t", .name "M" "recommendation", .name "M" "x", .num 501]) := .this rfl id
  have aux : ∀ {pre : List Int} {b : Bool} {l : List Int}, pre ≠ [] →
      ¬ exOids.Denotes true false pre b [.name "M" "base"] l := by
    intro pre b l hp h
    cases h with
    | registered hx => exact hb _ hx rfl
    | relValue hn hr =>
      obtain ⟨rfl, rfl, -⟩ := hn
      cases hr.fun hbase
    | oidValue => exact hp rfl
    | intValue _ hn hr =>
      obtain ⟨rfl, rfl, -⟩ := hn
      cases hr.fun hbase
  cases h with
  | registered hx _ h => exact aux (by simp) h
  | relValue hn hr => obtain ⟨rfl, rfl, -⟩ := hn; exact hr.has rfl
  | oidValue hn hr => obtain ⟨rfl, rfl, -⟩ := hn; exact hr.has rfl
  | intValue _ hn hr => obtain ⟨rfl, rfl, -⟩ := hn; exact hr.has rfl

/-- `{1 standard 5}`: a name of X.660 after a number is refused. -/
theorem C107_keyword_violation :
    exOids.Means false [.num 1, .name "M" "standard", .num 5] [1, 0, 5] ∧
    ∀ n, oidNumbers exOids n [.num 1, .name "M" "standard", .num 5] = none := by
  refine ⟨.num (by decide) (.registered (by decide +kernel) (.inr ⟨rfl, rfl⟩) (.num (by decide) .nil)), ?_⟩
  intro n
  cases hc : oidNumbers exOids n [.num 1, .name "M" "standard", .num 5] with
  | none => rfl
  | some l =>
    exfalso
    simp only [oidNumbers, Option.bind_eq_bind, Option.bind_eq_some_iff] at hc
    obtain ⟨ast, h1, h2⟩ := hc
    cases h1
    cases n with
    | zero => cases h2
    | succ n =>
      obtain ⟨_, _, -, h3, -⟩ := mapComps_cons h2
      obtain ⟨_, _, h4, -, -⟩ := mapComps_cons h3
      simp only [mapComp] at h4
      split at h4
      · rename_i hi
        exact (actualValue_refers hi).has rfl
      · cases h4

/-- `{iso twelve}`: an INTEGER value as a component of its own is refused, and so is `{iso M.part}`. -/
theorem C107_values_violation :
    (exOids.Means false [.name "M" "iso", .name "M" "twelve"] [1, 12] ∧
      ∀ n, oidNumbers exOids n [.name "M" "iso", .name "M" "twelve"] = none) ∧
    (exOids.Means false [.name "M" "iso", .ext "M" "part"] [1, 7, 3] ∧
      ∀ n, oidNumbers exOids n [.name "M" "iso", .ext "M" "part"] = none) := by
  have ht : ∀ e ∈ x660, e.2.1 ≠ "twelve" := by decide +kernel
  have h12 : exOids.RefersTo "M" "twelve" (.int 12) := .this rfl id
  refine ⟨⟨?_, ?_⟩, ?_, ?_⟩
  · exact .registered (by decide +kernel) (.inl rfl)
      (.intValue (md := "M") (nm := "twelve") rfl ⟨rfl, rfl, .inr fun k h => ht _ h rfl⟩ h12 (by decide) .nil)
  · intro n
    cases hc : oidNumbers exOids n [.name "M" "iso", .name "M" "twelve"] with
    | none => rfl
    | some l =>
      exfalso
      simp only [oidNumbers, Option.bind_eq_bind, Option.bind_eq_some_iff] at hc
      obtain ⟨ast, h1, h2⟩ := hc
      have h1' : createComps true none [.name "M" "iso", .name "M" "twelve"] = some [.keyword 1, .defined "M" "twelve"] := by
        rfl
      rw [h1'] at h1
      cases h1
      cases n with
      | zero => cases h2
      | succ n =>
        obtain ⟨_, _, -, h3, -⟩ := mapComps_cons h2
        obtain ⟨_, _, h4, -, -⟩ := mapComps_cons h3
        simp only [mapComp] at h4
        split at h4
        · rename_i hi
          cases (actualValue_refers hi).fun h12
        · cases h4
  · exact .registered (by decide +kernel) (.inl rfl)
      (.relValue (l' := [7, 3]) (md := "M") (nm := "part") ⟨rfl, rfl, rfl⟩ (.this rfl id)
        (.nameNum (by decide) (.num (by decide) .nil)) .nil)
  · intro n
    rfl

/-- With `iso RELATIVE-OID ::= {99}` the RELATIVE-OID value `{iso}` becomes 1 instead of 99: `C107_numbers_partial` needs its
hypothesis. -/
theorem C107_capture_violation :
    let E : OEnv := [(("M", "iso"), .oid true [.num 99])]
    E.Means true [.name "M" "iso"] [99] ∧ oidNumbers E 3 [.name "M" "iso"] = some [1] := by
  refine ⟨?_, by decide +kernel⟩
  exact .relValue (l' := [99]) (md := "M") (nm := "iso") ⟨rfl, rfl, .inl rfl⟩ (.this rfl id) (.num (by decide) .nil) .nil

/-- `loop RELATIVE-OID ::= {1 loop}`: the compiler never ends, there is no error message. -/
theorem C107_loop_violation (n : Nat) : oidNumbers exOids n [.name "M" "loop"] = none := by
  have h1 : createComps true none [.name "M" "loop"] = some [.defined "M" "loop"] := rfl
  have h2 : createComps true none [.num 1, .name "M" "loop"] = some [.integer 1, .defined "M" "loop"] := rfl
  have hl : exOids.RefersTo "M" "loop" (.oid true [.num 1, .name "M" "loop"]) := .this rfl id
  have aux : ∀ n, mapComp exOids n (.defined "M" "loop") = none := by
    intro n
    induction n with
    | zero => rfl
    | succ n ih =>
      cases hc : mapComp exOids (n + 1) (.defined "M" "loop") with
      | none => rfl
      | some l =>
        simp only [mapComp] at hc
        split at hc
        · rename_i hi
          cases (actualValue_refers hi).fun hl
          rw [h2] at hc
          obtain ⟨_, _, -, h3, -⟩ := mapComps_cons hc
          obtain ⟨_, _, h4, -, -⟩ := mapComps_cons h3
          rw [ih] at h4
          cases h4
        · cases hc
  simp only [oidNumbers, h1]
  cases n with
  | zero => rfl
  | succ n =>
    cases hc : mapComps exOids (n + 1) [.defined "M" "loop"] with
    | none => simp [hc]
    | some l =>
      obtain ⟨_, _, h4, -, -⟩ := mapComps_cons hc
      rw [aux] at h4
      cases h4

end Asn1
