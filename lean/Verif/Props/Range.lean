import Verif.Proof.Constraint
/-!
# The computed range is no wider than the constraints demand: C60
-/
namespace Asn1

/-- Built of leaves and intersections only. -/
def Con.OnlyInter {L : Type} : Con L → Prop
  | .inter c d => c.OnlyInter ∧ d.OnlyInter
  | .leaf _ => True
  | _ => False

/-- A value or a range with two numbers as bounds. -/
def RLeaf.Closed : RLeaf → Prop
  | .single _ => True
  | .range _ _ _ _ => True
  | _ => False

/-- A range `v..MAX`. -/
def RLeaf.ToMax : RLeaf → Prop
  | .valMax _ _ => True
  | _ => False

/-- A range `MIN..v`. -/
def RLeaf.FromMin : RLeaf → Prop
  | .minVal _ _ => True
  | _ => False

/-- The shape of range that a constraint of one kind has. -/
inductive Shape where
  | closed | toMax | fromMin

def Shape.leaf : Shape → RLeaf → Prop
  | .closed => RLeaf.Closed
  | .toMax => RLeaf.ToMax
  | .fromMin => RLeaf.FromMin

def Shape.rng : Shape → Rng → Prop
  | .closed, .concrete _ _ => True
  | .toMax, .posInf _ => True
  | .fromMin, .negInf _ => True
  | _, _ => False

theorem leaf_exact (k : Shape) (l : RLeaf) (h : k.leaf l) :
    k.rng (l.rng (· + 1) (· - 1)) ∧ ∀ v, (l.rng (· + 1) (· - 1)).contains v ↔ l.Sat v := by
  cases k <;> cases l <;> first
    | exact absurd h (fun h => h)
    | (refine ⟨trivial, fun v => ?_⟩
       simp only [RLeaf.rng, Rng.contains, RLeaf.Sat]
       repeat' split
       all_goals omega)

/-- Two ranges of the same shape: the intersection is exact, and an error means that it is empty. -/
theorem inter_exact (k : Shape) (r1 r2 : Rng) (h1 : k.rng r1) (h2 : k.rng r2) :
    match uperIntersection r1 r2 with
    | some r => k.rng r ∧ ∀ v, r.contains v ↔ r1.contains v ∧ r2.contains v
    | none => ∀ v, ¬ (r1.contains v ∧ r2.contains v) := by
  cases k <;> cases r1 <;> (try exact absurd h1 (fun h => h)) <;> cases r2 <;> (try exact absurd h2 (fun h => h))
  · simp only [uperIntersection]
    split
    next r hr =>
      repeat' split at hr
      all_goals first
        | cases hr; done
        | (injection hr with hr; subst hr
           refine ⟨trivial, fun v => ?_⟩
           simp only [Rng.contains]
           omega)
    next hr =>
      repeat' split at hr
      all_goals first
        | cases hr; done
        | (intro v; simp only [Rng.contains]; omega)
  · exact ⟨trivial, fun v => by simp only [Rng.contains]; omega⟩
  · exact ⟨trivial, fun v => by simp only [Rng.contains]; omega⟩

theorem con_exact (k : Shape) (c : Con RLeaf) (h1 : c.OnlyInter) (h2 : c.Leaves k.leaf) :
    match c.range (fun l => some (l.rng (· + 1) (· - 1))) with
    | some r => k.rng r ∧ ∀ v, r.contains v ↔ c.Sat RLeaf.Sat v
    | none => ∀ v, ¬ c.Sat RLeaf.Sat v := by
  induction c with
  | leaf l => exact leaf_exact k l h2
  | inter c d ihc ihd =>
    have hc := ihc h1.1 h2.1
    have hd := ihd h1.2 h2.2
    simp only [Con.range]
    cases e1 : c.range (fun l => some (l.rng (· + 1) (· - 1))) with
    | none =>
      rw [e1] at hc
      exact fun v h => hc v h.1
    | some r1 =>
      rw [e1] at hc
      cases e2 : d.range (fun l => some (l.rng (· + 1) (· - 1))) with
      | none =>
        rw [e2] at hd
        exact fun v h => hd v h.2
      | some r2 =>
        rw [e2] at hd
        have := inter_exact k r1 r2 hc.1 hd.1
        simp only [Option.bind_eq_bind, Option.bind_some]
        cases e3 : uperIntersection r1 r2 with
        | none =>
          rw [e3] at this
          exact fun v h => this v ⟨(hc.2 v).2 h.1, (hd.2 v).2 h.2⟩
        | some r =>
          rw [e3] at this
          refine ⟨this.1, fun v => ?_⟩
          rw [this.2, hc.2, hd.2]
          rfl
  | union => exact absurd h1 (fun h => h)
  | allExcept => exact absurd h1 (fun h => h)
  | except => exact absurd h1 (fun h => h)
  | root => exact absurd h1 (fun h => h)
  | root2 => exact absurd h1 (fun h => h)

theorem serial_exact (k : Shape) (cons : List (Con RLeaf)) : ∀ (s : Rng), k.rng s →
    (∀ c ∈ cons, c.OnlyInter ∧ c.Leaves k.leaf) →
    match serialRange (fun l => some (RLeaf.rng (· + 1) (· - 1) l)) s cons with
    | some r => ∀ v, r.contains v ↔ s.contains v ∧ IntSat cons v
    | none => ∀ v, ¬ (s.contains v ∧ IntSat cons v) := by
  induction cons with
  | nil => intro s _ _; simp [serialRange, IntSat]
  | cons c rest ih =>
    intro s hs h
    have hc := con_exact k c (h c (by simp)).1 (h c (by simp)).2
    simp only [serialRange]
    cases e1 : c.range (fun l => some (l.rng (· + 1) (· - 1))) with
    | none =>
      rw [e1] at hc
      exact fun v h => hc v (h.2 c (by simp))
    | some r1 =>
      rw [e1] at hc
      have := inter_exact k s r1 hs hc.1
      simp only [Option.bind_eq_bind, Option.bind_some]
      cases e2 : uperIntersection s r1 with
      | none =>
        rw [e2] at this
        exact fun v h => this v ⟨h.1, (hc.2 v).2 (h.2 c (by simp))⟩
      | some s' =>
        rw [e2] at this
        have hr := ih s' this.1 (fun c' h' => h c' (by simp [h']))
        simp only [Option.bind_some]
        have key : ∀ v, (s'.contains v ∧ IntSat rest v) ↔ (s.contains v ∧ IntSat (c :: rest) v) := by
          intro v
          rw [this.2, hc.2]
          simp only [IntSat, List.mem_cons, forall_eq_or_imp]
          exact ⟨fun ⟨⟨a, b⟩, d⟩ => ⟨a, b, d⟩, fun ⟨a, b, d⟩ => ⟨⟨a, b⟩, d⟩⟩
        split
        next r hr2 =>
          rw [hr2] at hr
          intro v
          rw [hr v, key]
        next hr2 =>
          rw [hr2] at hr
          intro v hv
          exact hr v ((key v).2 hv)

theorem intRange_exact (k : Shape) (cons : List (Con RLeaf)) (h : ∀ c ∈ cons, c.OnlyInter ∧ c.Leaves k.leaf) :
    match intRange cons with
    | some r => ∀ v, r.contains v ↔ IntSat cons v
    | none => ∀ v, ¬ IntSat cons v := by
  cases cons with
  | nil => exact fun v => by simp [Rng.contains, IntSat]
  | cons c rest =>
    unfold intRange
    have hc := con_exact k c (h c (by simp)).1 (h c (by simp)).2
    simp only [serialRange]
    cases e1 : c.range (fun l => some (l.rng (· + 1) (· - 1))) with
    | none =>
      rw [e1] at hc
      exact fun v h => hc v (h c (by simp))
    | some r1 =>
      rw [e1] at hc
      simp only [Option.bind_eq_bind, Option.bind_some, uperIntersection_full]
      have := serial_exact k rest r1 hc.1 (fun c' h' => h c' (by simp [h']))
      have key : ∀ v, (r1.contains v ∧ IntSat rest v) ↔ IntSat (c :: rest) v := by
        intro v
        rw [hc.2]
        simp only [IntSat, List.mem_cons, forall_eq_or_imp]
      split
      next r hr2 =>
        rw [hr2] at this
        intro v
        rw [this v, key]
      next hr2 =>
        rw [hr2] at this
        intro v hv
        exact this v ((key v).2 hv)

/-- C60: for constraints built of ranges and intersections, applied in series, the computed range holds exactly the values that
satisfy them, and "empty type" is reported only when no value does. All ranges have two numbers as bounds, or all are `v..MAX`, or
all are `MIN..v`. Missing: other mixtures (`C60_violation_max`, `C33_violation`), EXCEPT (`C60_violation_except`) and unions, for
which see `C60_union_partial`. -/
theorem C60_partial (cons : List (Con RLeaf)) (h : ∀ c ∈ cons, c.OnlyInter)
    (hk : (∀ c ∈ cons, c.Leaves RLeaf.Closed) ∨ (∀ c ∈ cons, c.Leaves RLeaf.ToMax) ∨ (∀ c ∈ cons, c.Leaves RLeaf.FromMin)) :
    (∀ r, intRange cons = some r → ∀ v, r.contains v ↔ IntSat cons v) ∧
    (intRange cons = none → ∀ v, ¬ IntSat cons v) := by
  obtain ⟨k, hk⟩ : ∃ k : Shape, ∀ c ∈ cons, c.Leaves k.leaf := by
    rcases hk with hk | hk | hk
    · exact ⟨.closed, hk⟩
    · exact ⟨.toMax, hk⟩
    · exact ⟨.fromMin, hk⟩
  have := intRange_exact k cons (fun c hc => ⟨h c hc, hk c hc⟩)
  constructor
  · intro r hr
    rw [hr] at this
    exact this
  · intro hr
    rw [hr] at this
    exact this

/-- `INTEGER (0..20 ^ 5..<30) (3..12)`: the range is 5..12. -/
example : let cons : List (Con RLeaf) :=
      [.inter (.leaf (.range 0 20 true true)) (.leaf (.range 5 30 true false)), .leaf (.range 3 12 true true)]
    (∀ c ∈ cons, c.OnlyInter) ∧ (∀ c ∈ cons, c.Leaves RLeaf.Closed) ∧ intRange cons = some (.concrete 5 12) := by
  refine ⟨?_, ?_, rfl⟩ <;> intro c hc <;> simp only [List.mem_cons, List.not_mem_nil, or_false] at hc <;>
    rcases hc with rfl | rfl <;> simp [Con.OnlyInter, Con.Leaves, RLeaf.Closed]

/-- `INTEGER (5..MAX) (7<..MAX)`: the range is 8..MAX. -/
example : let cons : List (Con RLeaf) := [.leaf (.valMax 5 true), .leaf (.valMax 7 false)]
    (∀ c ∈ cons, c.OnlyInter) ∧ (∀ c ∈ cons, c.Leaves RLeaf.ToMax) ∧ intRange cons = some (.posInf 8) := by
  refine ⟨?_, ?_, rfl⟩ <;> intro c hc <;> simp only [List.mem_cons, List.not_mem_nil, or_false] at hc <;>
    rcases hc with rfl | rfl <;> simp [Con.OnlyInter, Con.Leaves, RLeaf.ToMax]

/-- A union of constraints without unions, each with two bounds and at least one value. -/
def Con.UnionOfInter : Con RLeaf → Prop
  | .union c d => c.UnionOfInter ∧ d.UnionOfInter
  | c => c.OnlyInter ∧ c.Leaves RLeaf.Closed ∧ ∃ v, c.Sat RLeaf.Sat v

theorem union_exact (c : Con RLeaf) (h : c.UnionOfInter) :
    ∃ a b, c.range (fun l => some (l.rng (· + 1) (· - 1))) = some (.concrete a b) ∧
      c.Sat RLeaf.Sat a ∧ c.Sat RLeaf.Sat b ∧ ∀ v, c.Sat RLeaf.Sat v → a ≤ v ∧ v ≤ b := by
  have base : ∀ c : Con RLeaf, c.OnlyInter → c.Leaves RLeaf.Closed → (∃ v, c.Sat RLeaf.Sat v) →
      ∃ a b, c.range (fun l => some (l.rng (· + 1) (· - 1))) = some (.concrete a b) ∧
      c.Sat RLeaf.Sat a ∧ c.Sat RLeaf.Sat b ∧ ∀ v, c.Sat RLeaf.Sat v → a ≤ v ∧ v ≤ b := by
    intro c h1 h2 ⟨v, hv⟩
    have := con_exact .closed c h1 h2
    cases e : c.range (fun l => some (l.rng (· + 1) (· - 1))) with
    | none => rw [e] at this; exact absurd hv (this v)
    | some r =>
      rw [e] at this
      cases r with
      | concrete a b =>
        have hab := (this.2 v).2 hv
        simp only [Rng.contains] at hab
        refine ⟨a, b, rfl, (this.2 a).1 ⟨by omega, by omega⟩, (this.2 b).1 ⟨by omega, by omega⟩, fun w hw => (this.2 w).2 hw⟩
      | _ => exact absurd this.1 (fun h => h)
  induction c with
  | union c d ihc ihd =>
    obtain ⟨a1, b1, e1, h1, h2, h3⟩ := ihc h.1
    obtain ⟨a2, b2, e2, h4, h5, h6⟩ := ihd h.2
    refine ⟨min a1 a2, max b1 b2, ?_, ?_, ?_, ?_⟩
    · simp only [Con.range, e1, e2, Option.bind_eq_bind, Option.bind_some, uperUnion]
    · simp only [Con.Sat]
      rcases Int.le_total a1 a2 with hh | hh
      · rw [Int.min_eq_left hh]; exact .inl h1
      · rw [Int.min_eq_right hh]; exact .inr h4
    · simp only [Con.Sat]
      rcases Int.le_total b1 b2 with hh | hh
      · rw [Int.max_eq_right hh]; exact .inr h5
      · rw [Int.max_eq_left hh]; exact .inl h2
    · intro v hv
      rcases hv with hv | hv
      · have := h3 v hv; omega
      · have := h6 v hv; omega
  | leaf l => exact base _ h.1 h.2.1 h.2.2
  | inter c d _ _ => exact base _ h.1 h.2.1 h.2.2
  | allExcept => exact absurd h.1 (fun h => h)
  | except => exact absurd h.1 (fun h => h)
  | root => exact absurd h.1 (fun h => h)
  | root2 => exact absurd h.1 (fun h => h)

/-- C60 for a union of constraints without unions, each of which some value satisfies: the bounds of the computed range are the
smallest and the largest value that satisfies the union. Missing: as in `C60_partial`. -/
theorem C60_union_partial (c : Con RLeaf) (h : c.UnionOfInter) :
    ∃ a b, intRange [c] = some (.concrete a b) ∧ IntSat [c] a ∧ IntSat [c] b ∧ ∀ v, IntSat [c] v → a ≤ v ∧ v ≤ b := by
  obtain ⟨a, b, e, h1, h2, h3⟩ := union_exact c h
  refine ⟨a, b, ?_, ?_, ?_, ?_⟩
  · simp only [intRange, serialRange, e, Option.bind_eq_bind, Option.bind_some, uperIntersection_full]
  · simpa [IntSat] using h1
  · simpa [IntSat] using h2
  · intro v hv
    exact h3 v (hv c (by simp))

/-- `INTEGER (0..3 | 10 | 5<..8)`. -/
example : (Con.union (.leaf (.range 0 3 true true)) (.union (.leaf (.single 10)) (.leaf (.range 5 8 false true)))).UnionOfInter := by
  refine ⟨⟨trivial, trivial, 2, ?_⟩, ⟨trivial, trivial, 10, ?_⟩, ⟨trivial, trivial, 7, ?_⟩⟩ <;> simp [Con.Sat, RLeaf.Sat]

/-- The code violates C60: the range of `INTEGER (0..MAX) (10..20)` is 0..MAX, so that the value is written with a length octet
instead of the four bits that X.691 prescribes for 10..20. -/
theorem C60_violation_max :
    intRange [.leaf (.valMax 0 true), .leaf (.range 10 20 true true)] = some (.posInf 0) ∧
    ∀ v, IntSat [.leaf (.valMax 0 true), .leaf (.range 10 20 true true)] v ↔ 10 ≤ v ∧ v ≤ 20 := by
  refine ⟨rfl, fun v => ?_⟩
  simp only [IntSat, List.mem_cons, List.not_mem_nil, or_false, forall_eq_or_imp, forall_eq, Con.Sat, RLeaf.Sat]
  simp only [if_true]
  omega

/-- The code violates C60: the range of `INTEGER (0..16 EXCEPT 16)` is 0..16 (five bits) instead of 0..15 (four bits). -/
theorem C60_violation_except :
    intRange [.except (.leaf (.range 0 16 true true)) (.leaf (.single 16))] = some (.concrete 0 16) ∧
    ∀ v, IntSat [.except (.leaf (.range 0 16 true true)) (.leaf (.single 16))] v ↔ 0 ≤ v ∧ v ≤ 15 := by
  refine ⟨rfl, fun v => ?_⟩
  simp only [IntSat, List.mem_cons, List.not_mem_nil, or_false, forall_eq, Con.Sat, RLeaf.Sat]
  simp only [if_true]
  omega

end Asn1
