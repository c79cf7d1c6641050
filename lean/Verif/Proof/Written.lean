import Verif.Spec.Written
import Verif.Proof.NotationCon
/-!
# Lemmas for C99
-/
namespace Asn1

/-- What is left after both steps. -/
def keepOf (o : Option SC) : List XC := match o with
  | none => []
  | some k => fixCon k

theorem keptCons_some {s : SC} {cs : List XC} (h : keptCons s = some cs) : ∃ o, parseCon s = some o ∧ cs = keepOf o := by
  unfold keptCons at h
  cases hp : parseCon s with
  | none => rw [hp] at h; simp at h
  | some o =>
    rw [hp] at h
    refine ⟨o, rfl, ?_⟩
    cases o <;> simpa [keepOf] using h.symm

/-! ## Merging -/

theorem interAll_sat (c : XC) (cs : List XC) (t : NTy) (a : AV) : (interAll c cs).Sat t a ↔ ∀ x ∈ c :: cs, x.Sat t a := by
  unfold interAll
  induction cs generalizing c with
  | nil => simp
  | cons d ds ih => rw [List.foldl_cons, ih]; simp [XC.Sat, and_assoc]

theorem interAll_char (c : XC) (cs : List XC) (ch : Byte) : (interAll c cs).CharSat ch ↔ ∀ x ∈ c :: cs, x.CharSat ch := by
  unfold interAll
  induction cs generalizing c with
  | nil => simp
  | cons d ds ih => rw [List.foldl_cons, ih]; simp [XC.CharSat, and_assoc]

theorem namedAll_sat (nm : String) (m : Mark) (cs : List XC) (rest : XCs) (t : NTy) (a : AV) :
    (namedAll nm m cs rest).Sat t a ↔
      (∀ c ∈ cs, ∃ i u, t.IsPart nm i u ∧ m.Sat (a.part i) ∧ ∀ x, a.part i = some x → c.Sat u x) ∧ rest.Sat t a := by
  induction cs with
  | nil => simp [namedAll]
  | cons c cs ih => rw [namedAll, XCs.Sat, ih]; simp [and_assoc]

theorem merge1_eq_nil {f : XC → XC} {l : List XC} : merge1 f l = [] ↔ l = [] := by cases l <;> simp [merge1]
theorem merge2_eq_nil {f : XC → XC → XC} {l m : List XC} : merge2 f l m = [] ↔ l = [] ∧ m = [] := by
  cases l <;> cases m <;> simp [merge2]

/-! ## When nothing is left -/

theorem parse_open : ∀ (s : SC) (o : Option SC), parseCon s = some o → (s.Open = true ↔ o = none)
  | .single v, o, h => by simp [parseCon] at h; subst h; simp [SC.Open]
  | .range v1 v2 i j, o, h => by
    simp [parseCon] at h; obtain ⟨_, rfl⟩ := h; simp [SC.Open]
  | .valMax v1 i, o, h => by simp [parseCon] at h; subst h; simp [SC.Open]
  | .minVal v2 j, o, h => by simp [parseCon] at h; subst h; simp [SC.Open]
  | .minMax, o, h => by simp [parseCon] at h; subst h; simp [SC.Open]
  | .includes cons, o, h => by simp [parseCon] at h; obtain ⟨_, _, rfl⟩ := h; simp [SC.Open]
  | .size c, o, h => by
    simp [parseCon] at h; obtain ⟨o', h1, rfl⟩ := h
    simp [SC.Open, parse_open c o' h1]
  | .alphabet c, o, h => by
    simp [parseCon] at h; obtain ⟨o', h1, rfl⟩ := h
    simp [SC.Open, parse_open c o' h1]
  | .component c, o, h => by
    simp [parseCon] at h; obtain ⟨o', h1, rfl⟩ := h
    simp [SC.Open, parse_open c o' h1]
  | .root c, o, h => by
    simp [parseCon] at h; obtain ⟨o', h1, rfl⟩ := h
    simp [SC.Open, parse_open c o' h1]
  | .union c d, o, h => by
    simp only [parseCon, Option.bind_eq_bind, Option.bind_eq_some_iff] at h
    obtain ⟨x, hx, y, hy, h⟩ := h
    simp only [SC.Open, Bool.or_eq_true, parse_open c x hx, parse_open d y hy]
    cases x <;> cases y <;> simp at h <;> subst h <;> simp
  | .inter c d, o, h => by
    simp only [parseCon, Option.bind_eq_bind, Option.bind_eq_some_iff] at h
    obtain ⟨x, hx, y, hy, h⟩ := h
    simp only [SC.Open, Bool.and_eq_true, parse_open c x hx, parse_open d y hy]
    cases x <;> cases y <;> simp at h <;> subst h <;> simp
  | .allExcept c, o, h => by
    simp only [parseCon, Option.bind_eq_bind, Option.bind_eq_some_iff] at h
    obtain ⟨x, hx, h⟩ := h
    cases x <;> simp at h
    subst h; simp [SC.Open]
  | .except c d, o, h => by
    simp only [parseCon, Option.bind_eq_bind, Option.bind_eq_some_iff] at h
    obtain ⟨x, hx, y, hy, h⟩ := h
    cases x <;> cases y <;> simp at h <;> subst h <;> simp [SC.Open]
  | .root2 c d, o, h => by
    simp only [parseCon, Option.bind_eq_bind, Option.bind_eq_some_iff] at h
    obtain ⟨x, hx, y, hy, h⟩ := h
    cases x <;> cases y <;> simp at h <;> subst h <;> simp [SC.Open]
  | .components ncs, o, h => by simp [parseCon] at h; obtain ⟨_, _, rfl⟩ := h; simp [SC.Open]

mutual
theorem solid_regular : ∀ s : SC, s.Solid → s.Regular
  | .single _, _ => trivial
  | .range _ _ _ _, _ => trivial
  | .valMax _ _, _ => trivial
  | .minVal _ _, _ => trivial
  | .minMax, _ => trivial
  | .includes cons, h => by
    simp only [SC.Solid] at h
    exact solids_regular cons h.2
  | .size c, h => solid_regular c h
  | .alphabet c, h => solid_regular c h
  | .component c, h => solid_regular c h
  | .root c, h => solid_regular c h
  | .union _ _, h => h
  | .inter c d, h => ⟨solid_regular c h.1, solid_regular d h.2⟩
  | .allExcept _, h => h
  | .except c _, h => ⟨solid_regular c h.1, h.2⟩
  | .root2 _ _, h => h
  | .components _, h => h
theorem solids_regular : ∀ l : SCs, l.Solid → l.Regular
  | .nil, _ => trivial
  | .cons c rest, h => ⟨solid_regular c h.1, solids_regular rest h.2⟩
end

mutual
theorem solid_ne : ∀ (s : SC) (k : SC), parseCon s = some (some k) → s.Solid → fixCon k ≠ []
  | .single v, k, h, _ => by simp [parseCon] at h; subst h; simp [fixCon]
  | .range v1 v2 i j, k, h, _ => by simp [parseCon] at h; obtain ⟨_, rfl⟩ := h; simp [fixCon]
  | .valMax v1 i, k, h, _ => by simp [parseCon] at h; subst h; simp [fixCon]
  | .minVal v2 j, k, h, _ => by simp [parseCon] at h; subst h; simp [fixCon]
  | .minMax, k, h, _ => by simp [parseCon] at h
  | .includes cons, k, h, hs => by
    simp [parseCon] at h; obtain ⟨l, h1, rfl⟩ := h
    simp only [SC.Solid] at hs
    rw [fixCon]
    exact solids_ne cons l h1 hs.2 hs.1
  | .size c, k, h, hs => by
    simp [parseCon] at h; obtain ⟨k', h1, rfl⟩ := h
    simp [fixCon, merge1_eq_nil, solid_ne c k' h1 hs]
  | .alphabet c, k, h, hs => by
    simp [parseCon] at h; obtain ⟨k', h1, rfl⟩ := h
    simp [fixCon, merge1_eq_nil, solid_ne c k' h1 hs]
  | .component c, k, h, hs => by
    simp [parseCon] at h; obtain ⟨k', h1, rfl⟩ := h
    simp [fixCon, merge1_eq_nil, solid_ne c k' h1 hs]
  | .root c, k, h, hs => by
    simp [parseCon] at h; obtain ⟨k', h1, rfl⟩ := h
    simp [fixCon, merge1_eq_nil, solid_ne c k' h1 hs]
  | .union c d, k, h, hs => by
    simp only [parseCon, Option.bind_eq_bind, Option.bind_eq_some_iff] at h
    obtain ⟨x, hx, y, hy, h⟩ := h
    cases x <;> cases y <;> simp at h
    subst h
    simp [fixCon, merge2_eq_nil, solid_ne c _ hx hs.1]
  | .inter c d, k, h, hs => by
    simp only [parseCon, Option.bind_eq_bind, Option.bind_eq_some_iff] at h
    obtain ⟨x, hx, y, hy, h⟩ := h
    cases x <;> cases y <;> simp at h <;> subst h
    · exact solid_ne d _ hy hs.2
    · exact solid_ne c _ hx hs.1
    · simp [fixCon, merge2_eq_nil, solid_ne c _ hx hs.1]
  | .allExcept c, k, h, hs => by
    simp only [parseCon, Option.bind_eq_bind, Option.bind_eq_some_iff] at h
    obtain ⟨x, hx, h⟩ := h
    cases x <;> simp at h
    subst h
    simp [fixCon, merge1_eq_nil, solid_ne c _ hx hs]
  | .except c d, k, h, hs => by
    simp only [parseCon, Option.bind_eq_bind, Option.bind_eq_some_iff] at h
    obtain ⟨x, hx, y, hy, h⟩ := h
    cases x <;> cases y <;> simp at h <;> subst h
    · simp [fixCon, merge1_eq_nil, solid_ne d _ hy hs.2]
    · have h1 := solid_ne c _ hx hs.1
      have h2 := solid_ne d _ hy hs.2
      rw [fixCon]
      split <;> simp_all [merge2_eq_nil]
  | .root2 c d, k, h, hs => by
    simp only [parseCon, Option.bind_eq_bind, Option.bind_eq_some_iff] at h
    obtain ⟨x, hx, y, hy, h⟩ := h
    cases x <;> cases y <;> simp at h <;> subst h
    · simp [fixCon, merge1_eq_nil, solid_ne c _ hx hs.1]
    · simp [fixCon, merge2_eq_nil, solid_ne c _ hx hs.1]
  | .components ncs, k, h, hs => by
    simp [parseCon] at h; obtain ⟨l, h1, rfl⟩ := h
    simp [fixCon]
theorem solids_ne : ∀ (l : SCs) (l' : SCs), parseCons l = some l' → l.Solid → l.SomeClosed → fixCons l' ≠ []
  | .nil, _, _, _, h => absurd h id
  | .cons c rest, l', h, hs, hc => by
    simp only [parseCons, Option.bind_eq_bind, Option.bind_eq_some_iff] at h
    obtain ⟨x, hx, xs, hxs, h⟩ := h
    cases x with
    | none =>
      simp at h; subst h
      have : c.Open = true := (parse_open c _ hx).2 rfl
      rcases hc with h1 | h1
      · rw [this] at h1; cases h1
      · exact solids_ne rest _ hxs hs.2 h1
    | some k =>
      simp at h; subst h
      rw [fixCons]
      intro h0
      exact solid_ne c k hx hs.1 (List.append_eq_nil_iff.1 h0).1
end

/-! ## Characters -/

theorem keep1_char {f : XC → XC} {ch : Byte} (hf : ∀ x, (f x).CharSat ch ↔ x.CharSat ch) (l : List XC) :
    (∀ c ∈ merge1 f l, c.CharSat ch) ↔ ∀ c ∈ l, c.CharSat ch := by
  cases l with
  | nil => simp [merge1]
  | cons x xs => simp only [merge1, List.mem_singleton, forall_eq, hf, interAll_char]

theorem not1_char {ch : Byte} {l : List XC} (hl : l ≠ []) :
    (∀ c ∈ merge1 .allExcept l, c.CharSat ch) ↔ ¬ ∀ c ∈ l, c.CharSat ch := by
  cases l with
  | nil => exact absurd rfl hl
  | cons x xs => simp only [merge1, List.mem_singleton, forall_eq, XC.CharSat, interAll_char]

theorem or2_char {f : XC → XC → XC} {ch : Byte} (hf : ∀ x y, (f x y).CharSat ch ↔ x.CharSat ch ∨ y.CharSat ch) {l m : List XC} (hl : l ≠ []) (hm : m ≠ []) :
    (∀ c ∈ merge2 f l m, c.CharSat ch) ↔ (∀ c ∈ l, c.CharSat ch) ∨ ∀ c ∈ m, c.CharSat ch := by
  cases l with
  | nil => exact absurd rfl hl
  | cons x xs =>
    cases m with
    | nil => exact absurd rfl hm
    | cons y ys => simp only [merge2, List.mem_singleton, forall_eq, hf, interAll_char]

theorem and2_char {ch : Byte} (l m : List XC) :
    (∀ c ∈ merge2 .inter l m, c.CharSat ch) ↔ (∀ c ∈ l, c.CharSat ch) ∧ ∀ c ∈ m, c.CharSat ch := by
  cases l with
  | nil => cases m <;> simp [merge2]
  | cons x xs =>
    cases m with
    | nil => simp [merge2]
    | cons y ys => simp only [merge2, List.mem_singleton, forall_eq, XC.CharSat, interAll_char]

theorem except2_char {ch : Byte} {a b : SC} (hb : fixCon b ≠ []) :
    (∀ c ∈ fixCon (.except a b), c.CharSat ch) ↔ (∀ c ∈ fixCon a, c.CharSat ch) ∧ ¬ ∀ c ∈ fixCon b, c.CharSat ch := by
  rw [fixCon]
  cases hl : fixCon a with
  | nil =>
    cases hm : fixCon b with
    | nil => exact absurd hm hb
    | cons y ys => rw [not1_char (by simp)]; simp
  | cons x xs =>
    cases hm : fixCon b with
    | nil => exact absurd hm hb
    | cons y ys => simp only [merge2, List.mem_singleton, forall_eq, XC.CharSat, interAll_char]

mutual
theorem kept_char : ∀ (s : SC) (o : Option SC), parseCon s = some o → s.Regular → s.CharSuits → ∀ ch,
    ((∀ c ∈ keepOf o, c.CharSat ch) ↔ s.CharSat ch)
  | .single v, o, h, _, _, ch => by simp [parseCon] at h; subst h; simp [keepOf, fixCon, XC.CharSat, SC.CharSat]
  | .range v1 v2 i j, o, h, _, _, ch => by
    simp [parseCon] at h; obtain ⟨_, rfl⟩ := h; simp [keepOf, fixCon, XC.CharSat, SC.CharSat]
  | .valMax v1 i, o, h, _, _, ch => by simp [parseCon] at h; subst h; simp [keepOf, fixCon, XC.CharSat, SC.CharSat]
  | .minVal v2 j, o, h, _, _, ch => by simp [parseCon] at h; subst h; simp [keepOf, fixCon, XC.CharSat, SC.CharSat]
  | .minMax, o, h, _, _, ch => by simp [parseCon] at h; subst h; simp [keepOf, SC.CharSat]
  | .includes cons, o, h, hr, hs, ch => by
    simp [parseCon] at h; obtain ⟨l, h1, rfl⟩ := h
    simp only [keepOf, fixCon, SC.CharSat]
    exact kepts_char cons l h1 hr hs ch
  | .root c, o, h, hr, hs, ch => by
    simp [parseCon] at h; obtain ⟨o', h1, rfl⟩ := h
    have ih := kept_char c o' h1 hr hs ch
    cases o' with
    | none => simpa [keepOf, SC.CharSat] using ih
    | some k =>
      simp only [Option.map_some, keepOf, fixCon, SC.CharSat] at ih ⊢
      rw [keep1_char (fun x => by simp [XC.CharSat]), ih]
  | .union c d, o, h, hr, hs, ch => by
    simp only [parseCon, Option.bind_eq_bind, Option.bind_eq_some_iff] at h
    obtain ⟨x, hx, y, hy, h⟩ := h
    have ih1 := kept_char c x hx (solid_regular c hr.1) hs.1 ch
    have ih2 := kept_char d y hy (solid_regular d hr.2) hs.2 ch
    simp only [SC.CharSat, ← ih1, ← ih2]
    cases x <;> cases y <;> simp at h <;> subst h
    · simp [keepOf]
    · simp [keepOf]
    · simp [keepOf]
    · simp only [keepOf, fixCon]
      exact or2_char (fun x y => by simp [XC.CharSat]) (solid_ne c _ hx hr.1) (solid_ne d _ hy hr.2)
  | .inter c d, o, h, hr, hs, ch => by
    simp only [parseCon, Option.bind_eq_bind, Option.bind_eq_some_iff] at h
    obtain ⟨x, hx, y, hy, h⟩ := h
    have ih1 := kept_char c x hx hr.1 hs.1 ch
    have ih2 := kept_char d y hy hr.2 hs.2 ch
    simp only [SC.CharSat, ← ih1, ← ih2]
    cases x <;> cases y <;> simp at h <;> subst h
    · simp [keepOf]
    · simp [keepOf]
    · simp [keepOf]
    · simp only [keepOf, fixCon]
      exact and2_char _ _
  | .allExcept c, o, h, hr, hs, ch => by
    simp only [parseCon, Option.bind_eq_bind, Option.bind_eq_some_iff] at h
    obtain ⟨x, hx, h⟩ := h
    have ih := kept_char c x hx (solid_regular c hr) hs ch
    cases x <;> simp at h
    subst h
    simp only [keepOf, fixCon, SC.CharSat, ← ih]
    exact not1_char (solid_ne c _ hx hr)
  | .except c d, o, h, hr, hs, ch => by
    simp only [parseCon, Option.bind_eq_bind, Option.bind_eq_some_iff] at h
    obtain ⟨x, hx, y, hy, h⟩ := h
    have ih1 := kept_char c x hx hr.1 hs.1 ch
    have ih2 := kept_char d y hy (solid_regular d hr.2) hs.2 ch
    simp only [SC.CharSat, ← ih1, ← ih2]
    cases x <;> cases y <;> simp at h <;> subst h
    · simp only [keepOf, fixCon]
      rw [not1_char (solid_ne d _ hy hr.2)]
      simp
    · simp only [keepOf]
      exact except2_char (solid_ne d _ hy hr.2)
  | .root2 c d, o, h, hr, hs, ch => by
    simp only [parseCon, Option.bind_eq_bind, Option.bind_eq_some_iff] at h
    obtain ⟨x, hx, y, hy, h⟩ := h
    have ih1 := kept_char c x hx (solid_regular c hr.1) hs.1 ch
    have ih2 := kept_char d y hy (solid_regular d hr.2.1) hs.2 ch
    have ho := parse_open d y hy
    rw [hr.2.2] at ho
    simp only [SC.CharSat, ← ih1, ← ih2]
    cases x <;> cases y <;> simp at h <;> subst h
    · simp at ho
    · simp only [keepOf, fixCon]
      exact or2_char (fun x y => by simp [XC.CharSat]) (solid_ne c _ hx hr.1) (solid_ne d _ hy hr.2.1)
  | .size _, _, _, _, hs, _ => absurd hs id
  | .alphabet _, _, _, _, hs, _ => absurd hs id
  | .component _, _, _, _, hs, _ => absurd hs id
  | .components _, _, _, _, hs, _ => absurd hs id
theorem kepts_char : ∀ (l : SCs) (l' : SCs), parseCons l = some l' → l.Regular → l.CharSuits → ∀ ch,
    ((∀ c ∈ fixCons l', c.CharSat ch) ↔ l.CharSat ch)
  | .nil, _, h, _, _, ch => by simp [parseCons] at h; subst h; simp [fixCons, SCs.CharSat]
  | .cons c rest, l', h, hr, hs, ch => by
    simp only [parseCons, Option.bind_eq_bind, Option.bind_eq_some_iff] at h
    obtain ⟨x, hx, xs, hxs, h⟩ := h
    have ih1 := kept_char c x hx hr.1 hs.1 ch
    have ih2 := kepts_char rest xs hxs hr.2 hs.2 ch
    simp only [SCs.CharSat, ← ih1, ← ih2]
    cases x <;> simp at h <;> subst h
    · simp [keepOf]
    · simp only [keepOf, fixCons, List.mem_append]
      exact ⟨fun h => ⟨fun c hc => h c (.inl hc), fun c hc => h c (.inr hc)⟩, fun h c hc => hc.elim (h.1 c) (h.2 c)⟩
end

/-! ## Values -/

theorem keep1_sat {f : XC → XC} {t : NTy} {a : AV} (hf : ∀ x, (f x).Sat t a ↔ x.Sat t a) (l : List XC) :
    (∀ c ∈ merge1 f l, c.Sat t a) ↔ ∀ c ∈ l, c.Sat t a := by
  cases l with
  | nil => simp [merge1]
  | cons x xs => simp only [merge1, List.mem_singleton, forall_eq, hf, interAll_sat]

theorem not1_sat {t : NTy} {a : AV} {l : List XC} (hl : l ≠ []) :
    (∀ c ∈ merge1 .allExcept l, c.Sat t a) ↔ ¬ ∀ c ∈ l, c.Sat t a := by
  cases l with
  | nil => exact absurd rfl hl
  | cons x xs => simp only [merge1, List.mem_singleton, forall_eq, XC.Sat, interAll_sat]

theorem or2_sat {f : XC → XC → XC} {t : NTy} {a : AV} (hf : ∀ x y, (f x y).Sat t a ↔ x.Sat t a ∨ y.Sat t a) {l m : List XC} (hl : l ≠ []) (hm : m ≠ []) :
    (∀ c ∈ merge2 f l m, c.Sat t a) ↔ (∀ c ∈ l, c.Sat t a) ∨ ∀ c ∈ m, c.Sat t a := by
  cases l with
  | nil => exact absurd rfl hl
  | cons x xs =>
    cases m with
    | nil => exact absurd rfl hm
    | cons y ys => simp only [merge2, List.mem_singleton, forall_eq, hf, interAll_sat]

theorem and2_sat {t : NTy} {a : AV} (l m : List XC) :
    (∀ c ∈ merge2 .inter l m, c.Sat t a) ↔ (∀ c ∈ l, c.Sat t a) ∧ ∀ c ∈ m, c.Sat t a := by
  cases l with
  | nil => cases m <;> simp [merge2]
  | cons x xs =>
    cases m with
    | nil => simp [merge2]
    | cons y ys => simp only [merge2, List.mem_singleton, forall_eq, XC.Sat, interAll_sat]

theorem except2_sat {t : NTy} {v : AV} {a b : SC} (hb : fixCon b ≠ []) :
    (∀ c ∈ fixCon (.except a b), c.Sat t v) ↔ (∀ c ∈ fixCon a, c.Sat t v) ∧ ¬ ∀ c ∈ fixCon b, c.Sat t v := by
  rw [fixCon]
  cases hl : fixCon a with
  | nil =>
    cases hm : fixCon b with
    | nil => exact absurd hm hb
    | cons y ys => rw [not1_sat (by simp)]; simp
  | cons x xs =>
    cases hm : fixCon b with
    | nil => exact absurd hm hb
    | cons y ys => simp only [merge2, List.mem_singleton, forall_eq, XC.Sat, interAll_sat]

mutual
theorem kept_sat : ∀ (s : SC) (o : Option SC), parseCon s = some o → s.Regular → ∀ (t : NTy) (a : AV), t.Distinct → s.Suits t a →
    ((∀ c ∈ keepOf o, c.Sat t a) ↔ s.Sat t a)
  | .single v, o, h, _, t, a, _, _ => by simp [parseCon] at h; subst h; simp [keepOf, fixCon, XC.Sat, SC.Sat]
  | .range v1 v2 i j, o, h, _, t, a, _, _ => by
    simp [parseCon] at h; obtain ⟨_, rfl⟩ := h; simp [keepOf, fixCon, XC.Sat, SC.Sat]
  | .valMax v1 i, o, h, _, t, a, _, _ => by simp [parseCon] at h; subst h; simp [keepOf, fixCon, XC.Sat, SC.Sat]
  | .minVal v2 j, o, h, _, t, a, _, _ => by simp [parseCon] at h; subst h; simp [keepOf, fixCon, XC.Sat, SC.Sat]
  | .minMax, o, h, _, t, a, _, _ => by simp [parseCon] at h; subst h; simp [keepOf, SC.Sat]
  | .includes cons, o, h, hr, t, a, hd, hs => by
    simp [parseCon] at h; obtain ⟨l, h1, rfl⟩ := h
    simp only [keepOf, fixCon, SC.Sat]
    exact kepts_sat cons l h1 hr t a hd hs
  | .size c, o, h, hr, t, a, hd, hs => by
    simp [parseCon] at h; obtain ⟨o', h1, rfl⟩ := h
    obtain ⟨n, hn, hs⟩ := hs
    have ih := kept_sat c o' h1 hr (.int []) (.int n) (by simp [NTy.Distinct]) hs
    have hrhs : SC.Sat (.size c) t a ↔ c.Sat (.int []) (.int n) := by
      simp only [SC.Sat]
      constructor
      · rintro ⟨m, hm, h⟩; rw [hn] at hm; cases hm; exact h
      · exact fun h => ⟨n, hn, h⟩
    rw [hrhs, ← ih]
    cases o' with
    | none => simp [keepOf]
    | some k =>
      simp only [Option.map_some, keepOf, fixCon]
      cases hk : fixCon k with
      | nil => simp [merge1]
      | cons x xs =>
        simp only [merge1, List.mem_singleton, forall_eq, XC.Sat]
        constructor
        · rintro ⟨m, hm, h⟩
          rw [hn] at hm; cases hm
          exact (interAll_sat x xs _ _).1 h
        · exact fun h => ⟨n, hn, (interAll_sat x xs _ _).2 h⟩
  | .alphabet c, o, h, hr, t, a, hd, hs => by
    simp [parseCon] at h; obtain ⟨o', h1, rfl⟩ := h
    obtain ⟨⟨l, rfl⟩, hs⟩ := hs
    have ih := fun ch => kept_char c o' h1 hr hs ch
    have hrhs : SC.Sat (.alphabet c) t (.str l) ↔ ∀ ch ∈ l, c.CharSat ch := by
      simp only [SC.Sat]
      constructor
      · rintro ⟨m, hm, h⟩; cases hm; exact h
      · exact fun h => ⟨l, rfl, h⟩
    rw [hrhs]
    simp only [← ih]
    cases o' with
    | none => simp [keepOf]
    | some k =>
      simp only [Option.map_some, keepOf, fixCon]
      cases hk : fixCon k with
      | nil => simp [merge1]
      | cons x xs =>
        simp only [merge1, List.mem_singleton, forall_eq, XC.Sat]
        constructor
        · rintro ⟨m, hm, h⟩
          cases hm
          exact fun ch hch => (interAll_char x xs ch).1 (h ch hch)
        · exact fun h => ⟨l, rfl, fun ch hch => (interAll_char x xs ch).2 (h ch hch)⟩
  | .component c, o, h, hr, t, a, hd, hs => by
    simp [parseCon] at h; obtain ⟨o', h1, rfl⟩ := h
    obtain ⟨e, l, he, rfl, hs⟩ := hs
    have ih := fun x hx => kept_sat c o' h1 hr e x (NTy.isElement_distinct hd he) (hs x hx)
    have huniq : ∀ e', t.IsElement e' → e' = e := fun e' h' => by
      unfold NTy.IsElement at he h'
      split at h' <;> simp_all
    have hrhs : SC.Sat (.component c) t (.seqOf l) ↔ ∀ x ∈ l, c.Sat e x := by
      simp only [SC.Sat]
      constructor
      · rintro ⟨e', m, he', hm, h⟩; cases hm; cases huniq e' he'; exact h
      · exact fun h => ⟨e, l, he, rfl, h⟩
    rw [hrhs]
    cases o' with
    | none =>
      simp only [Option.map_none, keepOf, List.not_mem_nil, false_imp_iff, implies_true, true_iff] at ih ⊢
      exact ih
    | some k =>
      simp only [Option.map_some, keepOf, fixCon] at ih ⊢
      cases hk : fixCon k with
      | nil =>
        rw [hk] at ih
        simp only [merge1, List.not_mem_nil, false_imp_iff, implies_true, true_iff] at ih ⊢
        exact ih
      | cons x xs =>
        rw [hk] at ih
        simp only [merge1, List.mem_singleton, forall_eq, XC.Sat]
        constructor
        · rintro ⟨e', m, he', hm, h⟩
          cases hm; cases huniq e' he'
          exact fun y hy => (ih y hy).1 ((interAll_sat x xs _ _).1 (h y hy))
        · exact fun h => ⟨e, l, he, rfl, fun y hy => (interAll_sat x xs _ _).2 ((ih y hy).2 (h y hy))⟩
  | .root c, o, h, hr, t, a, hd, hs => by
    simp [parseCon] at h; obtain ⟨o', h1, rfl⟩ := h
    have ih := kept_sat c o' h1 hr t a hd hs
    cases o' with
    | none => simpa [keepOf, SC.Sat] using ih
    | some k =>
      simp only [Option.map_some, keepOf, fixCon, SC.Sat] at ih ⊢
      rw [keep1_sat (fun x => by simp [XC.Sat]), ih]
  | .union c d, o, h, hr, t, a, hd, hs => by
    simp only [parseCon, Option.bind_eq_bind, Option.bind_eq_some_iff] at h
    obtain ⟨x, hx, y, hy, h⟩ := h
    have ih1 := kept_sat c x hx (solid_regular c hr.1) t a hd hs.1
    have ih2 := kept_sat d y hy (solid_regular d hr.2) t a hd hs.2
    simp only [SC.Sat, ← ih1, ← ih2]
    cases x <;> cases y <;> simp at h <;> subst h
    · simp [keepOf]
    · simp [keepOf]
    · simp [keepOf]
    · simp only [keepOf, fixCon]
      exact or2_sat (fun x y => by simp [XC.Sat]) (solid_ne c _ hx hr.1) (solid_ne d _ hy hr.2)
  | .inter c d, o, h, hr, t, a, hd, hs => by
    simp only [parseCon, Option.bind_eq_bind, Option.bind_eq_some_iff] at h
    obtain ⟨x, hx, y, hy, h⟩ := h
    have ih1 := kept_sat c x hx hr.1 t a hd hs.1
    have ih2 := kept_sat d y hy hr.2 t a hd hs.2
    simp only [SC.Sat, ← ih1, ← ih2]
    cases x <;> cases y <;> simp at h <;> subst h
    · simp [keepOf]
    · simp [keepOf]
    · simp [keepOf]
    · simp only [keepOf, fixCon]
      exact and2_sat _ _
  | .allExcept c, o, h, hr, t, a, hd, hs => by
    simp only [parseCon, Option.bind_eq_bind, Option.bind_eq_some_iff] at h
    obtain ⟨x, hx, h⟩ := h
    have ih := kept_sat c x hx (solid_regular c hr) t a hd hs
    cases x <;> simp at h
    subst h
    simp only [keepOf, fixCon, SC.Sat, ← ih]
    exact not1_sat (solid_ne c _ hx hr)
  | .except c d, o, h, hr, t, a, hd, hs => by
    simp only [parseCon, Option.bind_eq_bind, Option.bind_eq_some_iff] at h
    obtain ⟨x, hx, y, hy, h⟩ := h
    have ih1 := kept_sat c x hx hr.1 t a hd hs.1
    have ih2 := kept_sat d y hy (solid_regular d hr.2) t a hd hs.2
    simp only [SC.Sat, ← ih1, ← ih2]
    cases x <;> cases y <;> simp at h <;> subst h
    · simp only [keepOf, fixCon]
      rw [not1_sat (solid_ne d _ hy hr.2)]
      simp
    · simp only [keepOf]
      exact except2_sat (solid_ne d _ hy hr.2)
  | .root2 c d, o, h, hr, t, a, hd, hs => by
    simp only [parseCon, Option.bind_eq_bind, Option.bind_eq_some_iff] at h
    obtain ⟨x, hx, y, hy, h⟩ := h
    have ih1 := kept_sat c x hx (solid_regular c hr.1) t a hd hs.1
    have ih2 := kept_sat d y hy (solid_regular d hr.2.1) t a hd hs.2
    have ho := parse_open d y hy
    rw [hr.2.2] at ho
    simp only [SC.Sat, ← ih1, ← ih2]
    cases x <;> cases y <;> simp at h <;> subst h
    · simp at ho
    · simp only [keepOf, fixCon]
      exact or2_sat (fun x y => by simp [XC.Sat]) (solid_ne c _ hx hr.1) (solid_ne d _ hy hr.2.1)
  | .components ncs, o, h, hr, t, a, hd, hs => by
    simp [parseCon] at h; obtain ⟨l, h1, rfl⟩ := h
    simp only [keepOf, fixCon, SC.Sat, List.mem_singleton, forall_eq, XC.Sat]
    exact keptNamed_sat ncs l h1 hr t a hd hs
theorem kepts_sat : ∀ (l : SCs) (l' : SCs), parseCons l = some l' → l.Regular → ∀ (t : NTy) (a : AV), t.Distinct → l.Suits t a →
    ((∀ c ∈ fixCons l', c.Sat t a) ↔ l.Sat t a)
  | .nil, _, h, _, t, a, _, _ => by simp [parseCons] at h; subst h; simp [fixCons, SCs.Sat]
  | .cons c rest, l', h, hr, t, a, hd, hs => by
    simp only [parseCons, Option.bind_eq_bind, Option.bind_eq_some_iff] at h
    obtain ⟨x, hx, xs, hxs, h⟩ := h
    have ih1 := kept_sat c x hx hr.1 t a hd hs.1
    have ih2 := kepts_sat rest xs hxs hr.2 t a hd hs.2
    simp only [SCs.Sat, ← ih1, ← ih2]
    cases x <;> simp at h <;> subst h
    · simp [keepOf]
    · simp only [keepOf, fixCons, List.mem_append]
      exact ⟨fun h => ⟨fun c hc => h c (.inl hc), fun c hc => h c (.inr hc)⟩, fun h c hc => hc.elim (h.1 c) (h.2 c)⟩
theorem keptNamed_sat : ∀ (l : SNs) (l' : SNs), parseNamed l = some l' → l.Solid → ∀ (t : NTy) (a : AV), t.Distinct → l.Suits t a →
    ((fixNamed l').Sat t a ↔ l.Sat t a)
  | .nil, _, h, _, t, a, _, _ => by simp [parseNamed] at h; subst h; simp [fixNamed, SNs.Sat, XCs.Sat]
  | .bare nm m rest, l', h, hr, t, a, hd, hs => by
    simp [parseNamed] at h
    obtain ⟨xs, hxs, rfl⟩ := h
    simp only [fixNamed, XCs.Sat, SNs.Sat, keptNamed_sat rest xs hxs hr t a hd hs]
  | .cons nm m c rest, l', h, hr, t, a, hd, hs => by
    simp only [parseNamed, Option.bind_eq_bind, Option.bind_eq_some_iff] at h
    obtain ⟨x, hx, xs, hxs, h⟩ := h
    obtain ⟨⟨i, u, hp, hsu⟩, hs⟩ := hs
    have ih2 := keptNamed_sat rest xs hxs hr.2 t a hd hs
    have ih1 := fun y hy => kept_sat c x hx (solid_regular c hr.1) u y (NTy.isPart_distinct hd hp) (hsu y hy)
    have huniq : ∀ i' u', t.IsPart nm i' u' → i' = i ∧ u' = u := fun i' u' h' => NTy.isPart_unique hd h' hp
    have hex : ∀ P : Nat → NTy → Prop, (∃ i u, t.IsPart nm i u ∧ P i u) ↔ P i u := fun P =>
      ⟨fun ⟨i', u', h1, h2⟩ => by obtain ⟨rfl, rfl⟩ := huniq i' u' h1; exact h2, fun h => ⟨i, u, hp, h⟩⟩
    simp only [SNs.Sat]
    rw [hex fun i u => m.Sat (a.part i) ∧ ∀ x, a.part i = some x → c.Sat u x]
    cases x with
    | none =>
      simp at h; subst h
      simp only [fixNamed, XCs.Sat, ih2]
      rw [hex fun i u => m.Sat (a.part i)]
      simp only [keepOf, List.not_mem_nil, false_imp_iff, implies_true, true_iff] at ih1
      exact ⟨fun h => ⟨⟨h.1, ih1⟩, h.2⟩, fun h => ⟨h.1.1, h.2⟩⟩
    | some k =>
      simp at h; subst h
      simp only [fixNamed]
      rw [namedAll_sat, ih2]
      have hne := solid_ne c k hx hr.1
      have : (∀ c ∈ fixCon k, ∃ i u, t.IsPart nm i u ∧ m.Sat (a.part i) ∧ ∀ x, a.part i = some x → c.Sat u x) ↔
          m.Sat (a.part i) ∧ ∀ x, a.part i = some x → ∀ c ∈ fixCon k, c.Sat u x := by
        constructor
        · intro h
          have h' := fun c hc => (hex fun i u => m.Sat (a.part i) ∧ ∀ x, a.part i = some x → c.Sat u x).1 (h c hc)
          cases hk : fixCon k with
          | nil => exact absurd hk hne
          | cons y ys => 
            rw [hk] at h'
            exact ⟨(h' y (by simp)).1, fun x hx c hc => (h' c hc).2 x hx⟩
        · exact fun h c hc => ⟨i, u, hp, h.1, fun x hx => h.2 x hx c hc⟩
      rw [this]
      simp only [keepOf] at ih1
      exact and_congr_left fun _ => and_congr_right fun _ => forall_congr' fun y => forall_congr' fun hy => ih1 y hy
end

end Asn1
