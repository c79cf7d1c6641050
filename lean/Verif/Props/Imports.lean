import Verif.Proof.ImportsUnfold
import Verif.Proof.ImportsLegal
/-! # C104: which assignment a name means, across modules -/
namespace Asn1

/-- C104: in modules that are accepted, a reference in a type assignment leads to the assignment that it means; so does
one in the type of a value, if it does not have the name of a module from which there are imports. -/
theorem C104_meaning_partial {P : List IModule} {Q : List JModule} (h : resolveNames P = some Q) (hc : DistinctClauses P)
    {m : IModule} (hm : m ∈ P) {r : IRef} (hr : m.UsesInType r ∨ m.UsesInValue r ∧ ¬ r.Ambiguous m)
    {m' : IModule} {t : ITy} (hm' : m' ∈ P) (hd : TypeDenotes P (r.scope m) r.name m'.name) (ht : (r.name, t) ∈ m'.types)
    (k : Nat) : getType Q (k + 1) (refContent m r).1 (refContent m r).2 = some (toJ m' t) := by
  obtain ⟨rfl, ok⟩ := resolveNames_iff.1 h
  have he : (refContent m r).1 = m'.name := by
    rcases hr with h | ⟨h, ha⟩
    · exact ok.target_eq_type hc hm h hd
    · exact ok.target_eq hc hm (.inr h) ha hd
  rw [refContent_snd, he]
  exact getType_def ok hm' ht k

/-- C104: a name means at most one assignment, and a module has at most one assignment of a name. -/
theorem C104_unique_partial {P : List IModule} {Q : List JModule} (h : resolveNames P = some Q) (hc : DistinctClauses P) :
    (∀ M n D D', TypeDenotes P M n D → TypeDenotes P M n D' → D = D') ∧
    (∀ M v D D', ValueDenotes P M v D → ValueDenotes P M v D' → D = D') ∧
    ∀ M n t t', DefinesType P M n t → DefinesType P M n t' → t = t' := by
  obtain ⟨rfl, ok⟩ := resolveNames_iff.1 h
  refine ⟨fun _ _ _ _ => ok.denotes_unique hc, fun _ _ _ _ => ok.valueDenotes_unique hc, ?_⟩
  rintro M n t t' ⟨m, hm, e, ht⟩ h'
  exact (defines_unique ok hm e ht h').symm

/-- C104: in modules that are accepted, every reference means something, and so does every import; both are exported. -/
theorem C104_sound_partial {P : List IModule} {Q : List JModule} (h : resolveNames P = some Q) (hc : DistinctClauses P)
    {m : IModule} (hm : m ∈ P) :
    (∀ r, m.UsesInType r ∨ m.UsesInValue r → ¬ r.Ambiguous m →
      (∃ D, TypeDenotes P (r.scope m) r.name D) ∧ (r.scope m ≠ m.name → ExportsType P (r.scope m) r.name)) ∧
    (∀ i ∈ m.imports, (∀ n ∈ i.types, (∃ D, TypeDenotes P i.frm n D) ∧ ExportsType P i.frm n) ∧
      ∀ v ∈ i.values, (∃ D, ValueDenotes P i.frm v D) ∧ ExportsValue P i.frm v) := by
  obtain ⟨rfl, ok⟩ := resolveNames_iff.1 h
  exact ⟨fun r hr ha => ok.refs_legal hm hr ha, fun i hi => (ok.imports_legal hc hm hi).2⟩

/-- C104: the name of a value leads to the value assignment that it means. -/
theorem C104_values_partial {P : List IModule} {Q : List JModule} (h : resolveNames P = some Q) (hc : DistinctClauses P)
    {m : IModule} (hm : m ∈ P) (v : String) {D : String} (hd : ValueDenotes P m.name v D) (k : Nat) :
    getValue Q (k + 1) (valContent m v).1 (valContent m v).2 = some D := by
  obtain ⟨rfl, ok⟩ := resolveNames_iff.1 h
  exact ok.value_eq hc hm hd k

/-- C104: in modules that are accepted, following references ends: with a type that is no reference, and, when it goes on
with the parts of that type, with a type in which there are no references at all. -/
theorem C104_ends {P : List IModule} {Q : List JModule} (h : resolveNames P = some Q)
    {m : IModule} (hm : m ∈ P) {n : String} {t : ITy} (ht : (n, t) ∈ m.types ∨ (n, t) ∈ m.values) :
    ∃ u N, ∀ k, N ≤ k → expandJ Q k (toJ m t) = some u ∧ ∃ kids, getActualType Q k (toJ m t) = some (.node kids) := by
  obtain ⟨rfl, ok⟩ := resolveNames_iff.1 h
  obtain ⟨u, N, hu⟩ : ∃ u N, ∀ k, N ≤ k → expandJ (treeOf P) k (toJ m t) = some u :=
    ht.elim (ok.ends hm) (ok.ends_value hm)
  exact ⟨u, N, fun k hk => ⟨hu k hk, getActualType_of_expandJ k _ u (hu k hk)⟩⟩

/-- C104: a type assignment of modules that are accepted is one type without references (`Unfolds`), and that is what the
compiler builds. -/
theorem C104_unfolds_partial {P : List IModule} {Q : List JModule} (h : resolveNames P = some Q) (hc : DistinctClauses P)
    {m : IModule} (hm : m ∈ P) {n : String} {t : ITy} (ht : (n, t) ∈ m.types) :
    ((∀ m ∈ P, ∀ r, m.UsesInType r → ¬ r.Ambiguous m) → ∃ u, Unfolds P m t u) ∧
    ∀ u, Unfolds P m t u → ∃ N, ∀ k, N ≤ k → expandJ Q k (toJ m t) = some u := by
  obtain ⟨rfl, ok⟩ := resolveNames_iff.1 h
  exact ⟨fun ha => ok.unfolds ha hm ht,
    fun u hu => expandJ_eq ok hc hu hm fun r hr => .inl ⟨n, t, ht, (t.has_iff r).2 hr⟩⟩

/-- C104: a type of another module that a type assignment uses is among the imports of its module, from which the headers
that are included are found. -/
theorem C104_imports_partial {P : List IModule} {Q : List JModule} (h : resolveNames P = some Q) (hc : DistinctClauses P)
    {m : IModule} (hm : m ∈ P) {r : IRef} (hr : m.UsesInType r) {D : String} (hd : TypeDenotes P (r.scope m) r.name D)
    (hne : D ≠ m.name) : ∃ q ∈ Q, q.name = m.name ∧ ∃ i ∈ q.imports, i.frm = D ∧ r.name ∈ i.types := by
  obtain ⟨rfl, ok⟩ := resolveNames_iff.1 h
  have he := ok.target_eq_type hc hm hr hd
  obtain ⟨j, hj, e, hn⟩ := (mergedImports_spec (P := P) (hc m hm)).2.2.1 hm r hr (he ▸ hne)
  exact ⟨_, List.mem_map_of_mem hm, rfl, j, hj, e.trans he, hn⟩

/-- C104: legal modules are accepted if they keep to what the compiler supports. -/
theorem C104_accepts_partial {P : List IModule} (lg : LegalNames P) (sp : SupportedNames P) : ∃ Q, resolveNames P = some Q :=
  ⟨_, resolveNames_iff.2 ⟨rfl, legal_namesOk lg sp⟩⟩

/-- C104: the modules that are accepted are exactly the legal ones that keep to what the compiler supports, among those
in which no clause is repeated, no name is listed twice and no type has the name of a module. -/
theorem C104_decides_partial {P : List IModule} (hc : DistinctClauses P) (hl : ListsOnce P)
    (ha : ∀ m ∈ P, ∀ r, m.UsesInType r ∨ m.UsesInValue r → ¬ r.Ambiguous m) :
    (∃ Q, resolveNames P = some Q) ↔ LegalNames P ∧ SupportedNames P := by
  constructor
  · rintro ⟨Q, h⟩
    obtain ⟨rfl, ok⟩ := resolveNames_iff.1 h
    exact ⟨ok.legal hc hl ha, ok.supported hc ha⟩
  · rintro ⟨lg, sp⟩
    exact C104_accepts_partial lg sp

/-! ## An example -/

/-- `A` imports `T` and `v` from `B`, and uses `C.T2` with the name of the module; `B` has a list of exports. -/
def exMods : List IModule :=
  [⟨"A", [⟨"B", ["T"], ["v"]⟩], none,
      [("S", .node [.ref ⟨none, "T"⟩, .node [.ref ⟨none, "U"⟩], .ref ⟨some "C", "T2"⟩]), ("U", .ref ⟨some "C", "T2"⟩)],
      [("a", .ref ⟨none, "U"⟩)]⟩,
   ⟨"B", [], some (["T", "Own"], ["v"]), [("T", .ref ⟨none, "Own"⟩), ("Own", .node [.node []])], [("v", .node []), ("w", .node [])]⟩,
   ⟨"C", [], none, [("T2", .node [])], []⟩]

theorem exMods_accepted : resolveNames exMods = some (treeOf exMods) := by
  have : (resolveNames exMods).isSome = true := by decide +kernel
  obtain ⟨Q, hQ⟩ := Option.isSome_iff_exists.1 this
  rw [hQ, (resolveNames_iff.1 hQ).1]

theorem exMods_clauses : DistinctClauses exMods := by unfold DistinctClauses; decide

theorem exMods_m1 : exMods[0] ∈ exMods := List.getElem_mem _

/-- `S` uses `T`, which means `B.T`. -/
example (k : Nat) : getType (treeOf exMods) (k + 1) "B" "T" = some (.ref "B" "Own") :=
  C104_meaning_partial exMods_accepted exMods_clauses (m := exMods[0]) (r := ⟨none, "T"⟩) (m' := exMods[1])
    (t := .ref ⟨none, "Own"⟩) exMods_m1
    (.inl ⟨"S", _, List.mem_cons_self .., .node (.here .ref)⟩) (List.getElem_mem _)
    (.imported (m := exMods[0]) (i := ⟨"B", ["T"], ["v"]⟩) exMods_m1 (List.mem_cons_self ..) (List.mem_cons_self ..)
      (.own ⟨exMods[1], List.getElem_mem _, rfl, List.mem_cons_self ..⟩))
    (List.mem_cons_self ..) k

example (k : Nat) : getValue (treeOf exMods) (k + 1) "B" "v" = some "B" :=
  C104_values_partial exMods_accepted exMods_clauses exMods_m1 "v"
    (.imported (m := exMods[0]) (i := ⟨"B", ["T"], ["v"]⟩) exMods_m1 (List.mem_cons_self ..) (List.mem_cons_self ..)
      (.own ⟨exMods[1], List.getElem_mem _, rfl, .node [], List.mem_cons_self ..⟩)) k

theorem exMods_lists : ListsOnce exMods := by unfold ListsOnce; decide

theorem ambiguous_refs {P : List IModule}
    (h : ∀ m ∈ P, ∀ x ∈ m.types ++ m.values, ∀ r ∈ x.2.refs, r.qual = none → ∀ i ∈ m.imports, i.frm ≠ r.name) :
    ∀ m ∈ P, ∀ r, m.UsesInType r ∨ m.UsesInValue r → ¬ r.Ambiguous m := by
  rintro m hm r hr ⟨hq, i, hi, e⟩
  rcases hr with ⟨n, t, ht, hr⟩ | ⟨n, t, ht, hr⟩
  · exact h m hm (n, t) (List.mem_append.2 (.inl ht)) r ((t.has_iff r).1 hr) hq i hi e
  · exact h m hm (n, t) (List.mem_append.2 (.inr ht)) r ((t.has_iff r).1 hr) hq i hi e

theorem exMods_names : ∀ m ∈ exMods, ∀ r, m.UsesInType r ∨ m.UsesInValue r → ¬ r.Ambiguous m :=
  ambiguous_refs (by decide)

/-- The example is legal and supported. -/
theorem exMods_legal : LegalNames exMods ∧ SupportedNames exMods :=
  (C104_decides_partial exMods_clauses exMods_lists exMods_names).1 ⟨_, exMods_accepted⟩

example : ∃ Q, resolveNames exMods = some Q := C104_accepts_partial exMods_legal.1 exMods_legal.2

/-- `S` is built as `SEQUENCE { SEQUENCE OF …, SEQUENCE { … }, … }`. -/
example : expandJ (treeOf exMods) 9 (toJ exMods[0] (.node [.ref ⟨none, "T"⟩, .node [.ref ⟨none, "U"⟩], .ref ⟨some "C", "T2"⟩])) =
    some (.node [.node [.node []], .node [.node []], .node []]) := by rfl

example : ∃ u, Unfolds exMods exMods[0] (.node [.ref ⟨none, "T"⟩, .node [.ref ⟨none, "U"⟩], .ref ⟨some "C", "T2"⟩]) u :=
  (C104_unfolds_partial exMods_accepted exMods_clauses exMods_m1 (List.mem_cons_self ..)).1
    fun m hm r hr => exMods_names m hm r (.inl hr)

example : ∃ u N, ∀ k, N ≤ k → expandJ (treeOf exMods) k (toJ exMods[0] (.ref ⟨none, "U"⟩)) = some u ∧
    ∃ kids, getActualType (treeOf exMods) k (toJ exMods[0] (.ref ⟨none, "U"⟩)) = some (.node kids) :=
  C104_ends exMods_accepted exMods_m1 (n := "a") (.inr (List.mem_cons_self ..))

/-- `C` is not in the IMPORTS of `A` and is imported all the same. -/
example : ∃ q ∈ treeOf exMods, q.name = "A" ∧ ∃ i ∈ q.imports, i.frm = "C" ∧ "T2" ∈ i.types :=
  C104_imports_partial exMods_accepted exMods_clauses exMods_m1 (r := ⟨some "C", "T2"⟩)
    ⟨"U", _, List.mem_cons_of_mem _ (List.mem_cons_self ..), .ref⟩
    (.own ⟨exMods[2], List.getElem_mem _, rfl, List.mem_cons_self ..⟩) (by decide)

example : TypeDenotes exMods "A" "T" "B" ∧ ∀ D, TypeDenotes exMods "A" "T" D → D = "B" := by
  have h : TypeDenotes exMods "A" "T" "B" :=
    .imported (m := exMods[0]) (i := ⟨"B", ["T"], ["v"]⟩) exMods_m1 (List.mem_cons_self ..) (List.mem_cons_self ..)
      (.own ⟨exMods[1], List.getElem_mem _, rfl, List.mem_cons_self ..⟩)
  exact ⟨h, fun D hD => (C104_unique_partial exMods_accepted exMods_clauses).1 _ _ _ _ hD h⟩

/-! ## Where it fails -/

theorem not_cyclic_of_rank {α : Type} {r : α → α → Prop} (f : α → Nat) (h : ∀ a b, r a b → f b < f a) : ¬ Cyclic r := by
  rintro ⟨a, ha⟩
  have : ∀ b, Relation.TransGen r a b → f b < f a := by
    intro b hb
    induction hb with
    | single hab => exact h _ _ hab
    | tail _ hbc ih => exact Nat.lt_trans (h _ _ hbc) ih
  exact Nat.lt_irrefl _ (this a ha)

/-- The whole of it: legal modules are accepted, unless a type contains itself or a module needs itself. -/
def C104_full : Prop := ∀ P : List IModule, LegalNames P → ¬ Cyclic (TypeUses P) → ¬ Cyclic (ModuleNeeds P) →
  ∃ Q, resolveNames P = some Q

/-- One module: `A DEFINITIONS … EXPORTS S; S ::= SEQUENCE { b B } B ::= …`. -/
def privMods : List IModule :=
  [⟨"A", [], some (["S"], []), [("S", .node [.ref ⟨none, "B"⟩]), ("B", .node [])], []⟩]

/-- C104 does not hold in full: a module that does not export a type cannot use it itself. -/
theorem C104_private_violation : ¬ C104_full := by
  intro h
  have hone : ∀ m ∈ privMods, m = privMods[0] := by simp [privMods]
  have hdef : DefinesType privMods "A" "B" (.node []) := ⟨privMods[0], List.getElem_mem _, rfl, by simp [privMods]⟩
  have hrefs : ∀ x ∈ privMods[0].types, ∀ r ∈ x.2.refs, r = ⟨none, "B"⟩ ∧ x.1 = "S" := by decide
  have huse : ∀ n t r, (n, t) ∈ privMods[0].types → t.Has r → r = ⟨none, "B"⟩ ∧ n = "S" :=
    fun n t r ht hr => hrefs (n, t) ht r ((t.has_iff r).1 hr)
  have hlegal : LegalNames privMods := by
    refine ⟨by decide, by unfold DistinctClauses; decide, by decide, by decide, fun m hm i hi => (by obtain rfl := hone m hm; cases hi), ?_⟩
    intro m hm r hr
    obtain rfl := hone m hm
    rcases hr with ⟨n, t, ht, hr⟩ | ⟨n, t, ht, hr⟩
    · obtain ⟨rfl, _⟩ := huse n t r ht hr
      exact ⟨⟨"A", .own hdef⟩, fun h => absurd rfl h⟩
    · cases ht
  obtain ⟨Q, hQ⟩ := h privMods hlegal
    (not_cyclic_of_rank (fun a => if a.2 = "S" then 1 else 0) (by
      rintro a b ⟨m, hm, _, t, r, ht, hr, e, _⟩
      obtain rfl := hone m hm
      obtain ⟨rfl, e'⟩ := huse a.2 t r ht hr
      rw [e', ← e]; decide))
    (not_cyclic_of_rank (fun _ => 0) (by
      rintro a b ⟨m, hm, _, h⟩
      obtain rfl := hone m hm
      rcases h with ⟨i, hi, _⟩ | ⟨_, r, ⟨n, t, ht, hr⟩, hq⟩
      · cases hi
      · obtain ⟨rfl, _⟩ := huse n t r ht hr
        cases hq))
  have : (resolveNames privMods).isSome = true := by rw [hQ]; rfl
  revert this
  decide +kernel

/-- `A` has a type `T`, which is `SEQUENCE { x B.T }`. -/
def extMods : List IModule :=
  [⟨"A", [], none, [("T", .node [.ref ⟨some "B", "T"⟩])], []⟩, ⟨"B", [], none, [("T", .node [])], []⟩]

/-- C104 does not hold in full: a type that is named with its module is refused when its name alone means another type,
which is what such references are for (X.680 14.1). -/
theorem C104_external_violation : ¬ C104_full := by
  intro h
  have hdef : DefinesType extMods "B" "T" (.node []) := ⟨extMods[1], List.getElem_mem _, rfl, by simp [extMods]⟩
  have hrefs : ∀ m ∈ extMods, ∀ x ∈ m.types, ∀ r ∈ x.2.refs, r = ⟨some "B", "T"⟩ ∧ m.name = "A" := by decide
  have hnone : ∀ m ∈ extMods, m.imports = [] ∧ m.exports = none := by decide
  have hval : ∀ m ∈ extMods, m.values.isEmpty = true := by decide
  have huse : ∀ m ∈ extMods, ∀ n t r, (n, t) ∈ m.types → t.Has r → r = ⟨some "B", "T"⟩ ∧ m.name = "A" :=
    fun m hm n t r ht hr => hrefs m hm (n, t) ht r ((t.has_iff r).1 hr)
  have hex : ExportsType extMods "B" "T" :=
    ⟨extMods[1], List.getElem_mem _, rfl, fun e he => by cases he⟩
  have hlegal : LegalNames extMods := by
    refine ⟨by decide, by unfold DistinctClauses; decide, by decide, by decide,
      fun m hm i hi => (by rw [(hnone m hm).1] at hi; cases hi), ?_⟩
    intro m hm r hr
    rcases hr with ⟨n, t, ht, hr⟩ | ⟨n, t, ht, hr⟩
    · obtain ⟨rfl, _⟩ := huse m hm n t r ht hr
      exact ⟨⟨"B", .own hdef⟩, fun _ => hex⟩
    · rw [List.isEmpty_iff.1 (hval m hm)] at ht; cases ht
  have huniq : ∀ D, TypeDenotes extMods "B" "T" D → D = "B" := by
    intro D hD
    generalize hB : "B" = B at hD
    cases hD with
    | own => rfl
    | imported hm hi => rw [(hnone _ hm).1] at hi; cases hi
  obtain ⟨Q, hQ⟩ := h extMods hlegal
    (not_cyclic_of_rank (fun a => if a.1 = "A" then 1 else 0) (by
      rintro a b ⟨m, hm, en, t, r, ht, hr, e, hd⟩
      obtain ⟨rfl, e'⟩ := huse m hm a.2 t r ht hr
      rw [← en, e', huniq b.1 hd]; decide))
    (not_cyclic_of_rank (fun a => if a = "A" then 1 else 0) (by
      rintro a b ⟨m, hm, en, h⟩
      rcases h with ⟨i, hi, _⟩ | ⟨_, r, ⟨n, t, ht, hr⟩, hq⟩
      · rw [(hnone m hm).1] at hi; cases hi
      · obtain ⟨rfl, e'⟩ := huse m hm n t r ht hr
        obtain rfl := Option.some.inj hq
        rw [← en, e']; decide))
  have : (resolveNames extMods).isSome = true := by rw [hQ]; rfl
  revert this
  decide +kernel

/-- `C` has the type `T`, `B` imports it from `C`, and `A` imports it from `B`. -/
def againMods : List IModule :=
  [⟨"A", [⟨"B", ["T"], []⟩], none, [], []⟩, ⟨"B", [⟨"C", ["T"], []⟩], none, [], []⟩,
   ⟨"C", [], none, [("T", .node [])], []⟩]

/-- C104 does not hold in full: what a module has imported cannot be imported from it. -/
theorem C104_again_violation : ¬ C104_full := by
  intro h
  have hC : TypeDenotes againMods "C" "T" "C" := .own ⟨againMods[2], List.getElem_mem _, rfl, List.mem_cons_self ..⟩
  have hB : TypeDenotes againMods "B" "T" "C" :=
    .imported (m := againMods[1]) (i := ⟨"C", ["T"], []⟩) (List.getElem_mem _) (List.mem_cons_self ..) (List.mem_cons_self ..) hC
  have hno : ∀ m ∈ againMods, ∀ x ∈ m.types ++ m.values, x.2.refs = [] := by decide
  have hexp : ∀ m ∈ againMods, m.exports = none := by decide
  have himp : ∀ m ∈ againMods, ∀ i ∈ m.imports, i.values = [] ∧ i.types = ["T"] ∧
      (m.name = "A" ∧ i.frm = "B" ∨ m.name = "B" ∧ i.frm = "C") := by decide
  have huse : ∀ m ∈ againMods, ∀ n t r, (n, t) ∈ m.types ++ m.values → ¬ t.Has r := by
    intro m hm n t r ht hr
    have := (t.has_iff r).1 hr
    rw [hno m hm (n, t) ht] at this
    cases this
  have hlegal : LegalNames againMods := by
    refine ⟨by decide, by unfold DistinctClauses; decide, by decide, by decide, ?_, ?_⟩
    · intro m hm i hi
      obtain ⟨hv, ht, h⟩ := himp m hm i hi
      rw [hv, ht]
      have hexp' : ∀ M : IModule, M ∈ againMods → ExportsType againMods M.name "T" :=
        fun M hM => ⟨M, hM, rfl, fun e he => by rw [hexp M hM] at he; cases he⟩
      rcases h with ⟨_, e⟩ | ⟨_, e⟩ <;> rw [e]
      · refine ⟨⟨againMods[1], List.getElem_mem _, rfl⟩, fun n hn => ?_, fun v hv => by cases hv⟩
        obtain rfl := List.mem_singleton.1 hn
        exact ⟨⟨_, hB⟩, hexp' againMods[1] (List.getElem_mem _)⟩
      · refine ⟨⟨againMods[2], List.getElem_mem _, rfl⟩, fun n hn => ?_, fun v hv => by cases hv⟩
        obtain rfl := List.mem_singleton.1 hn
        exact ⟨⟨_, hC⟩, hexp' againMods[2] (List.getElem_mem _)⟩
    · intro m hm r hr
      rcases hr with ⟨n, t, ht, hr⟩ | ⟨n, t, ht, hr⟩
      · exact absurd hr (huse m hm n t r (List.mem_append.2 (.inl ht)))
      · exact absurd hr (huse m hm n t r (List.mem_append.2 (.inr ht)))
  obtain ⟨Q, hQ⟩ := h againMods hlegal
    (not_cyclic_of_rank (fun _ => 0) (by
      rintro a b ⟨m, hm, en, t, r, ht, hr, e, hd⟩
      exact absurd hr (huse m hm a.2 t r (List.mem_append.2 (.inl ht)))))
    (not_cyclic_of_rank (fun a => if a = "A" then 2 else if a = "B" then 1 else 0) (by
      rintro a b ⟨m, hm, en, h⟩
      rcases h with ⟨i, hi, ei⟩ | ⟨_, r, ⟨n, t, ht, hr⟩, hq⟩
      · rcases (himp m hm i hi).2.2 with ⟨e1, e2⟩ | ⟨e1, e2⟩ <;> rw [← en, ← ei, e1, e2] <;> decide
      · exact absurd hr (huse m hm n t r (List.mem_append.2 (.inl ht)))))
  have : (resolveNames againMods).isSome = true := by rw [hQ]; rfl
  revert this
  decide +kernel

/-- `M` imports `X` from the module `T`, and has a type `T` and a value `v T ::= …`; the module `T` has a type `T` too. -/
def captureMods : List IModule :=
  [⟨"M", [⟨"T", ["X"], []⟩], none, [("T", .node [])], [("v", .ref ⟨none, "T"⟩)]⟩,
   ⟨"T", [], none, [("X", .node []), ("T", .node [.node []])], []⟩]

/-- C104: the type of a value with the name of a module from which there are imports is taken for the type of that module.
The modules are accepted, the type `T` of `v` means the one of `M`, and the compiler takes the one of `T`. -/
theorem C104_capture_violation : ∃ Q, resolveNames captureMods = some Q ∧ DistinctClauses captureMods ∧
    captureMods[0].UsesInValue ⟨none, "T"⟩ ∧ TypeDenotes captureMods "M" "T" "M" ∧
    DefinesType captureMods "M" "T" (.node []) ∧
    getType Q 1 (refContent captureMods[0] ⟨none, "T"⟩).1 (refContent captureMods[0] ⟨none, "T"⟩).2 = some (.node [.node []]) := by
  have hs : (resolveNames captureMods).isSome = true := by decide +kernel
  obtain ⟨Q, hQ⟩ := Option.isSome_iff_exists.1 hs
  have hdef : DefinesType captureMods "M" "T" (.node []) := ⟨captureMods[0], List.getElem_mem _, rfl, List.mem_cons_self ..⟩
  refine ⟨Q, hQ, by unfold DistinctClauses; decide, ⟨"v", _, List.mem_cons_self .., .ref⟩, .own hdef, hdef, ?_⟩
  rw [(resolveNames_iff.1 hQ).1]
  rfl

/-- The same without the type `T` in `M`, and with a type assignment in place of the value. -/
def strayMods : List IModule :=
  [⟨"M", [⟨"T", ["X"], []⟩], none, [("S", .ref ⟨none, "T"⟩)], []⟩,
   ⟨"T", [], none, [("X", .node []), ("T", .node [.node []])], []⟩]

/-- C104: modules with a reference that means nothing are accepted. -/
theorem C104_stray_violation : (∃ Q, resolveNames strayMods = some Q) ∧ DistinctClauses strayMods ∧
    strayMods[0].UsesInType ⟨none, "T"⟩ ∧ ¬ ∃ D, TypeDenotes strayMods "M" "T" D := by
  have hs : (resolveNames strayMods).isSome = true := by decide +kernel
  refine ⟨Option.isSome_iff_exists.1 hs, by unfold DistinctClauses; decide, ⟨"S", _, List.mem_cons_self .., .ref⟩, ?_⟩
  rintro ⟨D, hD⟩
  have h1 : ∀ m ∈ strayMods, m.name = "M" → ("T" ∉ m.types.map Prod.fst) ∧ ∀ i ∈ m.imports, "T" ∉ i.types := by decide
  generalize hM : "M" = M at hD
  generalize hT : "T" = T at hD
  cases hD with
  | own h =>
    obtain ⟨m, hm, e, ht⟩ := h
    exact (h1 m hm (e.trans hM.symm)).1 (mem_fst.2 ⟨_, hT ▸ ht⟩)
  | imported hm hi hn => exact (h1 _ hm hM.symm).2 _ hi (hT ▸ hn)

/-- `A` has a value of the type `B.T`. -/
def valueMods : List IModule :=
  [⟨"A", [], none, [], [("v", .ref ⟨some "B", "T"⟩)]⟩, ⟨"B", [], none, [("T", .node [])], []⟩]

/-- C104: a type that only values of the module use, and that is named with its module, is not among the imports: the
header of the other module is not included. -/
theorem C104_valueImport_violation : ∃ Q, resolveNames valueMods = some Q ∧ valueMods[0].UsesInValue ⟨some "B", "T"⟩ ∧
    ∀ q ∈ Q, q.name = "A" → q.imports = [] := by
  have hs : (resolveNames valueMods).isSome = true := by decide +kernel
  obtain ⟨Q, hQ⟩ := Option.isSome_iff_exists.1 hs
  refine ⟨Q, hQ, ⟨"v", _, List.mem_cons_self .., .ref⟩, ?_⟩
  rw [(resolveNames_iff.1 hQ).1]
  intro q hq hn
  obtain ⟨m, hm, rfl⟩ := List.mem_map.1 hq
  have h : ∀ m ∈ valueMods, (createModule (implicitTypes valueMods) m).name = "A" →
      (createModule (implicitTypes valueMods) m).imports.isEmpty = true := by decide +kernel
  exact List.isEmpty_iff.1 (h m hm hn)

end Asn1
