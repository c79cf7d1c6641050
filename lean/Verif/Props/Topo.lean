import Verif.Proof.TopoFile
/-!
# C84: declarations come before their uses, C85: headers do not include each other
-/
namespace Asn1

/-! ## C84 -/

/-- C84: the order that the compiler computes contains every node exactly as often as it was given, everything that a node
needs is in front of it, and an order is found whenever there is one. `cmp` is the comparison of names. -/
theorem C84_order {α β : Type} (cmp : β → α → Bool) (imports : List α) (nodes : List (α × List β)) :
    (∀ l, sortNodes cmp imports nodes = .ok l →
      ∃ entries : List (α × List β), entries.Perm (imports.map (fun n => (n, [])) ++ nodes) ∧ entries.map Prod.fst = l ∧
        InOrder (fun d n => cmp d n = true) entries) ∧
    ((∃ l, sortNodes cmp imports nodes = .ok l) ↔
      ∃ entries : List (α × List β), entries.Perm (imports.map (fun n => (n, [])) ++ nodes) ∧ InOrder (fun d n => cmp d n = true) entries) := by
  refine ⟨fun l h => sortNodes_ok cmp h, ?_, ?_⟩
  · rintro ⟨l, h⟩
    obtain ⟨e, hp, _, ho⟩ := sortNodes_ok cmp h
    exact ⟨e, hp, ho⟩
  · rintro ⟨e, hp, ho⟩
    exact sortNodes_complete cmp hp ho

/-- C84: if every name that is used is declared and none is declared twice, the sort fails exactly if there is a cycle. -/
theorem C84_cyclic {α : Type} [DecidableEq α] (imports : List α) (nodes : List (α × List α))
    (hn : (imports ++ nodes.map Prod.fst).Nodup) (hd : ∀ a b, DependsOn nodes a b → b ∈ imports ∨ ∃ l, (b, l) ∈ nodes) :
    (∃ u, sortNodes (fun d n => decide (d = n)) imports nodes = .error u) ↔ Cyclic (DependsOn nodes) := by
  constructor
  · rintro ⟨u, h⟩
    exact sortNodes_cycle (fun e he d hde => hd e.1 d ⟨e.2, he, hde⟩) h
  · intro hc
    cases hs : sortNodes (fun d n => decide (d = n)) imports nodes with
    | error u => exact ⟨u, rfl⟩
    | ok l => exact absurd hc (sortNodes_acyclic hn hs)

/-- The comment of FsUtils.fs:713-714, with a dependency on an import. -/
example : sortNodes (fun d n => decide (d = n)) ["I"] [("E", ["D", "C"]), ("A", []), ("D", ["A", "I"]), ("C", [])] = .ok ["I", "A", "D", "C", "E"] := by
  decide +kernel
example : sortNodes (fun d n => decide (d = n)) [] [("a", []), ("b", ["c", "a"]), ("c", ["b"])] = .error [("b", ["c"]), ("c", ["b"])] := by
  decide +kernel

/-- C84: in a generated header every type assignment of the file occurs once, and whatever the definition of a type mentions, at
any depth, is defined further up in the header or imported from another file. -/
theorem C84_header (f : AsnFile) (l : List TypeName) (h : f.sortedTypes = .ok l) :
    l.Perm (f.tases.map Prod.fst) ∧
    ((f.tases.map Prod.fst).Nodup → ∀ before T after, l = before ++ T :: after → ∀ t, f.Declares T t → ∀ n, Mentions t n →
      n ∈ before ∨ f.Imports n) := by
  refine ⟨sortedTypes_perm f h, ?_⟩
  rintro hn before T after rfl t hd n hm
  exact sortedTypes_before f hn h hd hm

/-- C84: "Cyclic Types detected" is reported exactly if a type of the file contains itself. -/
theorem C84_header_cyclic (f : AsnFile) (hn : (f.tases.map Prod.fst).Nodup)
    (hd : ∀ T t, f.Declares T t → ∀ n, Mentions t n → f.Imports n ∨ ∃ t', f.Declares n t') :
    (∃ u, f.sortedTypes = .error u) ↔ Cyclic fun a b => ∃ t, f.Declares a t ∧ Mentions t b :=
  sortedTypes_cyclic f hn hd

/-- C84: "Cyclic modules detected" is reported exactly if a module imports from itself, directly or through others. -/
theorem C84_modules (files : List AsnFile) (hn : ((files.flatMap AsnFile.modules).map AsnModule.name).Nodup)
    (hd : ∀ a b, ModuleImports files a b → ∃ f ∈ files, ∃ m ∈ f.modules, m.name = b) :
    (∃ u, checkForCyclicModules files = .error u) ↔ Cyclic (ModuleImports files) :=
  modules_cyclic files hn hd

/-- A file with a module in which types are used before they are declared, nested, and imported. -/
def exTopoFile : AsnFile :=
  ⟨"f", [⟨"M", [("A", .sequence [] (.cons (.seqOf [] (.reference [] ⟨"M", "B"⟩)) (.cons (.reference [] ⟨"X", "T"⟩) .nil))),
    ("B", .choice [] (.cons (.leaf []) (.cons (.reference [] ⟨"M", "C"⟩) .nil))), ("C", .leaf [])], [("X", ["T"])]⟩]⟩

example : exTopoFile.sortedTypes = .ok [⟨"M", "C"⟩, ⟨"M", "B"⟩, ⟨"M", "A"⟩] := by decide +kernel
example : (exTopoFile.tases.map Prod.fst).Nodup := by decide
example : exTopoFile.Imports ⟨"X", "T"⟩ :=
  ⟨⟨_, List.mem_singleton.2 rfl, ["T"], by simp, by simp⟩, by simp [exTopoFile]⟩
example : ∃ t, exTopoFile.Declares ⟨"M", "A"⟩ t ∧ Mentions t ⟨"M", "B"⟩ :=
  ⟨_, ⟨_, List.mem_singleton.2 rfl, rfl, List.mem_cons_self ..⟩, .sequence (.here (.seqOf .reference))⟩
example : ∀ T t, exTopoFile.Declares T t → ∀ n, Mentions t n → exTopoFile.Imports n ∨ ∃ t', exTopoFile.Declares n t' := by
  intro T t hT n hn
  have h1 := (typeDeps_iff t n).2 hn
  have h2 := (mem_tases _ _ _).2 hT
  have h3 : n ∈ exTopoFile.importedTypes ∨ n ∈ exTopoFile.tases.map Prod.fst := by
    have : ∀ p ∈ exTopoFile.tases, ∀ d ∈ typeDeps p.2, d ∈ exTopoFile.importedTypes ∨ d ∈ exTopoFile.tases.map Prod.fst := by
      simp [exTopoFile, AsnFile.tases, typeDeps, typesDeps, AsnFile.importedTypes, AsnFile.importedModules]
    exact this _ h2 n h1
  rcases h3 with h | h
  · exact .inl ((mem_importedTypes _ _).1 h)
  · obtain ⟨⟨m, t'⟩, hp, rfl⟩ := List.mem_map.1 h
    exact .inr ⟨t', (mem_tases _ _ _).1 hp⟩

/-! ## C85 -/

/-- C85, full statement: if the compiler accepts the modules, no generated header includes itself, directly or through others. -/
def C85_full : Prop := ∀ files : List AsnFile, (files.map AsnFile.name).Nodup → ((files.flatMap AsnFile.modules).map AsnModule.name).Nodup →
  (∃ l, checkForCyclicModules files = .ok l) → ¬ Cyclic (HeaderIncludes files)

/-- C85 for files that hold one module each. -/
theorem C85_includes_partial (files : List AsnFile) (hf : (files.map AsnFile.name).Nodup)
    (hn : ((files.flatMap AsnFile.modules).map AsnModule.name).Nodup) (hone : ∀ f ∈ files, ∃ m, f.modules = [m])
    (h : ∃ l, checkForCyclicModules files = .ok l) : ¬ Cyclic (HeaderIncludes files) := by
  refine headers_acyclic files hf hone ?_
  obtain ⟨l, h⟩ := h
  rw [← needs_modules]
  refine sortNodes_acyclic ?_ h
  rw [List.nil_append, List.map_map]
  exact hn

/-- Three files, two imports. -/
def exTopoFiles : List AsnFile :=
  [⟨"c", [⟨"C", [("T", .leaf [])], [("A", ["T"]), ("B", ["T"])]⟩]⟩, ⟨"b", [⟨"B", [("T", .reference [] ⟨"A", "T"⟩)], [("A", ["T"])]⟩]⟩,
    ⟨"a", [⟨"A", [("T", .leaf [])], []⟩]⟩]

example : checkForCyclicModules exTopoFiles = .ok ["A", "B", "C"] ∧ (exTopoFiles.map fun f => f.includes exTopoFiles) = [some ["a", "b"], some ["a"], some []] := by
  decide +kernel

/-- Two files: `a.asn` with the modules A and C, `b.asn` with the module B. B imports from A and C imports from B. -/
def exCycFiles : List AsnFile :=
  [⟨"a", [⟨"A", [("T", .leaf [])], []⟩, ⟨"C", [("U", .reference [] ⟨"B", "T"⟩)], [("B", ["T"])]⟩]⟩,
    ⟨"b", [⟨"B", [("T", .reference [] ⟨"A", "T"⟩)], [("A", ["T"])]⟩]⟩]

/-- C85 violation: the modules do not depend on each other in a circle, all types can be ordered, and the two headers
include each other. -/
theorem C85_twoModules_violation : ¬ C85_full := by
  intro h
  refine h exCycFiles (by decide) (by decide) ⟨["A", "B", "C"], by decide +kernel⟩ ⟨"a", .tail (.single (b := "b") ?_) ?_⟩
  · exact ⟨_, List.mem_cons_self .., rfl, ["b"], by decide +kernel, by simp⟩
  · exact ⟨_, List.mem_cons_of_mem _ (List.mem_cons_self ..), rfl, ["a"], by decide +kernel, by simp⟩

example : (exCycFiles.map fun f => f.sortedTypes) = [.ok [⟨"C", "U"⟩, ⟨"A", "T"⟩], .ok [⟨"B", "T"⟩]] := by decide +kernel

end Asn1
