import Verif.Model.ObjectId
import Verif.Proof.Flatten3
/-!
Lemmas about OBJECT IDENTIFIER values.
-/
namespace Asn1

/-- The keywords that may come next. -/
def nextKeywords (root : Bool) (parent : Option Keyword) : List Keyword :=
  match root, parent with
  | true, none => keywordRoots
  | _, some (.leaf _ _ subs) => subs
  | false, none => []

theorem regKeyword_eq (root : Bool) (parent : Option Keyword) (nm : String) :
    regKeyword root parent nm = findKeyword (nextKeywords root parent) nm := by
  cases root <;> cases parent with
  | none => rfl
  | some k => cases k; rfl

/-- The keywords of the code are those of X.660 after these numbers. -/
inductive IsLevel : List Keyword → List Int → Prop
  | roots : IsLevel keywordRoots []
  | itu : IsLevel keywordsItu [0]
  | iso : IsLevel keywordsIso [1]
  | letters : IsLevel keywordLetters [0, 0]
  | leaf {pre : List Int} : (∀ nm k, (pre, nm, k) ∉ x660) → IsLevel [] pre

theorem x660_pre : ∀ e ∈ x660, e.1 = [] ∨ e.1 = [0] ∨ e.1 = [1] ∨ e.1 = [0, 0] := by decide +kernel

theorem x660_unique : ∀ e ∈ x660, ∀ f ∈ x660, e.1 = f.1 → e.2.1 = f.2.1 → e.2.2 = f.2.2 := by decide +kernel

theorem x660_leaf {pre : List Int} (h : pre ≠ [] ∧ pre ≠ [0] ∧ pre ≠ [1] ∧ pre ≠ [0, 0]) : ∀ nm k, (pre, nm, k) ∉ x660 := by
  intro nm k hm
  rcases x660_pre _ hm with h1 | h1 | h1 | h1 <;> simp only at h1
  · exact h.1 h1
  · exact h.2.1 h1
  · exact h.2.2.1 h1
  · exact h.2.2.2 h1

/-- All entries of X.660 are keywords at their level. -/
theorem x660_found : ∀ e ∈ x660,
    (e.1 = [] → (findKeyword keywordRoots e.2.1).isSome) ∧ (e.1 = [0] → (findKeyword keywordsItu e.2.1).isSome) ∧
    (e.1 = [1] → (findKeyword keywordsIso e.2.1).isSome) ∧ (e.1 = [0, 0] → (findKeyword keywordLetters e.2.1).isSome) := by
  decide +kernel

theorem findKeyword_mem {l : List Keyword} {nm : String} {names : List String} {k : Int} {subs : List Keyword}
    (h : findKeyword l nm = some (.leaf names k subs)) : Keyword.leaf names k subs ∈ l ∧ nm ∈ names := by
  refine ⟨List.mem_of_find?_eq_some h, ?_⟩
  have := List.find?_some h
  simpa using this

theorem IsLevel.found {l : List Keyword} {pre : List Int} (h : IsLevel l pre) {nm : String} {names : List String} {k : Int}
    {subs : List Keyword} (hf : findKeyword l nm = some (.leaf names k subs)) :
    (pre, nm, k) ∈ x660 ∧ IsLevel subs (pre ++ [k]) := by
  obtain ⟨h1, h2⟩ := findKeyword_mem hf
  cases h with
  | roots =>
    simp only [keywordRoots, List.mem_cons, List.not_mem_nil, or_false, Keyword.leaf.injEq] at h1
    rcases h1 with ⟨rfl, rfl, rfl⟩ | ⟨rfl, rfl, rfl⟩ | ⟨rfl, rfl, rfl⟩
    · simp only [List.mem_cons, List.not_mem_nil, or_false] at h2
      refine ⟨?_, .itu⟩
      rcases h2 with rfl | rfl <;> decide +kernel
    · simp only [List.mem_cons, List.not_mem_nil, or_false] at h2
      subst h2
      exact ⟨by decide +kernel, .iso⟩
    · simp only [List.mem_cons, List.not_mem_nil, or_false] at h2
      refine ⟨?_, .leaf (x660_leaf (by decide))⟩
      rcases h2 with rfl | rfl <;> decide +kernel
  | itu =>
    simp only [keywordsItu, List.mem_cons, List.not_mem_nil, or_false, Keyword.leaf.injEq] at h1
    rcases h1 with ⟨rfl, rfl, rfl⟩ | ⟨rfl, rfl, rfl⟩ | ⟨rfl, rfl, rfl⟩ | ⟨rfl, rfl, rfl⟩ | ⟨rfl, rfl, rfl⟩ <;>
      simp only [List.mem_cons, List.not_mem_nil, or_false] at h2 <;> subst h2
    · exact ⟨by decide +kernel, .letters⟩
    all_goals exact ⟨by decide +kernel, .leaf (x660_leaf (by decide))⟩
  | iso =>
    simp only [keywordsIso, List.mem_cons, List.not_mem_nil, or_false, Keyword.leaf.injEq] at h1
    rcases h1 with ⟨rfl, rfl, rfl⟩ | ⟨rfl, rfl, rfl⟩ | ⟨rfl, rfl, rfl⟩ <;>
      simp only [List.mem_cons, List.not_mem_nil, or_false] at h2 <;> subst h2
    all_goals exact ⟨by decide +kernel, .leaf (x660_leaf (by decide))⟩
  | letters =>
    obtain ⟨p, hp, he⟩ := List.mem_map.1 h1
    cases he
    simp only [List.mem_cons, List.not_mem_nil, or_false] at h2
    subst h2
    refine ⟨List.mem_append_right _ (List.mem_map.2 ⟨p, hp, rfl⟩), .leaf (x660_leaf (by simp))⟩
  | leaf => cases h1

theorem IsLevel.notFound {l : List Keyword} {pre : List Int} (h : IsLevel l pre) {nm : String}
    (hf : findKeyword l nm = none) : ∀ k, (pre, nm, k) ∉ x660 := by
  intro k hm
  have h1 := x660_found _ hm
  cases h with
  | roots => have := h1.1 rfl; simp [hf] at this
  | itu => have := h1.2.1 rfl; simp [hf] at this
  | iso => have := h1.2.2.1 rfl; simp [hf] at this
  | letters => have := h1.2.2.2 rfl; simp [hf] at this
  | leaf h2 => exact h2 nm k hm

/-! ## References -/

theorem actualValue_refers {E : OEnv} : ∀ {n : Nat} {md nm : String} {v : OVal}, actualValue E n md nm = some v → E.RefersTo md nm v
  | 0, _, _, _, h => by simp [actualValue] at h
  | n + 1, md, nm, v, h => by
    simp only [actualValue] at h
    split at h
    · rename_i md' nm' hl
      exact .name hl (actualValue_refers h)
    · rename_i hna
      refine .this h ?_
      intro ha
      cases v with
      | alias md' nm' => exact hna md' nm' h
      | _ => exact ha

theorem OEnv.RefersTo.fun {E : OEnv} {md nm : String} {v w : OVal} (h : E.RefersTo md nm v) (h' : E.RefersTo md nm w) : v = w := by
  induction h with
  | this h1 hn =>
    cases h' with
    | this h2 => rw [h1] at h2; cases h2; rfl
    | name h2 => rw [h1] at h2; cases h2; exact absurd trivial hn
  | name h1 _ ih =>
    cases h' with
    | this h2 hn => rw [h1] at h2; cases h2; exact absurd trivial hn
    | name h2 h3 => rw [h1] at h2; cases h2; exact ih h3

theorem OEnv.RefersTo.has {E : OEnv} {md nm : String} {v : OVal} (h : E.RefersTo md nm v) : E.lookup (md, nm) ≠ none := by
  cases h with
  | this h => rw [h]; simp
  | name h => rw [h]; simp

theorem OEnv.RefersTo.actual {E : OEnv} {md nm : String} {v : OVal} (h : E.RefersTo md nm v) : ∃ n, actualValue E n md nm = some v := by
  induction h with
  | @this md nm v h1 hn =>
    refine ⟨1, ?_⟩
    simp only [actualValue, h1]
    cases v with
    | alias => exact absurd trivial hn
    | _ => rfl
  | name h1 _ ih =>
    obtain ⟨n, hn⟩ := ih
    exact ⟨n + 1, by simp [actualValue, h1, hn]⟩

theorem actualValue_mono {E : OEnv} : ∀ {n m : Nat} {md nm : String} {v : OVal}, n ≤ m → actualValue E n md nm = some v →
    actualValue E m md nm = some v
  | 0, _, _, _, _, _, h => by simp [actualValue] at h
  | n + 1, 0, _, _, _, hm, _ => by omega
  | n + 1, m + 1, md, nm, v, hm, h => by
    simp only [actualValue] at h ⊢
    split at h
    · exact actualValue_mono (by omega) h
    · exact h

/-! ## The numbers of the components -/

/-- One component. -/
def mapComp (E : OEnv) (n : Nat) : OAst → Option (List Int)
  | .integer i => some [i]
  | .namedInt i => some [i]
  | .keyword i => some [i]
  | .namedDef md v => match actualValue E n md v with
    | some (.int i) => some [i]
    | _ => none
  | .defined md nm => match actualValue E n md nm with
    | some (.oid _ cs') => match createComps true none cs' with
      | some ast => mapComps E n ast
      | none => none
    | _ => none

theorem mapComps_eq (E : OEnv) (n : Nat) (cs : List OAst) : mapComps E (n + 1) cs = (cs.mapM (mapComp E n)).map List.flatten := by
  simp only [mapComps]
  congr 2

theorem mapComps_cons {E : OEnv} {n : Nat} {c : OAst} {cs : List OAst} {l : List Int} (h : mapComps E (n + 1) (c :: cs) = some l) :
    ∃ a b, mapComp E n c = some a ∧ mapComps E (n + 1) cs = some b ∧ l = a ++ b := by
  rw [mapComps_eq, Option.map_eq_some_iff] at h
  obtain ⟨r, h1, rfl⟩ := h
  obtain ⟨a, r', h2, h3, rfl⟩ := optMapM_cons h1
  exact ⟨a, r'.flatten, h2, by rw [mapComps_eq, h3]; rfl, by simp⟩

theorem mapComps_of_cons {E : OEnv} {n : Nat} {c : OAst} {cs : List OAst} {a b : List Int} (h1 : mapComp E n c = some a)
    (h2 : mapComps E (n + 1) cs = some b) : mapComps E (n + 1) (c :: cs) = some (a ++ b) := by
  rw [mapComps_eq, Option.map_eq_some_iff] at h2 ⊢
  obtain ⟨r, h3, rfl⟩ := h2
  exact ⟨a :: r, by rw [List.mapM_cons, h1, h3]; rfl, by simp⟩

theorem mapComps_mono {E : OEnv} : ∀ {n m : Nat} {cs : List OAst} {l : List Int}, n ≤ m → mapComps E n cs = some l →
    mapComps E m cs = some l
  | 0, _, _, _, _, h => by simp [mapComps] at h
  | n + 1, 0, _, _, hm, _ => by omega
  | n + 1, m + 1, cs, l, hm, h => by
    rw [mapComps_eq, Option.map_eq_some_iff] at h ⊢
    obtain ⟨r, h1, h2⟩ := h
    refine ⟨r, optMapM_congr ?_ h1, h2⟩
    intro c b hb
    cases c with
    | namedDef md v =>
      simp only [mapComp] at hb ⊢
      split at hb
      · rename_i i hi
        rw [actualValue_mono (by omega) hi]; exact hb
      · cases hb
    | defined md nm =>
      simp only [mapComp] at hb ⊢
      split at hb
      · rename_i rel cs' hi
        rw [actualValue_mono (by omega) hi]
        simp only
        split at hb
        · rename_i ast hast
          exact mapComps_mono (by omega) hb
        · cases hb
      · cases hb
    | _ => exact hb

theorem mapComp_mono {E : OEnv} {n m : Nat} {c : OAst} {l : List Int} (hm : n ≤ m) (h : mapComp E n c = some l) : mapComp E m c = some l := by
  have h1 : mapComps E (n + 1) [c] = some (l ++ []) := mapComps_of_cons h (by simp [mapComps])
  obtain ⟨a, b, h2, h3, h4⟩ := mapComps_cons (mapComps_mono (m := m + 1) (by omega) h1)
  simp [mapComps] at h3
  subst h3
  simp at h4
  rw [h2, h4]

/-- What is known of the state of the fold over the components. -/
def FoldState (rel : Bool) (pre : List Int) (b root : Bool) (parent : Option Keyword) : Prop :=
  match rel, b with
  | false, true => IsLevel (nextKeywords root parent) pre
  | _, false => root = false ∧ parent = none
  | true, true => root = true ∧ parent = none

theorem foldState_next (rel : Bool) (pre : List Int) : FoldState rel pre false false none := by
  cases rel <;> exact ⟨rfl, rfl⟩

theorem foldState_start (rel : Bool) : FoldState rel [] true true none := by
  cases rel
  · exact IsLevel.roots
  · exact ⟨rfl, rfl⟩

/-- The name of a value is not taken for a keyword. -/
theorem notKeyword {E : OEnv} (hE : E.RootsFree) {rel : Bool} {pre : List Int} {b root : Bool} {parent : Option Keyword}
    (hs : FoldState rel pre b root parent) {md nm : String} {all : Bool} {md' nm' : String} {v : OVal}
    (hn : (OComp.name md nm).Names rel pre all md' nm') (hv : E.RefersTo md' nm' v) : regKeyword root parent nm = none := by
  obtain ⟨rfl, rfl, hn⟩ := hn
  rw [regKeyword_eq]
  cases b with
  | false =>
    have : root = false ∧ parent = none := by cases rel <;> exact hs
    obtain ⟨rfl, rfl⟩ := this
    rfl
  | true =>
    cases rel with
    | true =>
      obtain ⟨rfl, rfl⟩ := hs
      cases hf : findKeyword (nextKeywords true none) nm with
      | none => rfl
      | some k =>
        cases k with
        | leaf names k subs =>
          have := (IsLevel.roots.found hf).1
          exact absurd (hE md nm k this) hv.has
    | false =>
      cases hf : findKeyword (nextKeywords root parent) nm with
      | none => rfl
      | some k =>
        cases k with
        | leaf names k subs =>
          have h1 := (IsLevel.found hs hf).1
          rcases hn with hn | hn
          · cases hn
          · exact absurd h1 (hn k)

theorem createComps_cons {root : Bool} {parent : Option Keyword} {c : OComp} {cs : List OComp} {ast : List OAst}
    (h : createComps root parent (c :: cs) = some ast) :
    (∃ n rest, c = .num n ∧ createComps false none cs = some rest ∧ ast = .integer n :: rest) ∨
    (∃ nm n rest, c = .nameNum nm n ∧ createComps false none cs = some rest ∧ ast = .namedInt n :: rest) ∨
    (∃ nm md v rest, c = .nameRef nm md v ∧ createComps false none cs = some rest ∧ ast = .namedDef md v :: rest) ∨
    (∃ md nm names k subs rest, c = .name md nm ∧ regKeyword root parent nm = some (.leaf names k subs) ∧
      createComps false (some (.leaf names k subs)) cs = some rest ∧ ast = .keyword k :: rest) ∨
    (∃ md nm rest, c = .name md nm ∧ regKeyword root parent nm = none ∧ createComps false none cs = some rest ∧
      ast = .defined md nm :: rest) := by
  cases c with
  | num n =>
    simp only [createComps, createComp, Option.bind_eq_bind, Option.bind_eq_some_iff] at h
    obtain ⟨⟨a, kw⟩, h1, rest, h2, h3⟩ := h
    split at h1
    · cases h1; cases h3; exact Or.inl ⟨n, rest, rfl, h2, rfl⟩
    · cases h1
  | nameNum nm n =>
    simp only [createComps, createComp, Option.bind_eq_bind, Option.bind_eq_some_iff] at h
    obtain ⟨⟨a, kw⟩, h1, rest, h2, h3⟩ := h
    split at h1
    · cases h1; cases h3; exact Or.inr (Or.inl ⟨nm, n, rest, rfl, h2, rfl⟩)
    · cases h1
  | nameRef nm md v =>
    simp only [createComps, createComp, Option.bind_eq_bind, Option.bind_eq_some_iff] at h
    obtain ⟨⟨a, kw⟩, h1, rest, h2, h3⟩ := h
    cases h1; cases h3; exact Or.inr (Or.inr (Or.inl ⟨nm, md, v, rest, rfl, h2, rfl⟩))
  | name md nm =>
    simp only [createComps, createComp, Option.bind_eq_bind, Option.bind_eq_some_iff] at h
    obtain ⟨⟨a, kw⟩, h1, rest, h2, h3⟩ := h
    split at h1
    · rename_i names k subs hk
      cases h1; cases h3
      exact Or.inr (Or.inr (Or.inr (Or.inl ⟨md, nm, names, k, subs, rest, rfl, hk, h2, rfl⟩)))
    · rename_i hk
      cases h1; cases h3
      exact Or.inr (Or.inr (Or.inr (Or.inr ⟨md, nm, rest, rfl, hk, h2, rfl⟩)))
  | ext md nm => simp [createComps, createComp] at h

/-- The numbers are those that the components stand for. -/
theorem OEnv.Denotes.numbers {E : OEnv} (hE : E.RootsFree) {all : Bool} {rel : Bool} {pre : List Int} {b : Bool} {cs : List OComp}
    {l : List Int} (h : E.Denotes all rel pre b cs l) : ∀ {root : Bool} {parent : Option Keyword} {ast : List OAst} {n : Nat}
    {l' : List Int}, FoldState rel pre b root parent → createComps root parent cs = some ast → mapComps E n ast = some l' → l' = l := by
  induction h with
  | nil =>
    intro root parent ast n l' _ hc hm
    simp [createComps] at hc; subst hc
    cases n <;> simp [mapComps] at hm
    exact hm
  | num _ _ ih =>
    intro root parent ast n l' hs hc hm
    cases n with
    | zero => simp [mapComps] at hm
    | succ n =>
      rcases createComps_cons hc with ⟨_, _, he, h1, rfl⟩ | ⟨_, _, _, he, h1, rfl⟩ | ⟨_, _, _, _, he, h1, rfl⟩ |
        ⟨_, _, _, _, _, _, he, _, h1, rfl⟩ | ⟨_, _, _, he, _, h1, rfl⟩ <;> cases he
      obtain ⟨a, c, h2, h3, rfl⟩ := mapComps_cons hm
      cases h2
      rw [ih (foldState_next _ _) h1 h3]; rfl
  | nameNum _ _ ih =>
    intro root parent ast n l' hs hc hm
    cases n with
    | zero => simp [mapComps] at hm
    | succ n =>
      rcases createComps_cons hc with ⟨_, _, he, h1, rfl⟩ | ⟨_, _, _, he, h1, rfl⟩ | ⟨_, _, _, _, he, h1, rfl⟩ |
        ⟨_, _, _, _, _, _, he, _, h1, rfl⟩ | ⟨_, _, _, he, _, h1, rfl⟩ <;> cases he
      obtain ⟨a, c, h2, h3, rfl⟩ := mapComps_cons hm
      cases h2
      rw [ih (foldState_next _ _) h1 h3]; rfl
  | nameRef hr _ _ ih =>
    intro root parent ast n l' hs hc hm
    cases n with
    | zero => simp [mapComps] at hm
    | succ n =>
      rcases createComps_cons hc with ⟨_, _, he, h1, rfl⟩ | ⟨_, _, _, he, h1, rfl⟩ | ⟨_, _, _, _, he, h1, rfl⟩ |
        ⟨_, _, _, _, _, _, he, _, h1, rfl⟩ | ⟨_, _, _, he, _, h1, rfl⟩ <;> cases he
      obtain ⟨a, c, h2, h3, rfl⟩ := mapComps_cons hm
      simp only [mapComp] at h2
      split at h2
      · rename_i i hi
        cases (actualValue_refers hi).fun hr
        cases h2
        rw [ih (foldState_next _ _) h1 h3]; rfl
      · cases h2
  | @registered pre b md nm k cs l hx hb _ ih =>
    intro root parent ast n l' hs hc hm
    cases n with
    | zero => simp [mapComps] at hm
    | succ n =>
      rcases createComps_cons hc with ⟨_, _, he, h1, rfl⟩ | ⟨_, _, _, he, h1, rfl⟩ | ⟨_, _, _, _, he, h1, rfl⟩ |
        ⟨_, _, names, k', subs, _, he, hk, h1, rfl⟩ | ⟨_, _, _, he, hk, h1, rfl⟩ <;> cases he
      · obtain ⟨a, c, h2, h3, rfl⟩ := mapComps_cons hm
        cases h2
        cases b with
        | false =>
          obtain ⟨rfl, rfl⟩ : root = false ∧ parent = none := hs
          cases hk
        | true =>
          rw [regKeyword_eq] at hk
          obtain ⟨h4, h5⟩ := IsLevel.found (show IsLevel (nextKeywords root parent) pre from hs) hk
          cases x660_unique _ hx _ h4 rfl rfl
          rw [ih (show IsLevel (nextKeywords false (some (.leaf names k subs))) (pre ++ [k]) from h5) h1 h3]; rfl
      · obtain ⟨a, c, h2, h3, rfl⟩ := mapComps_cons hm
        cases b with
        | true =>
          rw [regKeyword_eq] at hk
          exact absurd hx (IsLevel.notFound (show IsLevel (nextKeywords root parent) pre from hs) hk k)
        | false =>
          rcases hb with hb | ⟨-, hb⟩
          · cases hb
          · simp only [mapComp] at h2
            split at h2
            · rename_i hi
              exact absurd hb (actualValue_refers hi).has
            · cases h2
  | @relValue rel pre b c md nm cs' cs l1 l2 hn hr _ _ ih1 ih2 =>
    intro root parent ast n l' hs hc hm
    cases n with
    | zero => simp [mapComps] at hm
    | succ n =>
      rcases createComps_cons hc with ⟨_, _, rfl, h1, rfl⟩ | ⟨_, _, _, rfl, h1, rfl⟩ | ⟨_, _, _, _, rfl, h1, rfl⟩ |
        ⟨_, _, names, k', subs, _, rfl, hk, h1, rfl⟩ | ⟨_, _, _, rfl, hk, h1, rfl⟩
      · exact absurd hn id
      · exact absurd hn id
      · exact absurd hn id
      · rw [notKeyword hE hs hn hr] at hk; cases hk
      · obtain ⟨rfl, rfl, -⟩ := hn
        obtain ⟨a, c, h2, h3, rfl⟩ := mapComps_cons hm
        simp only [mapComp] at h2
        split at h2
        · rename_i hi
          cases (actualValue_refers hi).fun hr
          split at h2
          · rename_i ast2 hast
            rw [ih1 ⟨rfl, rfl⟩ hast h2, ih2 (foldState_next _ _) h1 h3]
          · cases h2
        · cases h2
  | @oidValue c md nm cs' cs l1 l2 hn hr _ _ ih1 ih2 =>
    intro root parent ast n l' hs hc hm
    cases n with
    | zero => simp [mapComps] at hm
    | succ n =>
      rcases createComps_cons hc with ⟨_, _, rfl, h1, rfl⟩ | ⟨_, _, _, rfl, h1, rfl⟩ | ⟨_, _, _, _, rfl, h1, rfl⟩ |
        ⟨_, _, names, k', subs, _, rfl, hk, h1, rfl⟩ | ⟨_, _, _, rfl, hk, h1, rfl⟩
      · exact absurd hn id
      · exact absurd hn id
      · exact absurd hn id
      · rw [notKeyword hE hs hn hr] at hk; cases hk
      · obtain ⟨rfl, rfl, -⟩ := hn
        obtain ⟨a, c, h2, h3, rfl⟩ := mapComps_cons hm
        simp only [mapComp] at h2
        split at h2
        · rename_i hi
          cases (actualValue_refers hi).fun hr
          split at h2
          · rename_i ast2 hast
            rw [ih1 (show IsLevel (nextKeywords true none) [] from .roots) hast h2, ih2 (foldState_next _ _) h1 h3]
          · cases h2
        · cases h2
  | @intValue rel pre b c md nm i cs l _ hn hr _ _ ih =>
    intro root parent ast n l' hs hc hm
    cases n with
    | zero => simp [mapComps] at hm
    | succ n =>
      rcases createComps_cons hc with ⟨_, _, rfl, h1, rfl⟩ | ⟨_, _, _, rfl, h1, rfl⟩ | ⟨_, _, _, _, rfl, h1, rfl⟩ |
        ⟨_, _, names, k', subs, _, rfl, hk, h1, rfl⟩ | ⟨_, _, _, rfl, hk, h1, rfl⟩
      · exact absurd hn id
      · exact absurd hn id
      · exact absurd hn id
      · rw [notKeyword hE hs hn hr] at hk; cases hk
      · obtain ⟨rfl, rfl, -⟩ := hn
        obtain ⟨a, c, h2, h3, rfl⟩ := mapComps_cons hm
        simp only [mapComp] at h2
        split at h2
        · rename_i hi
          cases (actualValue_refers hi).fun hr
        · cases h2

/-- In the part of the notation that the compiler knows the components are accepted. -/
theorem OEnv.Denotes.accepted {E : OEnv} (hE : E.RootsFree) {all : Bool} {rel : Bool} {pre : List Int} {b : Bool} {cs : List OComp}
    {l : List Int} (h : E.Denotes all rel pre b cs l) (hall : all = false) : ∀ {root : Bool} {parent : Option Keyword},
    FoldState rel pre b root parent → ∃ ast n, createComps root parent cs = some ast ∧ mapComps E n ast = some l := by
  have name : ∀ {c : OComp} {rel pre md nm}, c.Names rel pre all md nm → c = .name md nm := by
    intro c rel pre md nm hn
    cases c with
    | name => obtain ⟨rfl, rfl, -⟩ := hn; rfl
    | ext => obtain ⟨-, -, ha⟩ := hn; rw [hall] at ha; cases ha
    | _ => exact absurd hn id
  have join : ∀ {c : OAst} {ast : List OAst} {n m : Nat} {a l : List Int}, mapComp E n c = some a → mapComps E m ast = some l →
      ∃ k, mapComps E k (c :: ast) = some (a ++ l) := by
    intro c ast n m a l h1 h2
    exact ⟨max n m + 1, mapComps_of_cons (mapComp_mono (by omega) h1) (mapComps_mono (by omega) h2)⟩
  induction h with
  | nil => intro root parent _; exact ⟨[], 1, rfl, rfl⟩
  | @num rel pre b n cs l hn _ ih =>
    intro root parent hs
    obtain ⟨ast, m, h1, h2⟩ := ih (foldState_next _ _)
    obtain ⟨k, hk⟩ := join (c := .integer n) (n := 0) rfl h2
    exact ⟨.integer n :: ast, k, by simp [createComps, createComp, hn, h1], hk⟩
  | @nameNum rel pre b nm n cs l hn _ ih =>
    intro root parent hs
    obtain ⟨ast, m, h1, h2⟩ := ih (foldState_next _ _)
    obtain ⟨k, hk⟩ := join (c := .namedInt n) (n := 0) rfl h2
    exact ⟨.namedInt n :: ast, k, by simp [createComps, createComp, hn, h1], hk⟩
  | @nameRef rel pre b nm md v n cs l hr _ _ ih =>
    intro root parent hs
    obtain ⟨ast, m, h1, h2⟩ := ih (foldState_next _ _)
    obtain ⟨m', hm'⟩ := hr.actual
    obtain ⟨k, hk⟩ := join (c := .namedDef md v) (n := m') (a := [n]) (by simp [mapComp, hm']) h2
    exact ⟨.namedDef md v :: ast, k, by simp [createComps, createComp, h1], hk⟩
  | @registered pre b md nm k cs l hx hb _ ih =>
    intro root parent hs
    cases b with
    | false =>
      rcases hb with hb | ⟨hb, -⟩
      · cases hb
      · rw [hall] at hb; cases hb
    | true =>
      have hl : IsLevel (nextKeywords root parent) pre := hs
      cases hf : findKeyword (nextKeywords root parent) nm with
      | none => exact absurd hx (hl.notFound hf k)
      | some kw =>
        cases kw with
        | leaf names k' subs =>
          obtain ⟨h4, h5⟩ := hl.found hf
          cases x660_unique _ hx _ h4 rfl rfl
          obtain ⟨ast, m, h1, h2⟩ := ih (root := false) (parent := some (.leaf names k subs)) h5
          obtain ⟨j, hj⟩ := join (c := .keyword k) (n := 0) rfl h2
          exact ⟨.keyword k :: ast, j, by simp [createComps, createComp, regKeyword_eq, hf, h1], hj⟩
  | @relValue rel pre b c md nm cs' cs l1 l2 hn hr _ _ ih1 ih2 =>
    intro root parent hs
    cases name hn
    obtain ⟨ast1, m1, h1, h2⟩ := ih1 (root := true) (parent := none) ⟨rfl, rfl⟩
    obtain ⟨ast2, m2, h3, h4⟩ := ih2 (foldState_next _ _)
    obtain ⟨m', hm'⟩ := hr.actual
    obtain ⟨k, hk⟩ := join (c := .defined md nm) (n := max m' m1) (a := l1) (by
      simp only [mapComp, actualValue_mono (show m' ≤ max m' m1 by omega) hm', h1]
      exact mapComps_mono (by omega) h2) h4
    exact ⟨.defined md nm :: ast2, k, by simp [createComps, createComp, notKeyword hE hs hn hr, h3], hk⟩
  | @oidValue c md nm cs' cs l1 l2 hn hr _ _ ih1 ih2 =>
    intro root parent hs
    cases name hn
    obtain ⟨ast1, m1, h1, h2⟩ := ih1 (root := true) (parent := none) .roots
    obtain ⟨ast2, m2, h3, h4⟩ := ih2 (foldState_next _ _)
    obtain ⟨m', hm'⟩ := hr.actual
    obtain ⟨k, hk⟩ := join (c := .defined md nm) (n := max m' m1) (a := l1) (by
      simp only [mapComp, actualValue_mono (show m' ≤ max m' m1 by omega) hm', h1]
      exact mapComps_mono (by omega) h2) h4
    exact ⟨.defined md nm :: ast2, k, by simp [createComps, createComp, notKeyword hE hs hn hr, h3], hk⟩
  | intValue h => rw [hall] at h; cases h

theorem OEnv.Denotes.widen {E : OEnv} {rel : Bool} {pre : List Int} {b : Bool} {cs : List OComp} {l : List Int} {all : Bool}
    (h : E.Denotes all rel pre b cs l) : E.Denotes true rel pre b cs l := by
  have hw : ∀ {c : OComp} {rel pre md nm}, c.Names rel pre all md nm → c.Names rel pre true md nm := by
    intro c rel pre md nm hn
    cases c with
    | ext => exact ⟨hn.1, hn.2.1, rfl⟩
    | _ => exact hn
  induction h with
  | nil => exact .nil
  | num h _ ih => exact .num h ih
  | nameNum h _ ih => exact .nameNum h ih
  | nameRef h h' _ ih => exact .nameRef h h' ih
  | registered h h' _ ih => exact .registered h (h'.imp id fun h => ⟨rfl, h.2⟩) ih
  | relValue h h' _ _ ih1 ih2 => exact .relValue (hw h) h' ih1 ih2
  | oidValue h h' _ _ ih1 ih2 => exact .oidValue (hw h) h' ih1 ih2
  | intValue _ h h' h'' _ ih => exact .intValue rfl (hw h) h' h'' ih

end Asn1
