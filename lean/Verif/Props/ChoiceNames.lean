import Verif.Proof.ChoiceNames
/-!
# C109: names of the alternatives of CHOICE types

The alternatives of all CHOICE types of a specification are given by the keys of their types and their names in ASN.1.
-/
namespace Asn1

/-- All alternatives as they go into the renaming. -/
def alternatives (l : List (List CName × CName)) : List Enumerant := l.map fun p => alternative p.1 p.2

theorem alternatives_isC (l : List (List CName × CName)) : ∀ e ∈ alternatives l, IsC e.name := by
  intro e he
  obtain ⟨p, -, rfl⟩ := List.mem_map.1 he
  exact isC_toC _

/-- C109: if the compiler has finished with the alternatives, their names are pairwise different even without the difference of small and
capital letters, and so are the C enumerators made of them. Each is still an alternative of the same type, and its name ends in the name
that it has in ASN.1. -/
theorem C109_distinct (rounds : Nat) (l : List (List CName × CName)) (items' : List Enumerant)
    (h : handleChoices rounds (alternatives l) = .done items') :
    (items'.map fun e => e.name.map Char.toLower).Nodup ∧ (items'.map presentName).Nodup ∧ SameEnumerants (alternatives l) items' := by
  obtain ⟨h1, h2, h3⟩ := handleChoices_done _ _ _ (alternatives_isC l) h
  have h4 := keepFold_nil.1 h1
  rw [List.map_map] at h4
  refine ⟨h4, ?_, h2⟩
  have h5 : items'.map presentName = items'.map fun e => e.name ++ "_PRESENT".toList :=
    List.map_congr_left fun e he => by unfold presentName; rw [toC_of_isC (h3 e he)]
  rw [h5]
  refine List.pairwise_map.2 ((List.pairwise_map.1 h4).imp fun {a b} hab heq => hab ?_)
  simp only [Function.comp_apply]
  rw [List.append_cancel_right heq]

/-- C109: the renaming always comes to an end, with new names or with an error message. -/
theorem C109_ends (l : List (List CName × CName)) : ∃ least, ∀ rounds, least ≤ rounds →
    (∃ items', handleChoices rounds (alternatives l) = .done items') ∨ handleChoices rounds (alternatives l) = .crashed := by
  refine ⟨roomOfAll (alternatives l) + 1, fun f hf => ?_⟩
  have := handleChoices_ends f _ (alternatives_isC l) (by omega)
  cases h : handleChoices f (alternatives l) with
  | done items' => exact Or.inl ⟨items', rfl⟩
  | crashed => exact Or.inr rfl
  | running => exact absurd h this

/-- C109: alternatives that have different names from the start keep them. -/
theorem C109_own_names (rounds : Nat) (l : List (List CName × CName))
    (h : ((alternatives l).map fun e => e.name.map Char.toLower).Nodup) : handleChoices (rounds + 1) (alternatives l) = .done (alternatives l) := by
  unfold handleChoices
  rw [if_pos]
  refine keepFold_nil.2 ?_
  rw [List.map_map]
  exact h

/-- Two CHOICE types in one module and one of the same name in another, and one inside a SEQUENCE OF. -/
def exAlternatives : List (List CName × CName) :=
  [(["M".toList, "Msg".toList], "on".toList), (["M".toList, "Msg".toList], "switch-off".toList), (["M".toList, "Cmd".toList], "on".toList),
   (["N".toList, "Cmd".toList], "on".toList), (["N".toList, "List".toList, "#".toList], "On".toList)]

example : handleChoices 10 (alternatives exAlternatives) =
    .done [⟨["M".toList, "Msg".toList], "Msg_on".toList⟩, ⟨["M".toList, "Msg".toList], "switch_off".toList⟩,
      ⟨["M".toList, "Cmd".toList], "M_Cmd_on".toList⟩, ⟨["N".toList, "Cmd".toList], "N_Cmd_on".toList⟩,
      ⟨["N".toList, "List".toList, "#".toList], "elm_On".toList⟩] := by decide +kernel
example : ((alternatives [(["M".toList, "A".toList], "x".toList), (["M".toList, "B".toList], "y-z".toList)]).map
    fun e => e.name.map Char.toLower).Nodup := by decide +kernel

/-- C109: the enumerators of alternatives, renamed or not, differ from the enumerators of ENUMERATED types. Partial: the names of the items begin with a
small letter, as in ASN.1, and do not end in `_PRESENT` (see `C109_enumerant_violation`). -/
theorem C109_enumerants_partial (rounds : Nat) (values : List CName) (enums enums' : List Enumerant)
    (he : handleEnums rounds values enums = .done enums')
    (hn : ∀ e ∈ enums, (∃ c cs, e.name = c :: cs ∧ c.isLower = true) ∧ ¬ "_PRESENT".toList <:+ e.name) :
    ∀ (a : Enumerant), ∀ e ∈ enums', presentName a ≠ e.name := by
  have key : ∀ (enums enums' : List Enumerant), SameEnumerants enums enums' →
      (∀ e ∈ enums, (∃ c cs, e.name = c :: cs ∧ c.isLower = true) ∧ ¬ "_PRESENT".toList <:+ e.name) →
      ∀ e' ∈ enums', ¬ "_PRESENT".toList <:+ e'.name := by
    intro enums
    induction enums with
    | nil =>
      intro enums' hs _ e' he'
      cases enums' with
      | nil => cases he'
      | cons => cases hs
    | cons e es ih =>
      intro enums' hs hn e' he'
      cases enums' with
      | nil => cases he'
      | cons e1 es1 =>
        rcases List.mem_cons.1 he' with rfl | he'
        · intro hp
          obtain ⟨⟨c, cs, hcs, hl⟩, hnp⟩ := hn e (by simp)
          rcases List.suffix_or_suffix_of_suffix hs.2.1 hp with h1 | h1
          · rw [hcs] at h1
            have h2 : ∀ c ∈ "_PRESENT".toList, c.isLower = false := by decide +kernel
            rw [h2 c (h1.subset (by simp))] at hl
            cases hl
          · exact hnp h1
        · exact ih es1 hs.2.2 (fun x hx => hn x (by simp [hx])) e' he'
  intro a e he2 heq
  refine key enums enums' (handleEnums_same _ _ _ _ he) hn e he2 ?_
  rw [← heq]
  exact ⟨toC a.name, rfl⟩

example : handleEnums 10 [] [enumerant ["M".toList, "E".toList] "on".toList] = .done [⟨["M".toList, "E".toList], "on".toList⟩] ∧
    ¬ "_PRESENT".toList <:+ "on".toList := by decide +kernel

/-- C109 is violated by an item `on-PRESENT` of an ENUMERATED type and an alternative `on`: two enumerators of the same name in C. -/
theorem C109_enumerant_violation :
    handleChoices 10 (alternatives [(["M".toList, "T".toList], "on".toList)]) = .done [⟨["M".toList, "T".toList], "on".toList⟩] ∧
    handleEnums 10 [] [enumerant ["M".toList, "E".toList] "on-PRESENT".toList] = .done [⟨["M".toList, "E".toList], "on_PRESENT".toList⟩] ∧
    presentName ⟨["M".toList, "T".toList], "on".toList⟩ = "on_PRESENT".toList := by
  refine ⟨?_, ?_, ?_⟩ <;> decide +kernel

/-- C109: if an error message stops the renaming in the first round, an alternative whose name is not unique has a name that contains the
names of its module, of its type assignment and of all components on the way. -/
theorem C109_crash_partial (l : List (List CName × CName)) (h : handleChoices 1 (alternatives l) = .crashed) :
    ∃ e ∈ alternatives l, (doubleChoiceNames (alternatives l)).any (icompare e.name) = true ∧ ∀ k ∈ e.key, toC k <:+: e.name := by
  unfold handleChoices at h
  split at h
  · cases h
  · split at h
    · rename_i hn; exact copyChoices_crash _ hn
    · cases h

/-- C109 is violated by two alternatives of one CHOICE type that differ only in capital letters: the compiler refuses the type, although ASN.1
and C tell the names apart. -/
theorem C109_case_violation : ∀ rounds, handleChoices (rounds + 3) (alternatives [(["M".toList, "T".toList], "id".toList),
    (["M".toList, "T".toList], "iD".toList)]) = .crashed := by
  intro f
  have h1 : ∀ (g : Nat) (items items1 : List Enumerant), doubleChoiceNames items ≠ [] →
      items.mapM (copyChoice (doubleChoiceNames items)) = some items1 → handleChoices (g + 1) items = handleChoices g items1 := by
    intro g items items1 hd hm
    rw [handleChoices, if_neg hd, hm]
  rw [h1 (f + 2) _ [⟨["M".toList, "T".toList], "T_id".toList⟩, ⟨["M".toList, "T".toList], "T_iD".toList⟩] (by decide +kernel) (by decide +kernel),
    h1 (f + 1) _ [⟨["M".toList, "T".toList], "M_T_id".toList⟩, ⟨["M".toList, "T".toList], "M_T_iD".toList⟩] (by decide +kernel) (by decide +kernel)]
  have h2 : doubleChoiceNames [⟨["M".toList, "T".toList], "M_T_id".toList⟩, ⟨["M".toList, "T".toList], "M_T_iD".toList⟩] ≠ [] := by decide +kernel
  have h3 : [(⟨["M".toList, "T".toList], "M_T_id".toList⟩ : Enumerant), ⟨["M".toList, "T".toList], "M_T_iD".toList⟩].mapM (copyChoice (doubleChoiceNames
      [⟨["M".toList, "T".toList], "M_T_id".toList⟩, ⟨["M".toList, "T".toList], "M_T_iD".toList⟩])) = none := by decide +kernel
  rw [handleChoices, if_neg h2, h3]

end Asn1
