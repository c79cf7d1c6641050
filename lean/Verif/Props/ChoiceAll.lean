import Verif.Model.ChoiceAll
import Verif.Proof.ChoiceNames
/-!
# C109 under the policy `AllEnumerants` (`-renamePolicy 2`)
-/
namespace Asn1

/-- C109: if the compiler has finished, the names of all alternatives are pairwise different even without the difference of small and capital
letters. -/
theorem C109_all_distinct : ∀ (rounds : Nat) (as as' : List NameAssignment), handleAll rounds as = .done as' →
    ((allNames as').map (List.map Char.toLower)).Nodup
  | 0, _, _, h => by cases h
  | f + 1, as, as', h => by
    unfold handleAll at h
    split at h
    · rename_i hd; cases h; exact keepFold_nil.1 hd
    · split at h
      · cases h
      · exact C109_all_distinct f _ _ h

/-- Two CHOICE types with alternatives of the same name. -/
def exAll : List NameAssignment :=
  [⟨"M".toList, "Msg".toList, .choice (.cons "on".toList "on".toList .leaf (.cons "off".toList "off".toList .leaf .nil))⟩,
   ⟨"M".toList, "Cmd".toList, .choice (.cons "on".toList "on".toList .leaf .nil)⟩]

/-- They get the names of their types, all alternatives of a type the same one. -/
example : ∃ as', handleAll 10 exAll = .done as' ∧ allNames as' = ["Msg_on", "Msg_off", "Cmd_on"].map String.toList :=
  ⟨_, rfl, by decide +kernel⟩

/-- `T ::= CHOICE { a CHOICE { x NULL }, b CHOICE { x NULL } }`. -/
def exNested : List NameAssignment :=
  [⟨"M".toList, "T".toList, .choice (.cons "a".toList "a".toList (.choice (.cons "x".toList "x".toList .leaf .nil))
    (.cons "b".toList "b".toList (.choice (.cons "x".toList "x".toList .leaf .nil)) .nil))⟩]

/-- C109 is violated by a CHOICE inside a CHOICE: the new names of the inner alternatives are thrown away, and the compiler goes on forever. -/
theorem C109_all_violation : ∀ rounds, handleAll rounds exNested = .running
  | 0 => rfl
  | f + 1 => by
    have h1 : keepDuplicatesFold [] (allNames exNested) ≠ [] := by decide +kernel
    have h2 : exNested.mapM (NameAssignment.cloneAll (keepDuplicatesFold [] (allNames exNested))) = some exNested := rfl
    rw [handleAll, if_neg h1, h2]
    exact C109_all_violation f

end Asn1
