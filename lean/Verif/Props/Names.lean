import Verif.Proof.Names3
import Verif.Proof.Names4
/-!
# Names of C types and of enumerants: C92, C93
-/
namespace Asn1

/-! ## C92: names of types -/

/-- C92: whatever names are asked for, in whatever program units, as often as one likes, the compiler gives out pairwise different names, one for each request,
and none of them is a keyword of C89. -/
theorem C92_distinct (rounds : Nat) (typePrefix : CName) (requests : List (CName × CName)) (names : List CName) (taken : Taken)
    (h : reserveTypeNames rounds typePrefix [] requests = some (names, taken)) :
    names.Nodup ∧ names.length = requests.length ∧ ∀ n ∈ names, n ∉ c89Keywords := by
  obtain ⟨h1, h2, h3⟩ := reserveTypeNames_free _ _ _ _ _ _ h
  have hk : c89Keywords = cKeywords := by decide
  exact ⟨h1, h3, fun n hn => by rw [hk]; exact (h2 n hn).2⟩

/-- C92: the names of the types of all modules are chosen in finitely many rounds. Partial: the type prefix, if there is one, is made of letters, digits and
underscores; fewer than 2^32 types. -/
theorem C92_ends_partial (typePrefix : CName) (modules : List (CName × List CName)) (hp : ∀ c ∈ typePrefix, IsIdChar c)
    (hm : ∀ m ∈ modules, IsAsn1Name m.1 ∧ ∀ t ∈ m.2, IsAsn1Name t) (hn : (typeRequests typePrefix modules).length < 4294967296) :
    ∃ least, ∀ rounds, least ≤ rounds → ∃ names, typedefNames rounds typePrefix modules = some names := by
  have hr := typeRequests_ok hp hm
  obtain ⟨F, hF⟩ := reserveTypeNames_ends typePrefix (typeRequests typePrefix modules) [] (by simpa [Taken.names] using hn)
    (fun r h => ⟨(hr r h).2.1, (hr r h).2.2.2⟩)
  refine ⟨F, fun f hf => ?_⟩
  obtain ⟨ns, t', h, _⟩ := hF f hf
  exact ⟨ns, by unfold typedefNames; rw [h]; rfl⟩

/-- C92: the names of the types are identifiers of C. Partial: no type has a name that ends in a number of more than eight digits, and at most 10^9 rounds are
needed for a name (see `C92_overflow_violation`). -/
theorem C92_identifier_partial (rounds : Nat) (typePrefix : CName) (modules : List (CName × List CName)) (names : List CName)
    (hp : typePrefix = [] ∨ IsCIdentifier typePrefix) (hm : ∀ m ∈ modules, IsAsn1Name m.1 ∧ ∀ t ∈ m.2, IsAsn1Name t)
    (hs : ∀ r ∈ typeRequests typePrefix modules, ShortNumber r.2) (hr : rounds ≤ 1000000000)
    (h : typedefNames rounds typePrefix modules = some names) : ∀ n ∈ names, IsCIdentifier n := by
  have hp' : ∀ c ∈ typePrefix, IsIdChar c := by
    rcases hp with rfl | hp
    · simp
    · cases typePrefix with
      | nil => simp
      | cons d ds =>
        intro c hc
        rcases List.mem_cons.mp hc with rfl | hc
        · exact Or.inl hp.1
        · exact hp.2 c hc
  have hq := typeRequests_ok hp' hm
  unfold typedefNames at h
  rw [Option.map_eq_some_iff] at h
  obtain ⟨⟨ns, t'⟩, h1, h2⟩ := h
  simp only at h2
  subst h2
  intro n hn
  obtain ⟨h3, c, rest, h4, h5⟩ := reserveTypeNames_idChar rounds typePrefix _ _ _ _ (fun r hr' => by
    have := hq r hr'
    have hsn := shortNumber_num this.2.2.1 (hs r hr')
    exact ⟨this.1, this.2.1, this.2.2.1, this.2.2.2, by omega⟩) h1 n hn
  subst h4
  rcases hp with rfl | hp
  · exact ⟨h5, fun x hx => h3 x (by simp [hx])⟩
  · cases typePrefix with
    | nil => exact absurd hp (by simp [IsCIdentifier])
    | cons d ds => exact ⟨hp.1, fun x hx => h3 x (List.mem_cons_of_mem _ hx)⟩

/-- C92: types whose names, with hyphens turned into underscores, are different and no keywords keep these names, in one round. -/
theorem C92_own_names (rounds : Nat) (typePrefix : CName) (modules : List (CName × List CName))
    (hd : ((typeRequests typePrefix modules).map Prod.snd).Nodup) (hk : ∀ r ∈ typeRequests typePrefix modules, r.2 ∉ c89Keywords) :
    typedefNames (rounds + 1) typePrefix modules = some (modules.flatMap fun m => m.2.map fun t => toC (typePrefix ++ t)) := by
  have hk' : c89Keywords = cKeywords := by decide
  obtain ⟨t', h⟩ := reserveTypeNames_same rounds typePrefix (typeRequests typePrefix modules) [] hd
    (fun r hr => ⟨by simp [Taken.names], by rw [← hk']; exact hk r hr⟩)
  unfold typedefNames
  rw [h]
  simp [typeRequests, List.map_flatMap, Function.comp_def]

/-- Two modules with types of the same names. -/
def exModules : List (CName × List CName) :=
  [("Mod-A".toList, ["T".toList, "T-1".toList, "My-Int".toList]), ("B".toList, ["T".toList, "My-Int".toList, "B-T".toList])]

example : typedefNames 10 [] exModules = some (["T", "T_1", "My_Int", "B_T", "B_My_Int", "B_T_1"].map String.toList) := by decide +kernel
example : typedefNames 10 "asn1Scc".toList exModules =
    some (["asn1SccT", "asn1SccT_1", "asn1SccMy_Int", "asn1SccB_T", "asn1SccB_My_Int", "asn1SccB_T_1"].map String.toList) := by decide +kernel
example : ∀ m ∈ exModules, IsAsn1Name m.1 ∧ ∀ t ∈ m.2, IsAsn1Name t := by decide +kernel
example : (typeRequests [] exModules).length < 4294967296 := by decide +kernel
example : ∀ c ∈ "asn1Scc".toList, IsIdChar c := by decide +kernel
theorem exModules_short : ∀ r ∈ typeRequests "asn1Scc".toList exModules, ShortNumber r.2 := by
  have h : ∀ r ∈ typeRequests "asn1Scc".toList exModules, ∀ k, k < r.2.length → ∀ l, l = r.2.drop (k + 1) → (∀ c ∈ l, c.isDigit = true) → l.length ≤ 8 := by
    intro r hr k hk l hl
    subst hl
    revert r k
    decide +kernel
  intro r hr s l he hd
  refine h r hr s.length (by rw [he]; simp) l (by rw [he]; simp) hd
example : IsCIdentifier "asn1Scc".toList := by decide +kernel
/-- Requests with a keyword and with one name three times in the same unit. -/
example : (reserveTypeNames 10 [] [] (["int", "T", "T", "T_007", "T_007"].map fun s => ("M".toList, s.toList))).map Prod.fst =
    some (["int_1", "T", "T_1", "T_007", "T_8"].map String.toList) := by decide +kernel
example : ((typeRequests [] [("M".toList, ["T".toList, "T-1".toList]), ("N".toList, ["U".toList])]).map Prod.snd).Nodup := by decide +kernel

/-- C92 is violated by types whose names end in the greatest number of 32 bits: counting on gives a name with a minus sign. -/
theorem C92_overflow_violation :
    typedefNames 10 [] [("M".toList, ["T-2147483647".toList]), ("N".toList, ["N-T-2147483647".toList, "T-2147483647".toList])] =
      some (["T_2147483647", "N_T_2147483647", "N_T_-2147483648"].map String.toList) ∧
    ¬IsCIdentifier "N_T_-2147483648".toList := by
  refine ⟨by decide +kernel, by decide +kernel⟩

/-- C92: the names of the functions are not looked at. The type `T-Encode` gets the name of the function that encodes a `T`, and the function that
encodes a `T-ACN` by uPER gets the name of the function that encodes a `T` by ACN. -/
theorem C92_function_violation :
    typedefNames 10 [] [("M".toList, ["T".toList, "T-Encode".toList])] = some ["T".toList, "T_Encode".toList] ∧
    "T_Encode".toList ∈ functionNames "T".toList ∧
    typedefNames 10 [] [("M".toList, ["T".toList, "T-ACN".toList])] = some ["T".toList, "T_ACN".toList] ∧
    "T_ACN_Encode".toList ∈ functionNames "T".toList ∧ "T_ACN_Encode".toList ∈ functionNames "T_ACN".toList := by decide +kernel

/-- C92: the functions of types have different names, and none has the name of a type. Partial: no name of a type has one of the words that are put behind
names of types at its end (`Encode`, `Decode`, `ACN`, `XER`, `Initialize`, `IsConstraintValid`, `Equal`), see `C92_function_violation`. -/
theorem C92_functions_partial (names : List CName) (hd : names.Nodup)
    (hn : ∀ n ∈ names, ∀ s ∈ ["_Encode", "_Decode", "_ACN", "_XER", "_Initialize", "_IsConstraintValid", "_Equal"], ¬(s.toList <:+ n)) :
    (names ++ names.flatMap functionNames).Nodup := by
  exact functionNames_nodup hd hn

example : ∀ n ∈ ["T".toList, "T_1".toList, "EncodeT".toList],
    ∀ s ∈ ["_Encode", "_Decode", "_ACN", "_XER", "_Initialize", "_IsConstraintValid", "_Equal"], ¬(s.toList <:+ n) := by decide +kernel

/-! ## C93: names of enumerants -/

/-- C93: if the compiler has finished with the enumerants, their C names are pairwise different, different from the keywords of C89 and from the names of the
value assignments; each of them is still an enumerant of the same type, and its name ends in the name it had. -/
theorem C93_distinct (rounds : Nat) (values : List CName) (items items' : List Enumerant) (h : handleEnums rounds values items = .done items') :
    (items'.map Enumerant.name).Nodup ∧ (∀ e ∈ items', e.name ∉ c89Keywords ∧ e.name ∉ values) ∧ SameEnumerants items items' := by
  have hd := keepDuplicates_nil.mp (handleEnums_done _ _ _ _ h)
  rw [List.append_assoc, List.nodup_append] at hd
  have hk : c89Keywords = cKeywords := by decide
  refine ⟨hd.1, fun e he => ?_, handleEnums_same _ _ _ _ h⟩
  have hm : e.name ∈ items'.map Enumerant.name := List.mem_map_of_mem he
  exact ⟨fun hc => hd.2.2 _ hm _ (List.mem_append_right _ (hk ▸ hc)) rfl, fun hc => hd.2.2 _ hm _ (List.mem_append_left _ hc) rfl⟩

/-- C93: the renaming comes to an end, with new names or with an exception. Partial: the names of the value assignments of all modules are pairwise different
and no keywords (see `C93_hang_violation`). -/
theorem C93_ends_partial (values : List CName) (items : List Enumerant) (hv : values.Nodup) (hk : ∀ v ∈ values, v ∉ c89Keywords) :
    ∃ least, ∀ rounds, least ≤ rounds → (∃ items', handleEnums rounds values items = .done items') ∨ handleEnums rounds values items = .crashed := by
  have hk' : c89Keywords = cKeywords := by decide
  have hnd : (values ++ cKeywords).Nodup := by
    rw [List.nodup_append]
    exact ⟨hv, keywords_nodup, fun a ha b hb hab => hk a ha (by rw [hk', hab]; exact hb)⟩
  refine ⟨roomOfAll items + 1, fun f hf => ?_⟩
  have := handleEnums_ends values hnd f items (by omega)
  cases h : handleEnums f values items with
  | done items' => exact Or.inl ⟨items', rfl⟩
  | crashed => exact Or.inr rfl
  | running => exact absurd h this

/-- C93: enumerants that have different names from the start, none of them a keyword or the name of a value, keep their names. -/
theorem C93_own_names (rounds : Nat) (values : List CName) (items : List Enumerant)
    (h : (items.map Enumerant.name ++ values ++ c89Keywords).Nodup) : handleEnums (rounds + 1) values items = .done items := by
  have hk : c89Keywords = cKeywords := by decide
  unfold handleEnums
  rw [if_pos (show doubleEnumNames items values = [] from keepDuplicates_nil.mpr (hk ▸ h))]

/-- Two types with enumerants of the same names, one of them a keyword, and a component with an anonymous type. -/
def exEnumerants : List Enumerant :=
  [enumerant ["M".toList, "Color".toList] "red".toList, enumerant ["M".toList, "Color".toList] "dark-blue".toList,
   enumerant ["M".toList, "Light".toList] "red".toList, enumerant ["M".toList, "Light".toList] "switch".toList,
   enumerant ["M".toList, "S".toList, "field".toList] "red".toList, enumerant ["N".toList, "Color".toList] "red".toList]

example : handleEnums 10 ["red".toList, "dark-blue".toList] exEnumerants =
    .done [⟨["M".toList, "Color".toList], "M_Color_red".toList⟩, ⟨["M".toList, "Color".toList], "dark_blue".toList⟩,
      ⟨["M".toList, "Light".toList], "Light_red".toList⟩, ⟨["M".toList, "Light".toList], "Light_switch".toList⟩,
      ⟨["M".toList, "S".toList, "field".toList], "field_red".toList⟩, ⟨["N".toList, "Color".toList], "N_Color_red".toList⟩] := by decide +kernel
example : (["red", "dark-blue"].map String.toList).Nodup ∧ ∀ v ∈ ["red", "dark-blue"].map String.toList, v ∉ c89Keywords := by decide +kernel
example : (([enumerant ["M".toList, "T".toList] "a".toList, enumerant ["M".toList, "T".toList] "b".toList].map Enumerant.name) ++ ["c".toList] ++ c89Keywords).Nodup := by
  decide +kernel

/-- C93 is violated by two modules that define values of the same name: the compiler never finishes. With no enumerants at all it goes on forever. -/
theorem C93_hang_violation (values : List CName) (hv : ¬values.Nodup) :
    (∀ rounds items items', handleEnums rounds values items ≠ .done items') ∧ ∀ rounds, handleEnums rounds values [] = .running := by
  have hnd : ¬(values ++ cKeywords).Nodup := fun h => hv (List.nodup_append.mp h).1
  exact ⟨fun f items items' => handleEnums_never hnd f items items', handleEnums_nothing hnd⟩

example : ¬["max".toList, "max".toList].Nodup := by decide

/-- C93: if the renaming is stopped by an exception in the first round, an enumerant whose name is not unique has a name that contains the name of its module, of
its type assignment and of all components on the way. -/
theorem C93_crash_partial (values : List CName) (items : List Enumerant) (h : handleEnums 1 values items = .crashed) :
    ∃ e ∈ items, e.name ∈ doubleEnumNames items values ∧ ∀ k ∈ e.key, toC k <:+: e.name := by
  unfold handleEnums at h
  split at h
  · cases h
  · split at h
    · rename_i hn; exact copyItems_crash _ hn
    · cases h

/-- C93 is violated by such a name: a correct specification stops the compiler. -/
theorem C93_crash_violation : ∀ rounds, handleEnums (rounds + 1) [] [enumerant ["M".toList, "T".toList] "setMT".toList,
    enumerant ["M".toList, "U".toList] "setMT".toList] = .crashed := by
  intro f
  unfold handleEnums
  have h1 : doubleEnumNames [enumerant ["M".toList, "T".toList] "setMT".toList, enumerant ["M".toList, "U".toList] "setMT".toList] [] = ["setMT".toList] := by
    decide +kernel
  have h2 : [enumerant ["M".toList, "T".toList] "setMT".toList, enumerant ["M".toList, "U".toList] "setMT".toList].mapM (copyItem ["setMT".toList]) = none := by
    decide +kernel
  rw [h1, h2]; rfl

/-- C93: keywords that came with C99 are not avoided, and the names of values are compared before hyphens become underscores. Names of types are not looked at. -/
theorem C93_names_violation :
    (handleEnums 10 [] [enumerant ["M".toList, "T".toList] "inline".toList] = .done [⟨["M".toList, "T".toList], "inline".toList⟩] ∧
      "inline".toList ∈ c99Keywords) ∧
    (handleEnums 10 ["a-b".toList] [enumerant ["M".toList, "T".toList] "a-b".toList] = .done [⟨["M".toList, "T".toList], "a_b".toList⟩] ∧
      toC "a-b".toList = "a_b".toList) ∧
    (handleEnums 10 [] [enumerant ["M".toList, "C".toList] "red".toList, enumerant ["M".toList, "D".toList] "red".toList] =
        .done [⟨["M".toList, "C".toList], "C_red".toList⟩, ⟨["M".toList, "D".toList], "D_red".toList⟩] ∧
      typedefNames 10 [] [("M".toList, ["C".toList, "D".toList, "C-red".toList])] = some ["C".toList, "D".toList, "C_red".toList]) := by
  refine ⟨⟨?_, ?_⟩, ⟨?_, ?_⟩, ?_, ?_⟩ <;> decide +kernel

end Asn1
