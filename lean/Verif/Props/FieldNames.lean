import Verif.Proof.FieldNames
/-!
# C113: names of the members of C structs and unions

The components of all SEQUENCE and CHOICE types of a specification are given by the keys of their types (module, type assignment, components on
the way, `#` for an element of a SEQUENCE OF) and their names in ASN.1.
-/
namespace Asn1

/-- All components as they go into the renaming. -/
def fields (l : List (List CName × CName)) : List Enumerant := l.map fun p => field p.1 p.2

theorem c89_iff (n : CName) : n ∈ c89Keywords ↔ n ∈ cKeywords := by
  have h : (∀ k ∈ c89Keywords, k ∈ cKeywords) ∧ (∀ k ∈ cKeywords, k ∈ c89Keywords) := by decide +kernel
  exact ⟨h.1 n, h.2 n⟩

/-- C113, `-fp AUTO`: the compiler comes to an end, and each component has a name that is not a keyword of the first C standard. A name that was not
one is kept. A keyword gets a name of its key and an underscore in front: the innermost that is not a part of the keyword. Partial: keywords that came later
(`C113_inline_violation`). -/
theorem C113_keywords_partial (l : List (List CName × CName)) (hk : ∀ p ∈ l, ∃ q ∈ p.1, Capital q) :
    ∃ rename : Enumerant → Enumerant, (∀ rounds, 2 ≤ rounds → fieldNames (some .auto) rounds (fields l) = .done ((fields l).map rename)) ∧
      ∀ e ∈ fields l, (rename e).key = e.key ∧ (rename e).name ∉ c89Keywords ∧ (e.name ∉ c89Keywords → (rename e).name = e.name) ∧
        (e.name ∈ c89Keywords → ∃ outer q inner, e.key = outer ++ q :: inner ∧ ¬ toC q <:+: e.name ∧ (∀ r ∈ inner, toC r <:+: e.name) ∧
          (rename e).name = toC q ++ '_' :: e.name) := by
  have hk' : ∀ e ∈ fields l, ∃ q ∈ e.key, Capital q := by
    intro e he
    obtain ⟨p, hp, rfl⟩ := List.mem_map.1 he
    exact hk p hp
  refine ⟨renamedField, fun rounds hr => handleFields_eq hk' rounds hr, fun e he => ⟨?_, ?_, ?_, ?_⟩⟩
  · by_cases h : e.name ∈ cKeywords
    · obtain ⟨x, l, -, -, h3⟩ := renamedField_keyword h (hk' e he)
      rw [h3]
    · rw [renamedField_other h]
  · rw [c89_iff]
    exact renamedField_free (hk' e he)
  · intro h
    rw [c89_iff] at h
    rw [renamedField_other h]
  · intro h
    rw [c89_iff] at h
    exact renamedField_innermost h (hk' e he)

/-- A SEQUENCE with a component `int`, and a CHOICE inside a SEQUENCE OF with an alternative `for`. -/
def exMembers : List (List CName × CName) :=
  [(["M".toList, "Msg".toList], "int".toList), (["M".toList, "Msg".toList], "my-int".toList),
   (["M".toList, "List".toList, "#".toList], "for".toList)]

theorem exMembers_capital : ∀ p ∈ exMembers, ∃ q ∈ p.1, Capital q := by
  intro p hp
  refine ⟨"M".toList, ?_, 'M', [], by decide +kernel, by decide, by decide⟩
  revert p
  decide +kernel

example : fieldNames (some .auto) 2 (fields exMembers) = .done [⟨["M".toList, "Msg".toList], "Msg_int".toList⟩,
    ⟨["M".toList, "Msg".toList], "my_int".toList⟩, ⟨["M".toList, "List".toList, "#".toList], "elm_for".toList⟩] := by decide +kernel

theorem small_not_prefixed {x : CName} (hx : IsAsn1Name x) (hs : Small x) {q : CName} (hq : Capital q) (n : CName) : toC x ≠ toC q ++ '_' :: n := by
  intro heq
  obtain ⟨c, cs, rfl, c1, c2⟩ := hs
  obtain ⟨d, ds, hd, d1, d2⟩ := toC_capital hq
  obtain ⟨e1, -⟩ := toC_name_char (Or.inl hx.1) cs
  have hmin : c ≠ '-' := by rintro rfl; revert c1; decide
  rw [e1, if_neg hmin, hd, List.cons_append, List.cons.injEq] at heq
  have h3 : c.toNat ≤ 'Z'.toNat := heq.1 ▸ d2
  have h4 : 'a'.toNat ≤ c.toNat := c1
  have : 'Z'.toNat < 'a'.toNat := by decide
  omega

/-- C113, `-fp AUTO`: two components of one type still have different names. Partial: the type is that of a type assignment itself, not one that
is written inside another type (`C113_nested_violation`). -/
theorem C113_distinct_partial (l : List (List CName × CName)) (hk : ∀ p ∈ l, ∃ q ∈ p.1, Capital q) (rounds : Nat) (hr : 2 ≤ rounds)
    (out : List Enumerant) (h : fieldNames (some .auto) rounds (fields l) = .done out) (i j : Nat) (m t a b : CName)
    (hm : Capital m) (ht : Capital t) (hi : l[i]? = some ([m, t], a)) (hj : l[j]? = some ([m, t], b)) (hab : a ≠ b)
    (ha : IsAsn1Name a ∧ Small a) (hb : IsAsn1Name b ∧ Small b) : (out.map Enumerant.name)[i]? ≠ (out.map Enumerant.name)[j]? := by
  have hk' : ∀ e ∈ fields l, ∃ q ∈ e.key, Capital q := by
    intro e he
    obtain ⟨p, hp, rfl⟩ := List.mem_map.1 he
    exact hk p hp
  have h1 : fieldNames (some .auto) rounds (fields l) = .done ((fields l).map renamedField) := handleFields_eq hk' rounds hr
  rw [h1] at h
  simp only [Renaming.done.injEq] at h
  subst h
  have cap : ∀ q ∈ [m, t], Capital q := by
    intro q hq
    simp only [List.mem_cons, List.not_mem_nil, or_false] at hq
    rcases hq with rfl | rfl
    · exact hm
    · exact ht
  have key := renamedField_distinct (a := field [m, t] a) (b := field [m, t] b) ⟨m, by simp [field], hm⟩ ⟨m, by simp [field], hm⟩
    (fun e => hab (toC_inj ha.1 hb.1 e)) (fun q hq => small_not_prefixed hb.1 hb.2 (cap q hq) _) (fun q hq => small_not_prefixed ha.1 ha.2 (cap q hq) _)
  simp only [fields, List.getElem?_map, hi, hj, Option.map_some]
  exact fun e => key (Option.some.inj e)

example : exMembers[0]? = some (["M".toList, "Msg".toList], "int".toList) ∧ exMembers[1]? = some (["M".toList, "Msg".toList], "my-int".toList) ∧
    Capital "Msg".toList ∧ (IsAsn1Name "int".toList ∧ Small "int".toList) ∧ (IsAsn1Name "my-int".toList ∧ Small "my-int".toList) :=
  ⟨by decide +kernel, by decide +kernel, ⟨'M', "sg".toList, by decide +kernel, by decide, by decide⟩,
    ⟨by decide +kernel, 'i', "nt".toList, by decide +kernel, by decide, by decide⟩,
    ⟨by decide +kernel, 'm', "y-int".toList, by decide +kernel, by decide, by decide⟩⟩

/-- C113, `-fp AUTO`: the same for a type inside others, if neither component has in C the name that is made of a name of the key and the name of the
other (missing: this case, `C113_nested_violation`). -/
theorem C113_nested_partial (l : List (List CName × CName)) (hk : ∀ p ∈ l, ∃ q ∈ p.1, Capital q) (rounds : Nat) (hr : 2 ≤ rounds)
    (out : List Enumerant) (h : fieldNames (some .auto) rounds (fields l) = .done out) (i j : Nat) (key : List CName) (a b : CName)
    (hi : l[i]? = some (key, a)) (hj : l[j]? = some (key, b)) (hab : a ≠ b) (ha : IsAsn1Name a) (hb : IsAsn1Name b)
    (hq : ∀ q ∈ key, toC b ≠ toC q ++ '_' :: toC a ∧ toC a ≠ toC q ++ '_' :: toC b) :
    (out.map Enumerant.name)[i]? ≠ (out.map Enumerant.name)[j]? := by
  have hk' : ∀ e ∈ fields l, ∃ q ∈ e.key, Capital q := by
    intro e he
    obtain ⟨p, hp, rfl⟩ := List.mem_map.1 he
    exact hk p hp
  have h1 : fieldNames (some .auto) rounds (fields l) = .done ((fields l).map renamedField) := handleFields_eq hk' rounds hr
  rw [h1] at h
  simp only [Renaming.done.injEq] at h
  subst h
  have hc : ∃ q ∈ key, Capital q := hk (key, a) (List.mem_of_getElem? hi)
  have hd := renamedField_distinct (a := field key a) (b := field key b) hc hc (fun e => hab (toC_inj ha hb e))
    (fun q h => (hq q h).1) (fun q h => (hq q h).2)
  simp only [fields, List.getElem?_map, hi, hj, Option.map_some]
  exact fun e => hd (Option.some.inj e)

/-- `int` and `b-int` in a component `a`. -/
example : ∀ q ∈ ["M".toList, "T".toList, "a".toList], toC "b-int".toList ≠ toC q ++ '_' :: toC "int".toList ∧
    toC "int".toList ≠ toC q ++ '_' :: toC "b-int".toList := by decide +kernel

/-- C113, without `-fp`, which is the default: the components keep their names, and if the compiler has not stopped with an error message, none of
them is a keyword of the first C standard. Partial: keywords that came later (`C113_inline_violation`). -/
theorem C113_default_partial (l : List (List CName × CName)) (rounds : Nat) (hn : ∀ p ∈ l, IsAsn1Name p.2)
    (h : keywordsRefused none (l.map Prod.snd) = false) :
    fieldNames none rounds (fields l) = .done (fields l) ∧ ∀ e ∈ fields l, e.name ∉ c89Keywords := by
  refine ⟨rfl, fun e he hk => ?_⟩
  rw [c89_iff] at hk
  obtain ⟨p, hp, rfl⟩ := List.mem_map.1 he
  have facts : ∀ k ∈ cKeywords, IsAsn1Name k ∧ toC k = k ∧ k.map Char.toLower = k := by decide +kernel
  obtain ⟨f1, f2, f3⟩ := facts _ hk
  have hpk : p.2 = toC p.2 := toC_inj (hn p hp) f1 f2.symm
  have : keywordsRefused none (l.map Prod.snd) = true := by
    unfold keywordsRefused
    refine List.any_eq_true.2 ⟨p.2, List.mem_map.2 ⟨p, hp, rfl⟩, ?_⟩
    rw [List.contains_iff_mem, hpk]
    have h3 : (toC p.2).map Char.toLower = toC p.2 := f3
    rw [h3]
    exact List.mem_append_left _ hk
  rw [h] at this
  cases this

example : keywordsRefused none ["my-int".toList, "x".toList] = false ∧ keywordsRefused none ["x".toList, "int".toList] = true ∧
    keywordsRefused none ["Begin".toList] = true := by decide +kernel

/-- C113, `-fp` with a prefix: every name is the prefix and the old name, and names that are different stay so. -/
theorem C113_prefix (p : CName) (rounds : Nat) (l : List (List CName × CName)) :
    ∃ out, fieldNames (some (.user p)) rounds (fields l) = .done out ∧ out.map Enumerant.key = l.map Prod.fst ∧
      out.map Enumerant.name = l.map (fun x => p ++ toC x.2) ∧
      ∀ i j : Nat × CName, (fields l)[i.1]?.map Enumerant.name = some i.2 → (fields l)[j.1]?.map Enumerant.name = some j.2 → i.2 ≠ j.2 →
        (out.map Enumerant.name)[i.1]? ≠ (out.map Enumerant.name)[j.1]? := by
  refine ⟨_, rfl, ?_, ?_, ?_⟩
  · simp [fields, field, List.map_map, Function.comp_def]
  · simp [fields, field, List.map_map, Function.comp_def]
  · intro i j hi hj hne heq
    simp only [List.getElem?_map, Option.map_map, Function.comp_def] at heq
    cases h1 : (fields l)[i.1]? with
    | none => rw [h1] at hi; cases hi
    | some a =>
      cases h2 : (fields l)[j.1]? with
      | none => rw [h2] at hj; cases hj
      | some b =>
        rw [h1] at hi heq; rw [h2] at hj heq
        simp only [Option.map_some, Option.some.injEq] at hi hj heq
        exact hne (by rw [← hi, ← hj]; exact List.append_cancel_left heq)

/-- C113, the struct of a SEQUENCE: its members have different names exactly if the components have, and none is called `exist` in a SEQUENCE with
a component that is OPTIONAL or has a DEFAULT. -/
theorem C113_members_partial (children : List (CName × Bool)) :
    (structMembers children).Nodup ↔ (children.map Prod.fst).Nodup ∧ ((∃ c ∈ children, c.2 = true) → ∀ c ∈ children, c.1 ≠ "exist".toList) := by
  unfold structMembers
  by_cases h : children.any Prod.snd = true
  · rw [if_pos h, List.nodup_append]
    have hex : ∃ c ∈ children, c.2 = true := List.any_eq_true.1 h
    constructor
    · rintro ⟨h1, -, h3⟩
      exact ⟨h1, fun _ c hc => h3 c.1 (List.mem_map.2 ⟨c, hc, rfl⟩) _ (by simp)⟩
    · rintro ⟨h1, h3⟩
      refine ⟨h1, by simp, ?_⟩
      intro a ha b hb
      obtain ⟨c, hc, rfl⟩ := List.mem_map.1 ha
      rw [List.mem_singleton.1 hb]
      exact h3 hex c hc
  · rw [if_neg h, List.append_nil]
    refine ⟨fun h1 => ⟨h1, fun hex => absurd (List.any_eq_true.2 hex) h⟩, fun h1 => h1.1⟩

example : structMembers [("a".toList, false), ("b".toList, true)] = ["a".toList, "b".toList, "exist".toList] := by decide +kernel

/-- C113: the compiler accepts a SEQUENCE exactly if its components have different names, and a CHOICE exactly if the names of its alternatives
differ not only in capital letters. -/
theorem C113_duplicates (names : List CName) :
    (duplicatesRefused false names = false ↔ names.Nodup) ∧ (duplicatesRefused true names = false ↔ (names.map (List.map Char.toLower)).Nodup) := by
  constructor
  · unfold duplicatesRefused
    rw [Bool.not_eq_false', groups_nodup]
    simp
  · unfold duplicatesRefused
    rw [Bool.not_eq_false', groups_nodup]
    simp

example : duplicatesRefused false ["a".toList, "b".toList, "A".toList] = false ∧ duplicatesRefused true ["a".toList, "b".toList, "A".toList] = true := by
  decide +kernel

/-- C113, from the text to the struct: a SEQUENCE of a type assignment, anywhere in a specification, that the check for duplicate names accepts, gives a
struct whose members have different names, without `-fp` and with `-fp AUTO`. Partial: not if a component is called `exist` and one is OPTIONAL or has a
DEFAULT (`C113_exist_violation`). -/
theorem C113_struct_partial (policy : Option FieldPrefix) (hp : policy = none ∨ policy = some .auto) (before after : List (List CName × CName))
    (hk : ∀ p ∈ before ++ after, ∃ q ∈ p.1, Capital q) (m t : CName) (hm : Capital m) (ht : Capital t) (cs : List (CName × Bool))
    (hc : ∀ c ∈ cs, IsAsn1Name c.1 ∧ Small c.1) (hd : duplicatesRefused false (cs.map Prod.fst) = false)
    (hx : (∃ c ∈ cs, c.2 = true) → ∀ c ∈ cs, c.1 ≠ "exist".toList) (rounds : Nat) (hr : 2 ≤ rounds) (out : List Enumerant)
    (h : fieldNames policy rounds (fields (before ++ (cs.map fun c => ([m, t], c.1)) ++ after)) = .done out) :
    (structMembers ((((out.drop before.length).take cs.length).map Enumerant.name).zip (cs.map Prod.snd))).Nodup := by
  have hnd : (cs.map Prod.fst).Nodup := (C113_duplicates _).1.1 hd
  have hexist : toC "exist".toList = "exist".toList ∧ IsAsn1Name "exist".toList := by decide +kernel
  have cap : ∀ q ∈ [m, t], Capital q := by
    intro q hq
    simp only [List.mem_cons, List.not_mem_nil, or_false] at hq
    rcases hq with rfl | rfl
    · exact hm
    · exact ht
  obtain ⟨g, hg, hg1, hg2⟩ : ∃ g : Enumerant → Enumerant, out = (fields (before ++ (cs.map fun c => ([m, t], c.1)) ++ after)).map g ∧
      (∀ a ∈ cs, ∀ b ∈ cs, a.1 ≠ b.1 → (g (field [m, t] a.1)).name ≠ (g (field [m, t] b.1)).name) ∧
      (∀ a ∈ cs, (g (field [m, t] a.1)).name = "exist".toList → toC a.1 = "exist".toList) := by
    rcases hp with rfl | rfl
    · refine ⟨id, ?_, fun a ha b hb hab e => hab (toC_inj (hc a ha).1 (hc b hb).1 e), fun a _ e => e⟩
      rw [List.map_id]
      exact (Renaming.done.inj h).symm
    · have hk' : ∀ e ∈ fields (before ++ (cs.map fun c => ([m, t], c.1)) ++ after), ∃ q ∈ e.key, Capital q := by
        intro e he
        obtain ⟨p, hp, rfl⟩ := List.mem_map.1 he
        simp only [List.mem_append] at hp
        rcases hp with (hp | hp) | hp
        · exact hk p (by simp [hp])
        · obtain ⟨c, -, rfl⟩ := List.mem_map.1 hp
          exact ⟨m, by simp [field], hm⟩
        · exact hk p (by simp [hp])
      have h1 := handleFields_eq hk' rounds hr
      have h2 : handleFields rounds _ = .done out := h
      rw [h1] at h2
      refine ⟨renamedField, (Renaming.done.inj h2).symm, fun a ha b hb hab => ?_, fun a _ e => ?_⟩
      · exact renamedField_distinct (a := field [m, t] a.1) (b := field [m, t] b.1) ⟨m, by simp [field], hm⟩ ⟨m, by simp [field], hm⟩
          (fun e => hab (toC_inj (hc a ha).1 (hc b hb).1 e)) (fun q hq => small_not_prefixed (hc b hb).1 (hc b hb).2 (cap q hq) _)
          (fun q hq => small_not_prefixed (hc a ha).1 (hc a ha).2 (cap q hq) _)
      · exact renamedField_exist (e := field [m, t] a.1) ⟨m, by simp [field], hm⟩ e
  have hslice : ((out.drop before.length).take cs.length).map Enumerant.name = cs.map fun c => (g (field [m, t] c.1)).name := by
    rw [hg]
    unfold fields
    rw [List.map_append, List.map_append, List.map_append, List.map_append, List.append_assoc, List.drop_left' (by simp), List.take_left' (by simp)]
    simp [List.map_map, Function.comp_def]
  have hzip : (cs.map fun c => (g (field [m, t] c.1)).name).zip (cs.map Prod.snd) = cs.map fun c => ((g (field [m, t] c.1)).name, c.2) := by
    rw [List.zip_map']
  rw [hslice, hzip, C113_members_partial]
  constructor
  · rw [List.map_map]
    exact nodup_map_of hnd fun a ha b hb hab => hg1 a ha b hb hab
  · rintro ⟨c, hc1, hc2⟩ d hd1
    obtain ⟨c', hc', rfl⟩ := List.mem_map.1 hc1
    obtain ⟨d', hd', rfl⟩ := List.mem_map.1 hd1
    intro e
    have := hg2 d' hd' e
    rw [← hexist.1] at this
    exact hx ⟨c', hc', hc2⟩ d' hd' (toC_inj (hc d' hd').1 hexist.2 this)

/-- `Msg ::= SEQUENCE { int INTEGER, my-int INTEGER OPTIONAL }` between other types. -/
example : fieldNames (some .auto) 2 (fields ([(["M".toList, "A".toList], "x".toList)] ++
      ([("int".toList, false), ("my-int".toList, true)].map fun c => (["M".toList, "Msg".toList], c.1)) ++ [(["N".toList, "B".toList], "for".toList)])) =
    .done [⟨["M".toList, "A".toList], "x".toList⟩, ⟨["M".toList, "Msg".toList], "Msg_int".toList⟩, ⟨["M".toList, "Msg".toList], "my_int".toList⟩,
      ⟨["N".toList, "B".toList], "B_for".toList⟩] ∧
    duplicatesRefused false ["int".toList, "my-int".toList] = false := by decide +kernel

/-- C113 is violated by `SEQUENCE { exist INTEGER, b INTEGER OPTIONAL }`: two members of the struct are called `exist`. -/
theorem C113_exist_violation : ¬ (structMembers [("exist".toList, false), ("b".toList, true)]).Nodup := by decide +kernel

/-- C113 is violated by `T ::= SEQUENCE { a SEQUENCE { int INTEGER, a-int INTEGER } }`: with `-fp AUTO` two members of one struct are called `a_int`. -/
theorem C113_nested_violation :
    fieldNames (some .auto) 2 (fields [(["M".toList, "T".toList, "a".toList], "int".toList), (["M".toList, "T".toList, "a".toList], "a-int".toList)]) =
      .done [⟨["M".toList, "T".toList, "a".toList], "a_int".toList⟩, ⟨["M".toList, "T".toList, "a".toList], "a_int".toList⟩] := by decide +kernel

/-- C113 is violated by a component `inline`: it is a keyword of C since 1999 and is neither refused nor
renamed. -/
theorem C113_inline_violation : "inline".toList ∈ c99Keywords ∧ keywordsRefused none ["inline".toList] = false ∧
    fieldNames (some .auto) 2 (fields [(["M".toList, "T".toList], "inline".toList)]) = .done [⟨["M".toList, "T".toList], "inline".toList⟩] := by
  decide +kernel

/-- C113 is violated by `-fp i` and a component `f`: together they are a keyword. -/
theorem C113_prefix_violation : "if".toList ∈ c89Keywords ∧
    fieldNames (some (.user "i".toList)) 2 (fields [(["M".toList, "T".toList], "f".toList)]) = .done [⟨["M".toList, "T".toList], "if".toList⟩] := by
  decide +kernel

end Asn1
