import Verif.Proof.Flatten3
/-!
# C106: COMPONENTS OF and the shorthands of value notation keep their meaning

What is written (`GTy`, `GVal`) and the tree that the compiler goes on with (`HTy`, `HVal`) have their meanings in
`Spec/Flatten`. `GEnv.mapRoot`, `GEnv.mapType`, `GEnv.mapValue` and `GEnv.children` are the model of the compiler.
-/
namespace Asn1

/-- COMPONENTS OF is replaced exactly by the components that X.680 says. Partial: only when every COMPONENTS OF names a
type that is written as a SEQUENCE; everything else is refused (`C106_reference_violation`). -/
theorem C106_components_partial (P : GEnv) (cs : List GChild) (l : List (String × GTy)) :
    (∃ n, P.children n cs = some l) ↔ P.Components cs l ∧ P.Direct cs := by
  constructor
  · rintro ⟨n, h⟩; exact GEnv.children_sound h
  · rintro ⟨h1, h2⟩
    obtain ⟨n, l', h3⟩ := h2.accepted
    rw [(GEnv.children_sound h3).1.fun h1] at h3
    exact ⟨n, h3⟩

/-- A SEQUENCE of the tree has the components that X.680 says, in their order and each with its type. -/
theorem C106_sequence (P : GEnv) (n : Nat) (cs : List GChild) (u : HTy) (h : P.mapType n (.seq cs) = some u) :
    ∃ l us m, u = .seq us ∧ P.Components cs l ∧ us.map (·.1) = l.map (·.1) ∧
      ∀ (i : Nat) a b, l[i]? = some a → us[i]? = some b → P.mapType m a.2 = some b.2 := by
  cases n with
  | zero => simp [GEnv.mapType] at h
  | succ n =>
    simp only [GEnv.mapType] at h
    split at h
    · rename_i l hl
      simp only [Option.map_eq_some_iff] at h
      obtain ⟨us, hus, rfl⟩ := h
      refine ⟨l, us, n, rfl, (GEnv.children_sound hl).1, (mapM_pairs hus).1, ?_⟩
      intro i a b ha hb
      have := (optMapM_get hus).2 i a b ha hb
      simp only [Option.map_eq_some_iff] at this
      obtain ⟨v, h1, rfl⟩ := this
      exact h1
    · cases h

/-- A value of the tree means exactly what the value assignment means as it is written. Partial: no named bit is beyond the
size of its type, named values of ENUMERATED types are assigned where the type is, and no value has the name of one of
the characters cr, lf, ht and nul (see the violations); and the compiler has accepted the grammar. -/
theorem C106_values_partial (P : GEnv) (n : Nat) (H : HEnv) (hH : P.mapRoot n = some H) (hF : P.Fits) (hE : P.EnumsLocal)
    (hS : P.SpecialFree) (md nm : String) (t : GTy) (v : GVal) (hv : P.value md nm = some (t, v)) (x : GMean)
    (hx : P.Means t v x) : ∃ u w, H.value md nm = some (u, w) ∧ ∀ y, H.Means u w y ↔ y = x := by
  obtain ⟨u, w, h1, h2, h3⟩ := GEnv.mapRoot_values hH hv
  have h4 := hx.mapped hH hF hE hS (hF.2 _ (GEnv.value_mem hv)) h3 h2
  exact ⟨u, w, h1, fun y => ⟨fun h => (h4.fun h).symm, fun h => h ▸ h4⟩⟩

/-- The same for a value anywhere else, such as a DEFAULT value. -/
theorem C106_default_partial (P : GEnv) (n : Nat) (H : HEnv) (hH : P.mapRoot n = some H) (hF : P.Fits) (hE : P.EnumsLocal)
    (hS : P.SpecialFree) (t : GTy) (ht : t.Fits) (v : GVal) (x : GMean) (hx : P.Means t v x) (m m' : Nat) (u : HTy) (w : HVal)
    (hu : P.mapType m t = some u) (hw : P.mapValue m' t v = some w) : ∀ y, H.Means u w y ↔ y = x := by
  have h4 := hx.mapped hH hF hE hS ht hw hu
  exact fun y => ⟨fun h => (h4.fun h).symm, fun h => h ▸ h4⟩

/-- A grammar is accepted if every value assignment means something. Partial: if the grammar avoids what the compiler does not
know of, see `GEnv.Avoids` and the violations. -/
theorem C106_accepts_partial (P : GEnv) (ht : ∀ p ∈ P.types, P.Expandable p.2)
    (hv : ∀ p ∈ P.values, P.Expandable p.2.1 ∧ P.Avoids p.2.1 p.2.2 ∧ ∃ x, P.Means p.2.1 p.2.2 x) :
    ∃ n H, P.mapRoot n = some H :=
  GEnv.mapRoot_accepted ht hv

/-- A value of a BIT STRING type with a size that is given by named bits is as long as the largest size. -/
theorem C106_flags_size (P : GEnv) (n : Nat) (t : GTy) (names : List (String × Nat)) (a b : Nat) (hb : 0 < b) (hb' : b < 2 ^ 32)
    (hk : P.IsKind t (.bits names (some (a, b)))) (vs : List GVal) (w : HVal) (hw : P.mapValue n t (.list vs) = some w) :
    ∃ s, w = .bits s ∧ s.length = b := by
  cases n with
  | zero => simp [GEnv.mapValue] at hw
  | succ n =>
    simp only [GEnv.mapValue] at hw
    split at hw
    · cases hw
    · rename_i kind last ha
      have hkind : kind = .bits names (some (a, b)) := GEnv.IsKind.fun ⟨_, GEnv.actual_is ha⟩ hk
      subst hkind
      simp only [Option.map_eq_some_iff] at hw
      obtain ⟨s, hs, rfl⟩ := hw
      refine ⟨s, rfl, ?_⟩
      simp only [flagsBits, lastPosition, Option.bind_eq_bind, Option.bind_eq_some_iff] at hs
      obtain ⟨ps, -, l, h2, h3⟩ := hs
      have h2' := Option.some.inj h2
      have h3' := Option.some.inj h3
      rw [← h3', ← h2']
      simp only [List.length_map, List.length_range]
      rw [show b + (2 ^ 32 - 1) = (b - 1) + 2 ^ 32 by omega, Nat.add_mod_right, Nat.mod_eq_of_lt (by omega)]
      omega

/-! ## A grammar

```
A DEFINITIONS ::= BEGIN
  Head  ::= SEQUENCE { id INTEGER, flags Flags }
  Flags ::= BIT STRING { ready(0), late(2) } (SIZE(0..4))
  Color ::= ENUMERATED { red, green }
  Body  ::= SEQUENCE { color Color, COMPONENTS OF Head, text IA5String }
END
B DEFINITIONS ::= BEGIN IMPORTS Body, Color FROM A;
  v Body ::= { color green, id 7, flags { late }, text { "ab", cr } }
END
```
-/

def exGrammar : GEnv where
  types := [
    (("A", "Head"), .seq [.comp "id" (.other 0), .comp "flags" (.ref "A" "Flags")]),
    (("A", "Flags"), .bits [("ready", 0), ("late", 2)] (some (0, 4))),
    (("A", "Color"), .enum ["red", "green"]),
    (("A", "Body"), .seq [.comp "color" (.ref "A" "Color"), .compsOf "A" "Head", .comp "text" (.str true)])]
  values := [(("B", "v"), (.ref "A" "Body", .named [("color", .ref "B" "green"), ("id", .lit 7),
    ("flags", .list [.ref "B" "late"]), ("text", .list [.str [97, 98], .ref "B" "cr"])]))]

def exTree : HEnv where
  types := [
    (("A", "Head"), .seq [("id", .other 0), ("flags", .ref "A" "Flags")]),
    (("A", "Flags"), .bits [("ready", 0), ("late", 2)] (some (0, 4))),
    (("A", "Color"), .enum ["red", "green"]),
    (("A", "Body"), .seq [("color", .ref "A" "Color"), ("id", .other 0), ("flags", .ref "A" "Flags"), ("text", .str true)])]
  values := [(("B", "v"), (.ref "A" "Body", .named [("color", .ref "A" "green"), ("id", .lit 7),
    ("flags", .bits [false, false, true, false]), ("text", .str [97, 98, 13])]))]

def exMeaning : GMean := .seq [("color", .item "green"), ("id", .lit 7),
  ("flags", .bits (fun i => decide (i = 2)) none), ("text", .str [97, 98, 13])]

theorem exGrammar_mapped : exGrammar.mapRoot 5 = some exTree := by rfl

theorem exGrammar_components : exGrammar.Components
    [.comp "color" (.ref "A" "Color"), .compsOf "A" "Head", .comp "text" (.str true)]
    [("color", .ref "A" "Color"), ("id", .other 0), ("flags", .ref "A" "Flags"), ("text", .str true)] :=
  (GEnv.children_sound (n := 3) (by rfl)).1

theorem exGrammar_fits : exGrammar.Fits := by
  refine ⟨?_, ?_⟩
  · simp only [exGrammar, List.mem_cons, List.not_mem_nil, or_false]
    rintro p (rfl | rfl | rfl | rfl)
    · refine .seq ?_
      simp only [List.mem_cons, List.not_mem_nil, or_false, GChild.comp.injEq]
      rintro nm t (⟨rfl, rfl⟩ | ⟨rfl, rfl⟩)
      · exact .other
      · exact .ref
    · exact .sized (by decide) (by simp)
    · exact .enum
    · refine .seq ?_
      simp only [List.mem_cons, List.not_mem_nil, or_false, GChild.comp.injEq, reduceCtorEq, false_or]
      rintro nm t (⟨rfl, rfl⟩ | ⟨rfl, rfl⟩)
      · exact .ref
      · exact .str
  · simp only [exGrammar, List.mem_cons, List.not_mem_nil, or_false]
    rintro p rfl
    exact .ref

theorem exGrammar_value {md nm : String} {p : GTy × GVal} (h : exGrammar.value md nm = some p) : md = "B" ∧ nm = "v" := by
  have := GEnv.value_mem h
  simp [exGrammar] at this
  exact this.1

theorem exGrammar_special : exGrammar.SpecialFree := by
  intro md nm h
  cases hv : exGrammar.value md nm with
  | none => rfl
  | some p =>
    obtain ⟨-, rfl⟩ := exGrammar_value hv
    exact absurd (by decide) h

theorem exGrammar_local : exGrammar.EnumsLocal := by
  intro md nm t v items last h hi
  obtain ⟨rfl, rfl⟩ := exGrammar_value h
  have : exGrammar.value "B" "v" = some (.ref "A" "Body", .named [("color", .ref "B" "green"), ("id", .lit 7),
    ("flags", .list [.ref "B" "late"]), ("text", .list [.str [97, 98], .ref "B" "cr"])]) := by rfl
  rw [this] at h
  cases h
  have := (GEnv.actual_is (P := exGrammar) (n := 1) (t := .ref "A" "Body") (s := none)
    (k := .seq [.comp "color" (.ref "A" "Color"), .compsOf "A" "Head", .comp "text" (.str true)]) (l := some "A") (by rfl)).fun hi
  cases this.1

theorem exGrammar_means : exGrammar.Means (.ref "A" "Body") (.named [("color", .ref "B" "green"), ("id", .lit 7),
    ("flags", .list [.ref "B" "late"]), ("text", .list [.str [97, 98], .ref "B" "cr"])]) exMeaning := by
  refine GEnv.Means.seq (l := [("color", .ref "A" "Color"), ("id", .other 0), ("flags", .ref "A" "Flags"), ("text", .str true)])
    (xs := [.item "green", .lit 7, .bits (fun i => decide (i = 2)) none, .str [97, 98, 13]])
    (τ := fun i => [.ref "A" "Color", .other 0, .ref "A" "Flags", .str true].getD i (.other 0))
    ⟨_, GEnv.actual_is (n := 1) (by rfl)⟩ exGrammar_components (by decide) (by simp) rfl ?_ ?_
  · intro i p h
    match i with
    | 0 => cases h; simp
    | 1 => cases h; simp
    | 2 => cases h; simp
    | 3 => cases h; simp
    | i + 4 => simp at h
  · intro i p x h hx
    match i with
    | 0 => cases h; cases hx; exact .item ⟨_, GEnv.actual_is (n := 1) (by rfl)⟩ (by simp)
    | 1 => cases h; cases hx; exact .lit ⟨_, .this (by simp [GTy.IsRef])⟩
    | 2 =>
      cases h; cases hx
      refine GEnv.Means.flags (names := [("ready", 0), ("late", 2)]) (size := some (0, 4)) (rs := [("B", "late")])
        ⟨_, GEnv.actual_is (n := 1) (by rfl)⟩ (by simp) (by decide) (by simp) ?_
      intro i; simp
    | 3 =>
      cases h; cases hx
      refine GEnv.Means.parts (ia5 := true) (ss := [[97, 98], [13]]) (isChar := fun i => i = 1)
        ⟨_, .this (by simp [GTy.IsRef])⟩ (by simp) rfl ?_ ?_
      · rintro i v s rfl h h'
        cases h; cases h'
        exact ⟨"B", "cr", 13, rfl, by rfl, by decide, rfl⟩
      · intro i v s hi h h'
        match i with
        | 0 => cases h; cases h'; exact .str (ia5 := true) ⟨_, .this (by simp [GTy.IsRef])⟩
        | 1 => exact absurd rfl hi
        | i + 2 => simp at h
    | i + 4 => simp at h

/-- The hypotheses are met by the grammar above. -/
example : ∃ u w, exTree.value "B" "v" = some (u, w) ∧ ∀ y, exTree.Means u w y ↔ y = exMeaning :=
  C106_values_partial exGrammar 5 exTree exGrammar_mapped exGrammar_fits exGrammar_local exGrammar_special "B" "v" _ _
    (by rfl) _ exGrammar_means

example : exGrammar.Direct [.comp "color" (.ref "A" "Color"), .compsOf "A" "Head", .comp "text" (.str true)] :=
  (GEnv.children_sound (n := 3) (by rfl)).2

example : ∃ s, exGrammar.mapValue 2 (.ref "A" "Flags") (.list [.ref "B" "late"]) = some (.bits s) ∧ s.length = 4 :=
  ⟨[false, false, true, false], by rfl, rfl⟩

theorem exGrammar_avoids : exGrammar.Avoids (.ref "A" "Body") (.named [("color", .ref "B" "green"), ("id", .lit 7),
    ("flags", .list [.ref "B" "late"]), ("text", .list [.str [97, 98], .ref "B" "cr"])]) := by
  refine .seq ⟨_, GEnv.actual_is (n := 1) (by rfl)⟩ (GEnv.children_sound (n := 3) (by rfl)).2 exGrammar_components ?_
  simp only [List.mem_cons, List.not_mem_nil, or_false]
  rintro p (rfl | rfl | rfl | rfl) tc htc
  · exact .atom trivial
  · exact .atom trivial
  · simp at htc; subst htc
    exact .flags (names := [("ready", 0), ("late", 2)]) (size := some (0, 4)) ⟨_, GEnv.actual_is (n := 1) (by rfl)⟩
  · simp at htc; subst htc
    refine .parts ⟨_, .this (by simp [GTy.IsRef])⟩ ?_
    simp only [List.mem_cons, List.not_mem_nil, or_false]
    rintro v (rfl | rfl)
    · exact Or.inl ⟨_, rfl⟩
    · exact Or.inr ⟨_, _, rfl, by decide⟩

example : ∃ n H, exGrammar.mapRoot n = some H := by
  refine C106_accepts_partial exGrammar ?_ ?_
  · have h1 : exGrammar.Components [.comp "id" (.other 0), .comp "flags" (.ref "A" "Flags")]
      [("id", .other 0), ("flags", .ref "A" "Flags")] ∧ exGrammar.Direct [.comp "id" (.other 0), .comp "flags" (.ref "A" "Flags")] :=
      GEnv.children_sound (n := 2) (by rfl)
    intro p hp
    have : p ∈ exGrammar.types := hp
    simp only [exGrammar, List.mem_cons, List.not_mem_nil, or_false] at hp
    rcases hp with rfl | rfl | rfl | rfl
    · refine .seq h1.2 h1.1 ?_
      simp only [List.mem_cons, List.not_mem_nil, or_false]
      rintro p (rfl | rfl)
      · exact .other
      · exact .ref
    · exact .bits
    · exact .enum
    · refine .seq (GEnv.children_sound (n := 3) (by rfl)).2 exGrammar_components ?_
      simp only [List.mem_cons, List.not_mem_nil, or_false]
      rintro p (rfl | rfl | rfl | rfl)
      · exact .ref
      · exact .other
      · exact .ref
      · exact .str
  · intro p hp
    simp only [exGrammar, List.mem_cons, List.not_mem_nil, or_false] at hp
    subst hp
    exact ⟨.ref, exGrammar_avoids, _, exGrammar_means⟩

/-! ## Violations -/

/-- `Head ::= SEQUENCE { id INTEGER }`, `Name ::= Head`, `SEQUENCE { COMPONENTS OF Name }`: X.680 says what the components
are, the compiler refuses the type. -/
theorem C106_reference_violation : ∃ (P : GEnv) (cs : List GChild) (l : List (String × GTy)),
    P.Components cs l ∧ ∀ n, P.mapType n (.seq cs) = none := by
  refine ⟨⟨[(("A", "Head"), .seq [.comp "id" (.other 0)]), (("A", "Name"), .ref "A" "Head")], []⟩, [.compsOf "A" "Name"],
    [("id", .other 0)], ?_, ?_⟩
  · exact .compsOf (a := [("id", .other 0)]) (l := []) ⟨_, GEnv.actual_is (n := 2) (by rfl)⟩ (.comp .nil) .nil
  · intro n
    match n with
    | 0 => rfl
    | 1 => rfl
    | n + 2 => rfl

/-- The module of the type of an ENUMERATED value has a value of the same name: `Color ::= ENUMERATED { red, green }` and
`fav Color ::= green` in A, `fav Color ::= red` and `v Color ::= fav` in B, which imports Color. -/
def exColorCapture : GEnv where
  types := [(("A", "Color"), .enum ["red", "green"])]
  values := [(("A", "fav"), (.ref "A" "Color", .ref "A" "green")), (("B", "fav"), (.ref "A" "Color", .ref "B" "red")),
    (("B", "v"), (.ref "A" "Color", .ref "B" "fav"))]

/-- As written, `v` is `red`. The compiler makes it `green`. -/
theorem C106_capture_violation : ∃ H u w, exColorCapture.mapRoot 3 = some H ∧ H.value "B" "v" = some (u, w) ∧
    exColorCapture.Means (.ref "A" "Color") (.ref "B" "fav") (.item "red") ∧ H.Means u w (.item "green") := by
  have hk : exColorCapture.Is (.ref "A" "Color") none (.enum ["red", "green"]) (some "A") := GEnv.actual_is (n := 1) (by rfl)
  refine ⟨⟨[(("A", "Color"), .enum ["red", "green"])],
    [(("A", "fav"), (.ref "A" "Color", .ref "A" "green")), (("B", "fav"), (.ref "A" "Color", .ref "A" "red")),
      (("B", "v"), (.ref "A" "Color", .ref "A" "fav"))]⟩, .ref "A" "Color", .ref "A" "fav", by rfl, by rfl, ?_, ?_⟩
  · refine .name (t' := .ref "A" "Color") (v := .ref "B" "red") ⟨_, hk⟩ (by rfl) ?_ (fun _ _ h => h) (.item ⟨_, hk⟩ (by simp))
    intro items h
    cases GEnv.IsKind.fun ⟨_, hk⟩ h
    decide
  · have hk' : ∀ vs, (HEnv.mk [(("A", "Color"), .enum ["red", "green"])] vs).IsKind (.ref "A" "Color") (.enum ["red", "green"]) :=
      fun vs => .name (t := .enum ["red", "green"]) (by rfl) (.this (by simp [HTy.IsRef]))
    refine .name (t' := .ref "A" "Color") (v := .ref "A" "green") (by rfl) ?_ (.item (hk' _) (by simp))
    intro items h
    cases (hk' _).fun h
    decide

/-- A named bit beyond the size is dropped without a message: the value `{ late }` of
`BIT STRING { late(9) } (SIZE(4))` becomes four zeros. -/
theorem C106_dropped_violation (P : GEnv) : P.mapValue 1 (.bits [("late", 9)] (some (4, 4))) (.list [.ref "B" "late"]) =
    some (.bits [false, false, false, false]) := by rfl

/-- `{ }`, which means that no bit is set, is refused. -/
theorem C106_noFlags_violation (P : GEnv) (names : List (String × Nat)) (size : Option (Nat × Nat)) :
    P.Means (.bits names size) .empty (bitsMean names []) ∧ ∀ n, P.mapValue n (.bits names size) .empty = none := by
  refine ⟨.noFlags ⟨_, .this (by simp [GTy.IsRef])⟩, ?_⟩
  intro n
  match n with
  | 0 => rfl
  | 1 => rfl
  | n + 2 => rfl

/-- A value assignment with the name `cr` is not heeded: `cr IA5String ::= "ab"`, `v IA5String ::= { cr }`. -/
theorem C106_special_violation : ∃ P : GEnv, P.Means (.str true) (.list [.ref "B" "cr"]) (.str [97, 98]) ∧
    P.mapValue 2 (.str true) (.list [.ref "B" "cr"]) = some (.str [13]) := by
  refine ⟨⟨[], [(("B", "cr"), (.str true, .str [97, 98]))]⟩, ?_, by rfl⟩
  refine GEnv.Means.parts (ia5 := true) (ss := [[97, 98]]) (isChar := fun _ => False)
    ⟨_, .this (by simp [GTy.IsRef])⟩ (by simp) rfl (by simp) ?_
  intro i v s _ h h'
  match i with
  | 0 =>
    cases h; cases h'
    refine .name (t' := .str true) (v := .str [97, 98]) (k := .str true) ⟨_, .this (by simp [GTy.IsRef])⟩ (by rfl) ?_ ?_ (.str (ia5 := true) ⟨_, .this (by simp [GTy.IsRef])⟩)
    · intro items hi; obtain ⟨_, hi⟩ := hi; cases hi
    · intro items last hi; cases hi
  | i + 1 => simp at h

/-- A list with the name of a string in it is refused, and so is any list for a NumericString:
`s IA5String ::= "ab"`, `v IA5String ::= { s }`. -/
theorem C106_parts_violation : ∃ P : GEnv, P.Means (.str true) (.list [.ref "B" "s"]) (.str [97, 98]) ∧
    (∀ n, P.mapValue n (.str true) (.list [.ref "B" "s"]) = none) ∧
    ∀ n vs, P.mapValue n (.str false) (.list vs) = none := by
  refine ⟨⟨[], [(("B", "s"), (.str true, .str [97, 98]))]⟩, ?_, ?_, ?_⟩
  · refine GEnv.Means.parts (ia5 := true) (ss := [[97, 98]]) (isChar := fun _ => False)
      ⟨_, .this (by simp [GTy.IsRef])⟩ (by simp) rfl (by simp) ?_
    intro i v s _ h h'
    match i with
    | 0 =>
      cases h; cases h'
      refine .name (t' := .str true) (v := .str [97, 98]) (k := .str true) ⟨_, .this (by simp [GTy.IsRef])⟩ (by rfl) ?_ ?_ (.str (ia5 := true) ⟨_, .this (by simp [GTy.IsRef])⟩)
      · intro items hi; obtain ⟨_, hi⟩ := hi; cases hi
      · intro items last hi; cases hi
    | i + 1 => simp at h
  · intro n
    match n with
    | 0 => rfl
    | 1 => rfl
    | n + 2 => rfl
  · intro n vs
    match n with
    | 0 => rfl
    | 1 => rfl
    | n + 2 => rfl

end Asn1
