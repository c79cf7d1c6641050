import Verif.Proof.CheckTypeProper
import Verif.Props.Compile
/-!
# C103: the front end accepts the legal types, and what it accepts it can translate
-/
namespace Asn1

/-- C103 (part): a constraint passes the check and is translated exactly if X.680 allows it on the type (and it is none of the few forms
that are not translated: sizes from 2^32, constraints on NULL). Missing: values of types that are references. -/
theorem C103_constraint_partial (t : NTy) (c : XC) (hd : t.Distinct) (hp : Plainly c.vals) :
    conValid c t = true ∧ (mapCon t c).isSome = true ↔ c.Legal t ∧ c.Known t := constraint_iff c t hd hp

/-- C103 (part): a constraint that X.680 allows on the type passes the check; it is translated to a constraint that the same values satisfy. -/
theorem C103_meaning_partial (t : NTy) (c : XC) (hd : t.Distinct) (hp : Plainly c.vals) (hl : c.Legal t) (hk : c.Known t) :
    conValid c t = true ∧ ∃ ac, mapCon t c = some ac ∧ ∀ a, ac.Sat a ↔ c.Sat t a := by
  obtain ⟨h1, h2⟩ := (constraint_iff c t hd hp).2 ⟨hl, hk⟩
  obtain ⟨ac, ha⟩ := Option.isSome_iff_exists.1 h2
  exact ⟨h1, ac, ha, fun a => mapCon_sat c t ac a ha hd (valid_valued c t hd (fun v hv => (hp v hv).1) h1)⟩

/-- C103 (part): a type that passes the check and is translated is legal: every constraint in it is one that X.680 allows there, names and numbers
are different, every DEFAULT is a value that satisfies the constraints, every ENUMERATED has an item left. Missing: the forms of
constraints and DEFAULTs that `NTy.Plain` and `NTy.Defaults` leave out (C97). -/
theorem C103_sound_partial (slim : Bool) (t : NTy) (ct : CTy) (hc : checkType t = true) (h : compile slim [] t = some ct) (hv : Plainly t.vals)
    (hp : t.Plain) (hq : t.Defaults) : t.Legal ∧ t.Proper :=
  ⟨check_legal slim t [] ct h hc hv, check_proper t hc hp hv hq⟩

/-- C103 (part): a type that is legal passes the check. Missing: as in `C103_sound_partial`. -/
theorem C103_accepts_partial (t : NTy) (hl : t.Legal) (hr : t.Proper) (hv : Plainly t.vals) (hp : t.Plain) (hq : t.Defaults) : checkType t = true :=
  proper_check t hr hl hp hv hq

/-- C103 (part): for types that are translated, the check decides whether the type is legal. -/
theorem C103_decides_partial (slim : Bool) (t : NTy) (ct : CTy) (h : compile slim [] t = some ct) (hv : Plainly t.vals) (hp : t.Plain) (hq : t.Defaults) :
    checkType t = true ↔ t.Legal ∧ t.Proper :=
  ⟨fun hc => C103_sound_partial slim t ct hc h hv hp hq, fun hl => C103_accepts_partial t hl.1 hl.2 hv hp hq⟩

/-- C103 (part): what C100 assumes about names and about the values in constraints holds for every type that passes the check: the generated
check accepts an object of such a type exactly if its value satisfies the constraints as written. -/
theorem C103_check_partial (slim : Bool) (t : NTy) (ct : CTy) (hc : checkType t = true) (ho : ∀ v ∈ t.vals, v.OnceEach) (h : compile slim [] t = some ct)
    (hf : ct.Fits) (v : CVal) (a : AV) (hm : meaning ct v = some a) (s : BitStream) :
    ∃ b err, isConstraintValid ct v none s = .ok ((b, err), s) ∧ (b = true ↔ t.Sat a ∧ t.Arcs a) ∧ (b = true ↔ err = none) :=
  C100_check_partial slim t ct h (check_distinct t hc) (check_valued t hc ho) hf v a hm s

/-- C103 (part): and every object of such a type whose value satisfies the constraints as written is encoded, and comes back. -/
theorem C103_roundtrip_partial (slim : Bool) (t : NTy) (ct : CTy) (hc : checkType t = true) (hv : ∀ v ∈ t.vals, v.OnceEach) (h : compile slim [] t = some ct)
    (ho : t.Ordinary) (hf : ct.Fits) (hn : ct.Counted) (hok : Ok (uperTy ct)) (v : CVal) (a : AV) (hm : meaning ct v = some a) (hs : t.Sat a)
    (ha : t.Arcs a) (hh : Held ct a) (chk : Bool) :
    RoundTrip (encodeObject ct v chk) (true, none) (decodeType (uperTy ct)) (toVal ct a) (code false (uperTy ct) (toVal ct a)).length ∧
    ∀ w, Stored ct (toVal ct a) w → meaning ct w = some a ∧
      (∀ s, isConstraintValid ct w none s = .ok ((true, none), s)) ∧
      (ct.noReal = true → ∀ s, cEqual ct v w s = .ok (true, s)) :=
  C100_roundtrip_partial slim t ct h (check_distinct t hc) (check_valued t hc hv) ho hf hn hok v a hm hs ha hh chk

/-! ## A type -/

/-- `SEQUENCE { a INTEGER (0..10) DEFAULT 3, c ENUMERATED {red(0), green(1)} (red), l SEQUENCE (SIZE (1..3)) OF BOOLEAN,
s IA5String (SIZE (1..5)) (FROM ("a".."z")) OPTIONAL, d CHOICE { x BOOLEAN, y NULL } } (WITH COMPONENTS {s PRESENT})`. -/
def legalTy : NTy :=
  .seq (.cons "a" (.default (.int 3)) (.int [.range (.int 0) (.int 10) true true])
    (.cons "c" .mandatory (.enum [("red", 0), ("green", 1)] [.single (.ident "M" "red")])
    (.cons "l" .mandatory (.seqOf (.bool []) [.size (.range (.int 1) (.int 3) true true)])
    (.cons "s" .optional (.str [.size (.range (.int 1) (.int 5) true true), .alphabet (.range (.str [97]) (.str [122]) true true)])
    (.cons "d" .mandatory (.choice (.cons "x" (.bool []) (.cons "y" (.null []) .nil)) []) .nil)))))
    [.components (.bare "s" .present .nil)]

theorem legalTy_check : checkType legalTy = true ∧ (compile false [] legalTy).isSome = true := by
  refine ⟨?_, ?_⟩ <;> decide +kernel

theorem legalTy_plain : legalTy.Plain := by
  have hn : ∀ x : Int, ∃ y, (VN.int x).RefersTo (.int y) := fun x => ⟨x, .written (by simp [VN.IsName])⟩
  simp only [legalTy, NTy.Plain, NFields.Plain, NAlts.Plain]
  refine ⟨?_, ?_, ?_, ⟨?_, ?_⟩, ?_, ⟨?_, ?_, ?_, trivial⟩, trivial⟩
  · simp [XC.Plain, XCs.Plain, XCs.names, plainMark, NTy.stripped, NTy.IsPart, NFields.toList]
    exact ⟨3, _, _, rfl⟩
  · simp [XC.Plain, plainBound, NTy.stripped, hn]
  · simp [XC.Plain, plainSingle, NTy.stripped, VN.name]
  · simp [XC.Plain, plainSize, plainBound, NTy.stripped, hn]
  · simp
  · simp [XC.Plain, plainSize, plainBound, NTy.stripped, hn, XC.CharPlain]
    exact ⟨⟨_, .written (by simp [VN.IsName])⟩, _, .written (by simp [VN.IsName])⟩
  · simp
  · simp
  · simp

theorem legalTy_values : Plainly legalTy.vals ∧ legalTy.Defaults := by
  refine ⟨?_, ?_⟩
  · simp [legalTy, Plainly, NTy.vals, NFields.vals, NAlts.vals, XC.allVals, XC.vals, XCs.vals, VN.OnceEach, VN.BuiltinGovernors]
  · simp [legalTy, NTy.Defaults, NFields.Defaults, NAlts.Defaults, NTy.Direct]

/-- The type meets the hypotheses, so it is legal. -/
example : legalTy.Legal ∧ legalTy.Proper := by
  obtain ⟨ct, h⟩ := Option.isSome_iff_exists.1 legalTy_check.2
  exact C103_sound_partial false legalTy ct legalTy_check.1 h legalTy_values.1 legalTy_plain legalTy_values.2

/-- And the other way round. -/
example (hl : legalTy.Legal) (hr : legalTy.Proper) : checkType legalTy = true :=
  C103_accepts_partial legalTy hl hr legalTy_values.1 legalTy_plain legalTy_values.2

/-- Types that are refused: SIZE on a BOOLEAN, a DEFAULT outside the range, two components of the same name, PRESENT for a mandatory component, two
alternatives whose names differ by case only, an ENUMERATED without items left. -/
example : checkType (.bool [.size (.single (.int 1))]) = false ∧
    checkType (.seq (.cons "a" (.default (.int 11)) (.int [.range (.int 0) (.int 10) true true]) .nil) []) = false ∧
    checkType (.seq (.cons "a" .mandatory (.int []) (.cons "a" .mandatory (.int []) .nil)) []) = false ∧
    checkType (.seq (.cons "a" .mandatory (.int []) .nil) [.components (.bare "a" .present .nil)]) = false ∧
    checkType (.choice (.cons "a" (.int []) (.cons "A" (.int []) .nil)) []) = false ∧
    checkType (.enum [("a", 0), ("b", 1)] [.single (.ident "M" "a"), .single (.ident "M" "b")]) = false := by
  refine ⟨?_, ?_, ?_, ?_, ?_, ?_⟩ <;> decide +kernel

/-- The type of C100, for which `Fits`, `Counted`, `Ok` and `Ordinary` are shown there, passes the check. -/
example : checkType srcTy = true ∧ (∀ v ∈ srcTy.vals, v.OnceEach) ∧ compile false [] srcTy = some dstTy := by
  refine ⟨by decide +kernel, ?_, srcTy_compiles⟩
  simp [srcTy, srcD, num, NTy.vals, NFields.vals, NAlts.vals, XC.allVals, XC.vals, XCs.vals, VN.OnceEach]

/-! ## Where the check alone is too weak -/

/-- C103 does not hold of the check alone: `IA5String ("a".."z")`, with a range outside FROM, and `OCTET STRING (SIZE (-1))` pass the check, though
X.680 does not allow them. Only the translation refuses them. -/
theorem C103_late_violation :
    (conValid (.range (.str [97]) (.str [122]) true true) (.str []) = true ∧ ¬ (XC.range (.str [97]) (.str [122]) true true).Legal (.str []) ∧
      mapCon (.str []) (.range (.str [97]) (.str [122]) true true) = none) ∧
    conValid (.size (.single (.int (-1)))) (.octets []) = true ∧ ¬ (XC.size (.single (.int (-1)))).Legal (.octets []) ∧
      mapCon (.octets []) (.size (.single (.int (-1)))) = none := by
  refine ⟨⟨by decide +kernel, ?_, rfl⟩, by decide +kernel, ?_, rfl⟩
  · rw [XC.Legal]
    rintro ⟨⟨cs, h⟩ | ⟨cs, h⟩, _⟩ <;> simp [NTy.stripped] at h
  · rw [XC.Legal]
    rintro ⟨_, _, h⟩
    have := h (.int (-1)) (by simp [XC.vals]) (-1) (.written (by simp [VN.IsName]))
    omega

/-- C103 does not extend to references: `E (b)` with `E ::= ENUMERATED {a, b} (a)` is accepted and translated, though it has no
value; written in one place, the same constraints are refused. -/
theorem C103_empty_violation : checkType (.ref "M" "E" (.enum [("a", 0), ("b", 1)] [.single (.ident "M" "a")]) [.single (.ident "M" "b")]) = true ∧
    (compile false [] (.ref "M" "E" (.enum [("a", 0), ("b", 1)] [.single (.ident "M" "a")]) [.single (.ident "M" "b")])).isSome = true ∧
    (∀ a, ¬ (NTy.ref "M" "E" (.enum [("a", 0), ("b", 1)] [.single (.ident "M" "a")]) [.single (.ident "M" "b")]).Sat a) ∧
    checkType (.enum [("a", 0), ("b", 1)] [.single (.ident "M" "a"), .single (.ident "M" "b")]) = false := by
  refine ⟨by decide +kernel, by decide +kernel, ?_, by decide +kernel⟩
  intro a h
  rw [NTy.Sat, NTy.Sat] at h
  have h1 := h.1 _ List.mem_cons_self
  have h2 := h.2 _ List.mem_cons_self
  rw [XC.Sat] at h1 h2
  obtain ⟨b, ⟨x, hx, rfl⟩, he⟩ := h1
  obtain ⟨c, ⟨y, hy, rfl⟩, hf⟩ := h2
  cases hx with
  | ident hx =>
    cases hy with
    | ident hy =>
      simp at hx hy
      subst hx hy
      cases a <;> simp [AV.Equals] at he hf
      omega

end Asn1
