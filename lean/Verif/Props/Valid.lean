import Verif.Proof.ValidAny
/-!
# C80, C81: the generated functions `<type>_IsConstraintValid`
-/
namespace Asn1

/-- C80 (part): `_IsConstraintValid` of an object that denotes the value `a` ends without touching anything outside the
object, and returns TRUE exactly when `a` satisfies all constraints of the type, of the types it refers to, of its
components, elements and alternatives at every depth.
When it returns TRUE, the error code is 0 or what it was before. When it returns FALSE, the error code is that of a
type in which the value does violate a constraint.
Missing: what `CTy.Fits` excludes (see the violations below). -/
theorem C80_valid_partial (t : CTy) (hf : t.Fits) (v : CVal) (a : AV) (hm : meaning t v = some a) (err : ErrCode) (s : BitStream) :
    ∃ b err', isConstraintValid t v err s = .ok ((b, err'), s) ∧ (b = true ↔ t.Sat a) ∧
      (b = true → err' = err ∨ err' = none) ∧ (b = false → ∃ q, err' = some q ∧ t.BadAt a q) := by
  obtain ⟨b, e, h1, h2, h3, h4⟩ := validT_tells t [] v a err hm hf
  refine ⟨b, e, by rw [isConstraintValid, h1]; rfl, h2, h3, fun h => ?_⟩
  obtain ⟨q, hq, hb⟩ := h4 h
  exact ⟨q, by simpa using hq, hb⟩

/-- `SEQUENCE { a INTEGER (0..10 | 20..30), b OCTET STRING (SIZE(1..4)) OPTIONAL, c SEQUENCE (SIZE(0..3)) OF IA5String
(SIZE(1..5)) (FROM ("a".."z")), d CHOICE { x BOOLEAN, y INTEGER (0..5) } } (WITH COMPONENTS { ..., b PRESENT } | WITH COMPONENTS
{ ..., a (5) })`. -/
def exValidTy : CTy := .seq
  (.cons .mandatory (.int ⟨true, 0, 255⟩ [.union (.range (.range 0 10 true true)) (.range (.range 20 30 true true))])
  (.cons .optional (.octets 1 4 [.size (.leaf (.range 1 4 true true))])
  (.cons .mandatory (.seqOf 0 3 (.str 1 5 [] [.size (.leaf (.range 1 5 true true)), .alphabet (.leaf (.range 97 122 true true))])
    [.size (.leaf (.range 0 3 true true))])
  (.cons .mandatory (.choice (.cons (.bool []) (.cons (.int ⟨true, 0, 255⟩ [.range (.range 0 5 true true)]) .nil)) []) .nil))))
  [.union (.components (.bare 1 .present .nil)) (.components (.cons 0 .noMark (.range (.single 5)) .nil))]

theorem exValidTy_fits : exValidTy.Fits := by
  simp [exValidTy, CTy.Fits, CFields.Fits, CAlts.Fits, AC.Fits, AC.Definite, NCs.FitsSeq, NCs.DefiniteSeq, CFields.get,
    CTy.actual, CTy.layout, CTy.fixedSize, CTy.capacity, Con.Leaves, RLeaf.LitsFit, AlphaLeaf.Octets, Mark.Strict,
    COpt.MayBeAbsent]

theorem exValidTy_sizeFirst : exValidTy.SizeFirst := by
  simp only [exValidTy, CTy.SizeFirst, CFields.SizeFirst, CAlts.SizeFirst, and_true, true_and]
  refine ⟨.inr ⟨_, _, rfl, fun n h => ?_⟩, .inr ⟨.inr ⟨_, _, rfl, fun n h => ?_⟩, _, rfl⟩⟩
  · simp [Con.Sat, RLeaf.Sat] at h; omega
  · simp [Con.Sat, RLeaf.Sat] at h; omega

/-- An object of this type. -/
def exValidVal (a : Int) (present : Bool) (nb nc : Int) (ch : Byte) (kind y : Int) : CVal :=
  .seq [(false, .int a), (present, .octets nb [1#8, 2#8, 3#8, 4#8]),
    (false, .seqOf nc [.str [97#8, ch, 0#8, 0#8, 0#8, 0#8], .str [98#8, 0#8, 1#8, 0#8, 0#8, 0#8], .str [0#8, 0#8, 1#8, 0#8, 0#8, 0#8]]),
    (false, .choice kind (.int y))]

/-- The type and objects of it meet the hypotheses; the results are not constant. -/
example : exValidTy.Fits ∧ (meaning exValidTy (exValidVal 7 true 3 2 97#8 2 4)).isSome = true ∧
    isConstraintValid exValidTy (exValidVal 7 true 3 2 97#8 2 4) none ⟨[], 0, 0, 0⟩ = .ok ((true, none), ⟨[], 0, 0, 0⟩) ∧
    isConstraintValid exValidTy (exValidVal 7 false 3 2 97#8 2 4) none ⟨[], 0, 0, 0⟩ = .ok ((false, some []), ⟨[], 0, 0, 0⟩) ∧
    isConstraintValid exValidTy (exValidVal 5 false 3 2 97#8 2 4) none ⟨[], 0, 0, 0⟩ = .ok ((true, none), ⟨[], 0, 0, 0⟩) ∧
    isConstraintValid exValidTy (exValidVal 15 true 3 2 97#8 2 4) none ⟨[], 0, 0, 0⟩ = .ok ((false, some [0]), ⟨[], 0, 0, 0⟩) ∧
    isConstraintValid exValidTy (exValidVal 7 true 3 2 65#8 2 4) none ⟨[], 0, 0, 0⟩ = .ok ((false, some [2, 0]), ⟨[], 0, 0, 0⟩) ∧
    isConstraintValid exValidTy (exValidVal 7 true 3 3 97#8 2 4) none ⟨[], 0, 0, 0⟩ = .ok ((false, some [2, 0]), ⟨[], 0, 0, 0⟩) ∧
    isConstraintValid exValidTy (exValidVal 7 true 3 2 97#8 2 6) none ⟨[], 0, 0, 0⟩ = .ok ((false, some [3, 1]), ⟨[], 0, 0, 0⟩) :=
  ⟨exValidTy_fits, rfl, rfl, rfl, rfl, rfl, rfl, rfl, rfl⟩

/-- C81 (part): when the object has the shape of its C type but need not denote a value (counts may exceed the array, `kind`
may select nothing, at any depth), `_IsConstraintValid` still ends without touching anything outside the object, and
returns TRUE exactly when the object denotes a value and this value satisfies all constraints.
Missing: negative counts, octets that are no characters, numbers that are no item of the ENUMERATED, object identifiers with
more than 20 arcs, types whose first constraint is not SIZE (see the violations below). -/
theorem C81_anyObject_partial (t : CTy) (hf : t.Fits) (hg : t.SizeFirst) (v : CVal) (hs : Shaped t v) (err : ErrCode) (s : BitStream) :
    ∃ b err', isConstraintValid t v err s = .ok ((b, err'), s) ∧ (b = true ↔ ∃ a, meaning t v = some a ∧ t.Sat a) := by
  obtain ⟨b, e, h1, h2⟩ := validT_any t v [] err hs hf hg
  exact ⟨b, e, by rw [isConstraintValid, h1]; rfl, h2⟩

/-- Objects of the type above whose counts exceed the arrays or whose `kind` selects nothing. -/
example : exValidTy.Fits ∧ exValidTy.SizeFirst ∧
    Shaped exValidTy (exValidVal 7 true 5 2 97#8 2 4) ∧ meaning exValidTy (exValidVal 7 true 5 2 97#8 2 4) = none ∧
    isConstraintValid exValidTy (exValidVal 7 true 5 2 97#8 2 4) none ⟨[], 0, 0, 0⟩ = .ok ((false, some [1]), ⟨[], 0, 0, 0⟩) ∧
    isConstraintValid exValidTy (exValidVal 7 true 3 2 97#8 3 4) none ⟨[], 0, 0, 0⟩ = .ok ((false, some [3]), ⟨[], 0, 0, 0⟩) ∧
    isConstraintValid exValidTy (exValidVal 7 true 3 2 97#8 0 4) none ⟨[], 0, 0, 0⟩ = .ok ((false, some [3]), ⟨[], 0, 0, 0⟩) := by
  refine ⟨exValidTy_fits, exValidTy_sizeFirst, ?_, rfl, by decide +kernel⟩
  simp [exValidTy, exValidVal, Shaped, ShapedFields, ShapedAlt, meaning, cString]

/-! ## Violations -/

/-- C80, violation: `SEQUENCE OF INTEGER (WITH COMPONENT (1..5) | WITH COMPONENT (10..20))`: the second loop is entered with
`ret` FALSE and does nothing; the value `{ 12 }` is refused. -/
theorem C80_union_violation : ∃ t v a, meaning t v = some a ∧ t.Sat a ∧
    ∀ s, isConstraintValid t v none s = .ok ((false, some []), s) :=
  ⟨.seqOf 1 2 (.int ⟨true, 0, 255⟩ []) [.union (.component (.range (.range 1 5 true true))) (.component (.range (.range 10 20 true true)))],
    .seqOf 1 [.int 12, .int 0], .seqOf [.int 12], rfl, by simp [CTy.Sat, AC.Sat, RLeaf.Sat], fun _ => rfl⟩

/-- C80, violation: the same happens with WITH COMPONENTS when the component is absent: `SEQUENCE { a BOOLEAN, b INTEGER OPTIONAL }
(WITH COMPONENTS { ..., a (TRUE) } | WITH COMPONENTS { ..., b (1..5) })`: `{ a FALSE }` is refused. -/
theorem C80_unionAbsent_violation : ∃ t v a, meaning t v = some a ∧ t.Sat a ∧
    ∀ s, isConstraintValid t v none s = .ok ((false, some []), s) :=
  ⟨.seq (.cons .mandatory (.bool []) (.cons .optional (.int ⟨true, 0, 255⟩ []) .nil))
      [.union (.components (.cons 0 .noMark (.boolean true) .nil)) (.components (.cons 1 .noMark (.range (.range 1 5 true true)) .nil))],
    .seq [(false, .bool false), (false, .int 0)], .seq [some (.bool false), none], rfl,
    by simp [CTy.Sat, CFields.Sat, AC.Sat, NCs.Sat, AV.part, Mark.Sat], fun _ => rfl⟩

/-- C80, violation: a single value of a SEQUENCE type is not tested: `SEQUENCE { a BOOLEAN } ({ a TRUE })` accepts
`{ a FALSE }`, … -/
theorem C80_singleValue_violation : ∃ t v a, meaning t v = some a ∧ ¬ t.Sat a ∧
    ∀ s, isConstraintValid t v none s = .ok ((true, none), s) :=
  ⟨.seq (.cons .mandatory (.bool []) .nil) [.value (.seq [some (.bool true)])], .seq [(false, .bool false)],
    .seq [some (.bool false)], rfl, by simp [CTy.Sat, AC.Sat], fun _ => rfl⟩

/-- … and ALL EXCEPT such a value refuses everything. -/
theorem C80_exceptValue_violation : ∃ t v a, meaning t v = some a ∧ t.Sat a ∧
    ∀ s, isConstraintValid t v none s = .ok ((false, some []), s) :=
  ⟨.seq (.cons .mandatory (.bool []) .nil) [.allExcept (.value (.seq [some (.bool true)]))], .seq [(false, .bool false)],
    .seq [some (.bool false)], rfl, by simp [CTy.Sat, CFields.Sat, AC.Sat], fun _ => rfl⟩

/-- C80, violation: `OCTET STRING (SIZE(5)) (ALL EXCEPT SIZE(3))`: in a type of fixed size every SIZE counts as satisfied, so
that every value is refused. -/
theorem C80_exceptSize_violation : ∃ t v a, meaning t v = some a ∧ t.Sat a ∧
    ∀ s, isConstraintValid t v none s = .ok ((false, some []), s) :=
  ⟨.octets 5 5 [.size (.leaf (.single 5)), .allExcept (.size (.leaf (.single 3)))], .octets 5 [1#8, 2#8, 3#8, 4#8, 5#8],
    .octets [1#8, 2#8, 3#8, 4#8, 5#8], rfl, by simp [CTy.Sat, AC.Sat, AV.size, Con.Sat, RLeaf.Sat], fun _ => rfl⟩

/-- C80, violation: `T ::= OCTET STRING (SIZE(1..4))`, `U ::= T (SIZE(2))`: the C type of `U` is that of `T`, with a count, but
the test of the size is left out since `U` is of fixed size: three octets are accepted. -/
theorem C80_fixedReference_violation : ∃ t v a, meaning t v = some a ∧ ¬ t.Sat a ∧
    ∀ s, isConstraintValid t v none s = .ok ((true, none), s) :=
  ⟨.ref (.octets 1 4 [.size (.leaf (.range 1 4 true true))]) (some (2, 2)) [.size (.leaf (.single 2))],
    .octets 3 [1#8, 2#8, 3#8, 4#8], .octets [1#8, 2#8, 3#8], rfl,
    by simp [CTy.Sat, AC.Sat, AV.size, Con.Sat, RLeaf.Sat], fun _ => rfl⟩

/-- C81, violation: a negative count passes when the lower bound is 0: `OCTET STRING (SIZE(0..4))`. -/
theorem C81_negative_violation : ∃ t v, t.Fits ∧ t.SizeFirst ∧ meaning t v = none ∧
    ∀ s, isConstraintValid t v none s = .ok ((true, none), s) :=
  ⟨.octets 0 4 [.size (.leaf (.range 0 4 true true))], .octets (-1) [1#8, 2#8, 3#8, 4#8],
    by simp [CTy.Fits, AC.Fits, CTy.actual, CTy.layout, CTy.fixedSize, CTy.capacity],
    .inr ⟨_, _, rfl, fun n h => by simp [Con.Sat, RLeaf.Sat] at h; omega⟩, rfl, fun _ => rfl⟩

/-- C81, violation: an IA5String without FROM: octets above 127 pass. -/
theorem C81_character_violation : ∃ t v, t.Fits ∧ meaning t v = none ∧
    ∀ s, isConstraintValid t v none s = .ok ((true, none), s) :=
  ⟨.str 0 2 [] [.size (.leaf (.range 0 2 true true))], .str [200#8, 0#8, 0#8],
    by simp [CTy.Fits, AC.Fits, CTy.actual, CTy.layout, CTy.fixedSize, CTy.capacity], by decide, fun _ => rfl⟩

/-- C81, violation: an ENUMERATED without constraints: numbers that are no item pass. -/
theorem C81_item_violation : ∃ t v, t.Fits ∧ meaning t v = none ∧
    ∀ s, isConstraintValid t v none s = .ok ((true, none), s) :=
  ⟨.enum [0, 1] [], .enum 17, by simp [CTy.Fits], rfl, fun _ => rfl⟩

/-- C81, violation: an OBJECT IDENTIFIER with more arcs than the array has. -/
theorem C81_arcs_violation : ∃ t v, t.Fits ∧ meaning t v = none ∧
    ∀ s, isConstraintValid t v none s = .ok ((true, none), s) :=
  ⟨.oid false [], .oid ⟨21, List.replicate 20 1#64⟩, by simp [CTy.Fits], by decide, fun _ => rfl⟩

/-- C81, violation: `SEQUENCE OF INTEGER (WITH COMPONENT (1..5)) (SIZE(1..2))`: the loop runs to the count before the size is
tested, and reads behind the array. -/
theorem C81_componentFirst_violation : ∃ t v, t.Fits ∧ Shaped t v ∧ ∀ s, isConstraintValid t v none s = .ub :=
  ⟨.seqOf 1 2 (.int ⟨true, 0, 255⟩ []) [.component (.range (.range 1 5 true true)), .size (.leaf (.range 1 2 true true))],
    .seqOf 3 [.int 1, .int 2],
    by simp [CTy.Fits, AC.Fits, CTy.actual, CTy.layout, CTy.fixedSize, CTy.capacity, RLeaf.LitsFit],
    by simp [Shaped, meaning], fun _ => rfl⟩

end Asn1
