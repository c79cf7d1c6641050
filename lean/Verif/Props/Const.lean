import Verif.Proof.Const
import Verif.Props.Object
/-!
# C98: the C constants of value assignments
-/
namespace Asn1

/-- C98 (part): the constant is accepted by the C compiler and denotes the value that was assigned.
Missing: what `CTy.Constant` excludes (see the violations below). -/
theorem C98_constant_partial (t : CTy) (a : AV) (h : t.Constant none a) :
    ∃ w, constOf t none a = some w ∧ meaning t w = some a :=
  let ⟨w, h1, h2, _⟩ := constOf_ok t none a h
  ⟨w, h1, h2⟩

/-- C98 (part): `_IsConstraintValid` accepts the constant exactly if the value satisfies the constraints of the type. -/
theorem C98_valid_partial (t : CTy) (a : AV) (h : t.Constant none a) (hf : t.Fits) (err : ErrCode) (s : BitStream) :
    ∃ w b err', constOf t none a = some w ∧ isConstraintValid t w err s = .ok ((b, err'), s) ∧ (b = true ↔ t.Sat a) := by
  obtain ⟨w, hw, hm, _⟩ := constOf_ok t none a h
  obtain ⟨b, e, hv, hb, _, _⟩ := C80_valid_partial t hf w a hm err s
  exact ⟨w, b, e, hw, hv, hb⟩

/-- C98 (part): `_Equal` finds the constant equal to exactly those objects of the type that denote the assigned value. -/
theorem C98_equal_partial (t : CTy) (a : AV) (h : t.Constant none a) (hr : t.noReal = true) (v : CVal) (b : AV)
    (hv : meaning t v = some b) (s : BitStream) :
    ∃ w r, constOf t none a = some w ∧ cEqual t w v s = .ok (r, s) ∧ (r = true ↔ a = b) := by
  obtain ⟨w, hw, hm, _⟩ := constOf_ok t none a h
  obtain ⟨r, he, hre⟩ := C79_equal_partial t hr w v a b hm hv s
  exact ⟨w, r, hw, he, hre⟩

/-- C98 (part): the generated encoder encodes the constant, the decoder gives the assigned value back, and the object that it writes
denotes the assigned value. -/
theorem C98_encoded_partial (t : CTy) (a : AV) (h : t.Constant none a) (hf : t.Fits) (hc : Computed t) (hok : Ok (uperTy t))
    (hcod : Codable t a) (hs : t.Sat a) (chk : Bool) :
    ∃ w, constOf t none a = some w ∧
      RoundTrip (encodeObject t w chk) (true, none) (decodeType (uperTy t)) (toVal t a) (code false (uperTy t) (toVal t a)).length ∧
      ∀ v, Stored t (toVal t a) v → meaning t v = some a := by
  obtain ⟨w, hw, hm, _⟩ := constOf_ok t none a h
  obtain ⟨b, e, hv, hb, _, _⟩ := C80_valid_partial t hf w a hm none ⟨[], 0, 0, 0⟩
  obtain rfl := hb.2 hs
  obtain ⟨h1, h2⟩ := C94_roundtrip_partial t hf hc hok w a hm hcod _ _ _ hv chk
  exact ⟨w, hw, h1, fun v hv => (h2 v hv).1⟩

/-- C98 (part): the constant and an object into which the same value has been stored as a DEFAULT value have the same encoding. -/
theorem C98_sameAsDeclared_partial (t : CTy) (a : AV) (h : t.Constant none a) (hst : t.Storable none a) (hf : t.Fits) (hc : Computed t)
    (hok : Ok (uperTy t)) (hcod : Codable t a) (hs : t.Sat a) (junk : CTy → CVal) (hj : ∀ u, HasLayout u (junk u)) (v : CVal)
    (hl : HasLayout t v) (s : BitStream) (chk : Bool) :
    ∃ w w' bits, constOf t none a = some w ∧ initByValue junk t none a v s = .ok (w', s) ∧
      Appends (encodeObject t w chk) (true, none) bits ∧ Appends (encodeObject t w' chk) (true, none) bits := by
  obtain ⟨w, hw, hm, _⟩ := constOf_ok t none a h
  obtain ⟨w', hw', hm'⟩ := C83_declared_partial t a hst junk hj v hl s
  obtain ⟨bits, h1, h2⟩ := C94_sameBits_partial t hf hc hok w w' a hm hm' hcod hs chk
  exact ⟨w, w', bits, hw, hw', h1, h2⟩

/-! ## Examples -/

/-- `SEQUENCE { a BIT STRING (SIZE(10)), b SEQUENCE (SIZE(0..3)) OF IA5String (SIZE(0..4)), c OBJECT IDENTIFIER OPTIONAL, d CHOICE { x NULL,
y INTEGER (0..255) } DEFAULT y : 3, e BOOLEAN OPTIONAL }` with `{ a '1010101011'B, b {"hi", ""} }`: of the absent components `d` gets
its DEFAULT value, and its bit in `exist` is 0. -/
example : exDeclTy.Constant none (.seq [some (.bits [true, false, true, false, true, false, true, false, true, true]),
      some (.seqOf [.str [104#8, 105#8], .str []]), none, none, none]) ∧
    constOf exDeclTy none (.seq [some (.bits [true, false, true, false, true, false, true, false, true, true]),
      some (.seqOf [.str [104#8, 105#8], .str []]), none, none, none])
    = some (.seq [(false, .bits 0 [0xAA#8, 0xC0#8]),
        (false, .seqOf 2 [.str [104#8, 105#8, 0#8, 0#8, 0#8], .str (List.replicate 5 0#8), .str (List.replicate 5 0#8)]),
        (false, .oid ⟨0, List.replicate 20 0#64⟩), (false, .choice 2 (.int 3)), (false, .bool false)]) :=
  ⟨by simp [exDeclTy, CTy.Constant, CFields.Constant, CAlts.Constant, CTy.Storable, CFields.Optional, CFields.Written], rfl⟩

/-- A value that satisfies all hypotheses. -/
example : exObjTy.Constant none (exObjAV 25) ∧ exObjTy.Storable none (exObjAV 25) ∧ exObjTy.Sat (exObjAV 25) ∧ exObjTy.Fits ∧
    Computed exObjTy ∧ Ok (uperTy exObjTy) ∧ Codable exObjTy (exObjAV 25) ∧ exObjTy.noReal = true ∧
    HasLayout exObjTy (zeroMem exObjTy) ∧
    constOf exObjTy none (exObjAV 25) = some (exObjVal 25 0#8 false) :=
  ⟨by simp [exObjTy, exObjAV, CTy.Constant, CFields.Constant, CAlts.Constant, CTy.Storable, CFields.Optional, CFields.Written],
   by simp [exObjTy, exObjAV, CTy.Storable, CFields.Storable, CAlts.Storable],
   by simp [exObjTy, exObjAV, CTy.Sat, CFields.Sat, CAlts.Sat, AC.Sat, AV.size, RLeaf.Sat, Con.Sat, AlphaLeaf.Sat],
   exObjTy_fits, exObjTy_computed, exObjTy_ok, exObj_codable, rfl, zeroMem_layout _, rfl⟩

/-! ## Violations -/

/-- The value satisfies the constraints and some object denotes it, but the constant does not denote it: it denotes `b`. -/
def ConstDenotes (t : CTy) (a : AV) (b : Option AV) : Prop :=
  t.Sat a ∧ (∃ v, meaning t v = some a) ∧ (∃ w, constOf t none a = some w ∧ meaning t w = b) ∧ b ≠ some a

/-- The value satisfies the constraints and some object denotes it, but the C compiler rejects the constant. -/
def ConstRejected (t : CTy) (a : AV) : Prop :=
  t.Sat a ∧ (∃ v, meaning t v = some a) ∧ constOf t none a = none

/-- `x BIT STRING (SIZE(1..16)) ::= '1011'B`: the count is the number of octets, the constant denotes `'1'B`. -/
theorem C98_bits_violation : ConstDenotes (.bits 1 16 [.size (.leaf (.range 1 16 true true))]) (.bits [true, false, true, true])
    (some (.bits [true])) :=
  ⟨by simp [CTy.Sat, AC.Sat, AV.size, Con.Sat, RLeaf.Sat], ⟨.bits 4 [0xB0#8, 0#8], rfl⟩, ⟨.bits 1 [0xB0#8, 0#8], rfl, rfl⟩, by simp⟩

/-- `x T (SIZE(1)) ::= '03'H` with `T ::= OCTET STRING (SIZE(1..4))`: the octet becomes the count, the constant denotes `'000000'H`. -/
theorem C98_fixedReference_violation : ConstDenotes (.ref (.octets 1 4 [.size (.leaf (.range 1 4 true true))]) (some (1, 1))
    [.size (.leaf (.single 1))]) (.octets [3#8]) (some (.octets [0#8, 0#8, 0#8])) :=
  ⟨by simp [CTy.Sat, AC.Sat, AV.size, Con.Sat, RLeaf.Sat], ⟨.octets 1 [3#8, 0#8, 0#8, 0#8], rfl⟩,
    ⟨.octets 3 [0#8, 0#8, 0#8, 0#8], rfl, rfl⟩, by simp⟩

/-- `x T (SIZE(2)) ::= '0102'H`: the C compiler rejects two numbers for the count. -/
theorem C98_fixedReference2_violation : ConstRejected (.ref (.octets 1 4 [.size (.leaf (.range 1 4 true true))]) (some (2, 2))
    [.size (.leaf (.single 2))]) (.octets [1#8, 2#8]) :=
  ⟨by simp [CTy.Sat, AC.Sat, AV.size, Con.Sat, RLeaf.Sat], ⟨.octets 2 [1#8, 2#8, 0#8, 0#8], rfl⟩, rfl⟩

/-- `x T (SIZE(2)) ::= {TRUE, FALSE}` with `T ::= SEQUENCE (SIZE(0..4)) OF BOOLEAN`: the constant has no elements. -/
theorem C98_fixedElements_violation : ConstDenotes (.ref (.seqOf 0 4 (.bool []) [.size (.leaf (.range 0 4 true true))]) (some (2, 2))
    [.size (.leaf (.single 2))]) (.seqOf [.bool true, .bool false]) (some (.seqOf [])) :=
  ⟨by simp [CTy.Sat, AC.Sat, AV.size, Con.Sat, RLeaf.Sat], ⟨.seqOf 2 [.bool true, .bool false, .bool false, .bool false], rfl⟩,
    ⟨.seqOf 0 [.bool true, .bool false, .bool false, .bool false], rfl, rfl⟩, by simp⟩

/-- `x IA5String (SIZE(3)) ::= "a""b"` (the string `a"b`) is the constant `ab`. -/
theorem C98_quote_violation : ConstDenotes (.str 3 3 [] [.size (.leaf (.single 3))]) (.str [97#8, 0x22#8, 98#8])
    (some (.str [97#8, 98#8])) :=
  ⟨by simp [CTy.Sat, AC.Sat, AV.size, Con.Sat, RLeaf.Sat], ⟨.str [97#8, 0x22#8, 98#8, 0#8], rfl⟩,
    ⟨.str [97#8, 98#8, 0#8, 0#8], rfl, rfl⟩, by simp⟩

/-- `x SEQUENCE { a INTEGER (0..255) OPTIONAL } ::= {}`: the initialiser list begins with a comma. -/
theorem C98_noComponents_violation : ConstRejected (.seq (.cons .optional (.int ⟨true, 0, 255⟩ []) .nil) []) (.seq [none]) :=
  ⟨by simp [CTy.Sat, CFields.Sat], ⟨.seq [(false, .int 0)], rfl⟩, rfl⟩

/-- `x REAL ::= PLUS-INFINITY`: what is printed is not a C literal. -/
theorem C98_infinity_violation : ConstRejected (.real []) (.real 0x7FF0000000000000#64) :=
  ⟨by simp [CTy.Sat], ⟨.real 0x7FF0000000000000#64, rfl⟩, rfl⟩

end Asn1
