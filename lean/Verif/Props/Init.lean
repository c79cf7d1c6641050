import Verif.Proof.Init
import Verif.Proof.ValidType
import Verif.Props.Valid
import Verif.Props.Equal
/-!
# C82, C83: the generated functions `<type>_Initialize`, and declared values
-/
namespace Asn1

/-- C82 (part): `_Initialize` gives every object of the type one and the same value, whatever the memory held before, and
this value satisfies all constraints of the type, of the types it refers to, of its components, elements and alternatives.
It stores nothing outside the object.
Missing: what `CTy.InitOk` excludes (see the violations below). -/
theorem C82_initialize_partial (t : CTy) (h : t.InitOk [] none) :
    ∃ a, t.Sat a ∧ ∀ junk, (∀ u, HasLayout u (junk u)) → ∀ v s, HasLayout t v →
      ∃ w, initializeC junk t v s = .ok (w, s) ∧ meaning t w = some a ∧ HasLayout t w := by
  obtain ⟨a, ⟨h1, _⟩, h2⟩ := initT_ok t [] none h
  exact ⟨a, h1, h2⟩

/-- C82 (part): what `_Initialize` stored passes `_IsConstraintValid`. -/
theorem C82_valid_partial (t : CTy) (h : t.InitOk [] none) (hf : t.Fits) (junk : CTy → CVal)
    (hj : ∀ u, HasLayout u (junk u)) (v : CVal) (hl : HasLayout t v) (err : ErrCode) (s : BitStream) :
    ∃ w err', initializeC junk t v s = .ok (w, s) ∧ isConstraintValid t w err s = .ok ((true, err'), s) := by
  obtain ⟨a, h1, h2⟩ := C82_initialize_partial t h
  obtain ⟨w, hw, hm, _⟩ := h2 junk hj v s hl
  obtain ⟨b, e, hv, hb, _, _⟩ := C80_valid_partial t hf w a hm err s
  obtain rfl := hb.2 h1
  exact ⟨w, e, hw, hv⟩

/-- C82 (part): two objects of the type, both initialised, are equal for `_Equal`. -/
theorem C82_equal_partial (t : CTy) (h : t.InitOk [] none) (hr : t.noReal = true) (junk junk' : CTy → CVal)
    (hj : ∀ u, HasLayout u (junk u)) (hj' : ∀ u, HasLayout u (junk' u)) (v v' : CVal) (hl : HasLayout t v) (hl' : HasLayout t v')
    (s : BitStream) : ∃ w w', initializeC junk t v s = .ok (w, s) ∧ initializeC junk' t v' s = .ok (w', s) ∧
      cEqual t w w' s = .ok (true, s) := by
  obtain ⟨a, h1, h2⟩ := C82_initialize_partial t h
  obtain ⟨w, hw, hm, _⟩ := h2 junk hj v s hl
  obtain ⟨w', hw', hm', _⟩ := h2 junk' hj' v' s hl'
  obtain ⟨r, he, hre⟩ := C79_equal_partial t hr w w' a a hm hm' s
  obtain rfl := hre.2 rfl
  exact ⟨w, w', hw, hw', he⟩

/-- C83 (part): the statements for a declared value (DEFAULT) make the object denote this value, whatever the memory held before.
Missing: what `CTy.Storable` excludes (see the violations below). -/
theorem C83_declared_partial (t : CTy) (a : AV) (h : t.Storable none a) (junk : CTy → CVal)
    (hj : ∀ u, HasLayout u (junk u)) (v : CVal) (hl : HasLayout t v) (s : BitStream) :
    ∃ w, initByValue junk t none a v s = .ok (w, s) ∧ meaning t w = some a :=
  let ⟨w, h1, h2, _⟩ := byValue_ok hj t none a v s h hl
  ⟨w, h1, h2⟩

/-! ## An example -/

mutual
theorem zeroMem_layout : ∀ t : CTy, HasLayout t (zeroMem t)
  | .int _ _ | .bool _ | .null | .enum _ _ | .real _ | .choice _ _ => by simp [zeroMem, HasLayout]
  | .octets _ _ _ | .bits _ _ _ | .str _ _ _ _ | .oid _ _ => by simp [zeroMem, HasLayout]
  | .seq fs _ => by simp only [zeroMem, HasLayout]; exact zeroFields_layout fs
  | .seqOf _ hi t _ => by
    simp only [zeroMem, HasLayout, List.length_replicate, true_and]
    intro x hx; rw [List.eq_of_mem_replicate hx]; exact zeroMem_layout t
  | .ref t _ _ => by simp only [zeroMem, HasLayout]; exact zeroMem_layout t
theorem zeroFields_layout : ∀ fs : CFields, HasLayoutFields fs (zeroFields fs)
  | .nil => trivial
  | .cons _ t rest => ⟨zeroMem_layout t, zeroFields_layout rest⟩
end

/-- `SEQUENCE { a INTEGER (20..30 | 5<..10) (7..MAX), b ENUMERATED {x(1), y(4)} (ALL EXCEPT x), c T (SIZE (3..4)) where T ::= BIT STRING
(SIZE(1..9)), d IA5String (SIZE(1..3)) (FROM ("a".."c")), e SEQUENCE (SIZE(2..3)) OF REAL (1.0..2.0), f CHOICE { x BOOLEAN (TRUE), y NULL }
OPTIONAL, g OCTET STRING (SIZE(1..3)) DEFAULT '0102'H, h NULL OPTIONAL, i OCTET STRING ('AA'H | '0B0C'H) } (WITH COMPONENTS {..., h ABSENT})`,
the constraint on the whole being expressed by the component. -/
def exInitTy : CTy := .seq
  (.cons .mandatory (.int ⟨true, 0, 255⟩ [.union (.range (.range 20 30 true true)) (.range (.range 5 10 false true)), .range (.valMax 7 true)])
  (.cons .mandatory (.enum [1, 4] [.allExcept (.item 1)])
  (.cons .mandatory (.ref (.bits 1 9 [.size (.leaf (.range 1 9 true true))]) (some (3, 4)) [.size (.leaf (.range 3 4 true true))])
  (.cons .mandatory (.str 1 3 [97#8, 98#8, 99#8] [.size (.leaf (.range 1 3 true true)), .alphabet (.leaf (.range 97 99 true true))])
  (.cons .mandatory (.seqOf 2 3 (.real [.realRange (.range 0x3FF0000000000000#64 0x4000000000000000#64 true true)])
    [.size (.leaf (.range 2 3 true true))])
  (.cons .optional (.choice (.cons (.bool [.boolean true]) (.cons .null .nil)) [])
  (.cons (.default (.octets [1#8, 2#8])) (.octets 1 3 [.size (.leaf (.range 1 3 true true))])
  (.cons .absent .null
  (.cons .mandatory (.octets 1 2 [.union (.octetsVal [0xAA#8]) (.octetsVal [0x0B#8, 0x0C#8])]) .nil))))))))) []

theorem exInitTy_ok : exInitTy.InitOk [] none := by
  simp only [exInitTy, CTy.InitOk, CFields.InitOk, CAlts.InitOk, CTy.Storable, CTy.Sat, List.append_nil, true_and, and_true]
  refine ⟨⟨?_, ⟨25, ?_, ?_⟩, ?_⟩, ⟨?_, 4, ?_, ?_⟩, ⟨?_, ?_, ?_⟩, ⟨?_, ⟨97#8, ?_⟩, ?_⟩, ⟨?_, ?_, ?_, 0x3FF0000000000000#64, ?_, ?_⟩,
    ⟨?_, true, ?_⟩, ?_, ?_, .inr ⟨_, rfl, ?_, ?_, ?_, ?_⟩⟩
  · simp [AC.Positive, AC.Over, AC.IntLeaf]
  · simp [IntClass.Word]
  · simp [SatAll, AC.Sat, RLeaf.Sat]
  · simp [SatAll, AC.Sat, RLeaf.Sat, IntClass.Word]; omega
  · simp [AC.Over, AC.ItemLeaf]
  · simp
  · simp [SatAll, AC.Sat]
  · simp [AC.Over, AC.SizeLeaf]
  · unfold Narrower; decide
  · intro l hl; simp [SatAll, AC.Sat, AV.size, Con.Sat, RLeaf.Sat] at hl ⊢; omega
  · decide
  · decide
  · simp [SatAll, AC.Sat, AV.size, Con.Sat, RLeaf.Sat, AlphaLeaf.Sat]
  · unfold Narrower; decide
  · intro l hl; simp [SatAll, AC.Sat, AV.size, Con.Sat, RLeaf.Sat] at hl ⊢; omega
  · simp [AC.Positive, AC.Over, AC.RealLeafIncl]
  · unfold IsFinite; decide
  · simp [SatAll, AC.Sat, RealLeaf.Sat]; decide
  · simp [AC.Over, AC.BoolLeaf]
  · simp [SatAll, AC.Sat]
  · decide
  · simp [AC.Sat, AV.size, Con.Sat, RLeaf.Sat]
  · simp [AC.Alternatives]
  · simp [AC.Over, AC.OctetsLeaf]
  · decide
  · simp [AC.Sat]

/-- The type meets the hypothesis. Its objects, initialised from two different memories. -/
example : exInitTy.InitOk [] none ∧ HasLayout exInitTy (zeroMem exInitTy) ∧ (∀ u, HasLayout u (zeroMem u)) ∧
    initializeC zeroMem exInitTy (zeroMem exInitTy) ⟨[], 0, 0, 0⟩ = .ok (.seq [(false, .int 20), (false, .enum 4),
      (false, .bits 3 [0#8, 0#8]), (false, .str [97#8, 97#8, 97#8, 0#8]),
      (false, .seqOf 2 (List.replicate 3 (.real 0x3FF0000000000000#64))), (true, .choice 1 (.bool true)),
      (true, .octets 2 [1#8, 2#8, 0#8]), (false, .null), (false, .octets 1 [0xAA#8, 0#8])], ⟨[], 0, 0, 0⟩) ∧
    initializeC zeroMem exInitTy (.seq [(false, .int (-7)), (true, .enum 9), (true, .bits (-1) [255#8, 255#8]),
      (false, .str [1#8, 1#8, 1#8, 1#8]), (false, .seqOf 77 (List.replicate 3 (.real 1#64))), (false, .choice 5 .null),
      (false, .octets 99 [7#8, 7#8, 7#8]), (true, .null), (false, .octets 9 [1#8, 1#8])]) ⟨[], 0, 0, 0⟩
    = .ok (.seq [(false, .int 20), (true, .enum 4),
      (true, .bits 3 [0#8, 255#8]), (false, .str [97#8, 97#8, 97#8, 0#8]),
      (false, .seqOf 2 (List.replicate 3 (.real 0x3FF0000000000000#64))), (true, .choice 1 (.bool true)),
      (true, .octets 2 [1#8, 2#8, 7#8]), (false, .null), (false, .octets 1 [0xAA#8, 0#8])], ⟨[], 0, 0, 0⟩) :=
  ⟨exInitTy_ok, zeroMem_layout _, zeroMem_layout, rfl, rfl⟩

/-- `SEQUENCE { a BIT STRING (SIZE(10)), b SEQUENCE (SIZE(0..3)) OF IA5String (SIZE(0..4)), c OBJECT IDENTIFIER OPTIONAL, d CHOICE { x NULL,
y INTEGER (0..255) } DEFAULT y : 3, e BOOLEAN OPTIONAL }`. -/
def exDeclTy : CTy := .seq
  (.cons .mandatory (.bits 10 10 []) (.cons .mandatory (.seqOf 0 3 (.str 0 4 [] []) []) (.cons .optional (.oid false [])
  (.cons (.default (.choice 1 (.int 3))) (.choice (.cons .null (.cons (.int ⟨true, 0, 255⟩ []) .nil)) []) (.cons .optional (.bool []) .nil))))) []

/-- `{ a '1010101011'B, b {"hi", ""}, c {1 3 6}, d y : 200 }`. -/
def exDecl : AV := .seq [some (.bits [true, false, true, false, true, false, true, false, true, true]),
  some (.seqOf [.str [104#8, 105#8], .str []]), some (.oid [1#64, 3#64, 6#64]), some (.choice 1 (.int 200)), none]

/-- The type and the value meet the hypothesis. -/
example : exDeclTy.Storable none exDecl ∧
    ∃ w, initByValue zeroMem exDeclTy none exDecl (zeroMem exDeclTy) ⟨[], 0, 0, 0⟩ = .ok (w, ⟨[], 0, 0, 0⟩) ∧ meaning exDeclTy w = some exDecl :=
  have h : exDeclTy.Storable none exDecl := by
    simp [exDeclTy, exDecl, CTy.Storable, CFields.Storable, CAlts.Storable]
  ⟨h, C83_declared_partial _ _ h zeroMem zeroMem_layout _ (zeroMem_layout _) _⟩

/-! ## Violations -/

/-- Some object of the type is initialised with a value that violates the constraints, although others satisfy them. -/
def InitViolates (t : CTy) : Prop :=
  (∃ a, t.Sat a ∧ ∃ v, meaning t v = some a) ∧ ∃ w a, initializeC zeroMem t (zeroMem t) ⟨[], 0, 0, 0⟩ = .ok (w, ⟨[], 0, 0, 0⟩) ∧
    meaning t w = some a ∧ ¬ t.Sat a

/-- `INTEGER (ALL EXCEPT 0)` is initialised with 0. -/
theorem C82_allExcept_violation : InitViolates (.int ⟨false, -(2 ^ 63), 2 ^ 63 - 1⟩ [.allExcept (.range (.single 0))]) :=
  ⟨⟨.int 1, by simp [CTy.Sat, AC.Sat, RLeaf.Sat], .int 1, by simp [meaning]⟩, .int 0, .int 0, rfl, by simp [meaning],
    by simp [CTy.Sat, AC.Sat, RLeaf.Sat]⟩

/-- `INTEGER (0..5 EXCEPT (0 | 5))` is initialised with 0: only the ends of the ranges are tried. -/
theorem C82_except_violation : InitViolates (.int ⟨true, 0, 255⟩
    [.except (.range (.range 0 5 true true)) (.union (.range (.single 0)) (.range (.single 5)))]) :=
  ⟨⟨.int 1, by simp [CTy.Sat, AC.Sat, RLeaf.Sat], .int 1, by simp [meaning]⟩, .int 0, .int 0, rfl, by simp [meaning],
    by simp [CTy.Sat, AC.Sat, RLeaf.Sat]⟩

/-- `REAL (0.0 <..< 1.0)` is initialised with 0.0: excluded bounds are not moved. -/
theorem C82_realOpen_violation : InitViolates (.real [.realRange (.range 0#64 0x3FF0000000000000#64 false false)]) :=
  ⟨⟨.real 0x3FE0000000000000#64, by simp [CTy.Sat, AC.Sat, RealLeaf.Sat]; decide, .real 0x3FE0000000000000#64, rfl⟩, .real 0#64, .real 0#64,
    rfl, rfl, by simp [CTy.Sat, AC.Sat, RealLeaf.Sat]; decide⟩

/-- `OCTET STRING (SIZE(1)) (ALL EXCEPT 'FF'H)` is initialised with `'FF'H`. -/
theorem C82_octetsExcept_violation : InitViolates (.octets 1 1 [.size (.leaf (.single 1)), .allExcept (.octetsVal [0xFF#8])]) :=
  ⟨⟨.octets [0#8], by simp [CTy.Sat, AC.Sat, AV.size, Con.Sat, RLeaf.Sat], .octets 0 [0#8], rfl⟩, .octets 0 [0xFF#8], .octets [0xFF#8],
    rfl, rfl, by simp [CTy.Sat, AC.Sat]⟩

/-- `BIT STRING ('101'B | '0'B)` is initialised with `'1'B`: the bits of the first value, the length of the shortest. -/
theorem C82_bitsValue_violation : InitViolates (.bits 1 3 [.union (.bitsVal [true, false, true]) (.bitsVal [false])]) :=
  ⟨⟨.bits [false], by simp [CTy.Sat, AC.Sat], .bits 1 [0#8], rfl⟩, .bits 1 [0xA0#8], .bits [true], rfl, rfl, by simp [CTy.Sat, AC.Sat]⟩

/-- `IA5String (SIZE(1..3)) (FROM (lf))` is initialised with the empty string: only printable characters are tried. -/
theorem C82_alphabet_violation : InitViolates (.str 1 3 [10#8] [.size (.leaf (.range 1 3 true true)), .alphabet (.leaf (.chars [10]))]) :=
  ⟨⟨.str [10#8], by simp [CTy.Sat, AC.Sat, AV.size, Con.Sat, RLeaf.Sat, AlphaLeaf.Sat], .str [10#8, 0#8, 0#8, 0#8], rfl⟩,
    .str [0#8, 0#8, 0#8, 0#8], .str [], rfl, rfl, by simp [CTy.Sat, AC.Sat, AV.size, Con.Sat, RLeaf.Sat]⟩

/-- `IA5String ("ab" | "c")` is initialised with spaces: single values are not considered. -/
theorem C82_strValue_violation : InitViolates (.str 1 2 ((List.range 128).map (BitVec.ofNat 8)) [.union (.strVal [97#8, 98#8]) (.strVal [99#8])]) :=
  ⟨⟨.str [99#8], by simp [CTy.Sat, AC.Sat], .str [99#8, 0#8, 0#8], rfl⟩,
    .str [32#8, 32#8, 0#8], .str [32#8, 32#8], rfl, rfl, by simp [CTy.Sat, AC.Sat]⟩

/-- OBJECT IDENTIFIER is initialised with no arcs, which no constraint check accepts. -/
theorem C82_oid_violation : InitViolates (.oid false []) :=
  ⟨⟨.oid [1#64, 3#64], by simp [CTy.Sat, OidArcsOk], .oid ⟨2, 1#64 :: 3#64 :: List.replicate 18 0#64⟩, rfl⟩,
    .oid ⟨0, List.replicate 20 0#64⟩, .oid [], rfl, rfl, by simp [CTy.Sat, OidArcsOk]⟩

/-- `CHOICE { x NULL, y BOOLEAN } (WITH COMPONENTS {x ABSENT})` is initialised with `x`. -/
theorem C82_choiceAbsent_violation : InitViolates (.choice (.cons .null (.cons (.bool []) .nil)) [.components (.bare 0 .absent .nil)]) :=
  ⟨⟨.choice 1 (.bool true), by simp [CTy.Sat, CAlts.Sat, AC.Sat, NCs.Sat, Mark.Sat, AV.part], .choice 2 (.bool true), rfl⟩,
    .choice 1 .null, .choice 0 .null, rfl, rfl, by simp [CTy.Sat, AC.Sat, NCs.Sat, Mark.Sat, AV.part]⟩

/-- `T (SIZE(2))` with `T ::= OCTET STRING (SIZE(1..3))`: the count is stored by `_Initialize` … -/
example : initializeC zeroMem (.ref (.octets 1 3 []) (some (2, 2)) [.size (.leaf (.single 2))]) (.octets 7 [1#8, 1#8, 1#8]) ⟨[], 0, 0, 0⟩
    = .ok (.octets 2 [0#8, 0#8, 1#8], ⟨[], 0, 0, 0⟩) := rfl

/-- … but not with a declared value: `DEFAULT '0102'H` leaves the old count. -/
theorem C83_fixedReference_violation : ∃ t a v, t.Sat a ∧ HasLayout t v ∧
    initByValue zeroMem t none a v ⟨[], 0, 0, 0⟩ = .ok (.octets 0 [1#8, 2#8, 0#8], ⟨[], 0, 0, 0⟩) ∧
    meaning t (.octets 0 [1#8, 2#8, 0#8]) = some (.octets []) ∧ a = .octets [1#8, 2#8] :=
  ⟨.ref (.octets 1 3 []) (some (2, 2)) [.size (.leaf (.single 2))], .octets [1#8, 2#8], .octets 0 [0#8, 0#8, 0#8],
    by simp [CTy.Sat, AC.Sat, AV.size, Con.Sat, RLeaf.Sat], by simp [HasLayout], rfl, rfl, rfl⟩

/-- `BIT STRING (SIZE(1..16)) DEFAULT '1011'B`: the count becomes the number of octets, the object denotes `'1'B`. -/
theorem C83_bits_violation : ∃ t a v, t.Sat a ∧ HasLayout t v ∧
    initByValue zeroMem t none a v ⟨[], 0, 0, 0⟩ = .ok (.bits 1 [0xB0#8, 0#8], ⟨[], 0, 0, 0⟩) ∧
    meaning t (.bits 1 [0xB0#8, 0#8]) = some (.bits [true]) ∧ a = .bits [true, false, true, true] :=
  ⟨.bits 1 16 [.size (.leaf (.range 1 16 true true))], .bits [true, false, true, true], .bits 0 [0#8, 0#8],
    by simp [CTy.Sat, AC.Sat, AV.size, Con.Sat, RLeaf.Sat], by simp [HasLayout], rfl, rfl, rfl⟩

/-- `IA5String (SIZE(3)) DEFAULT "a""b"` (the string `a"b`) stores `ab`. -/
theorem C83_quote_violation : ∃ t a v, t.Sat a ∧ HasLayout t v ∧
    initByValue zeroMem t none a v ⟨[], 0, 0, 0⟩ = .ok (.str [97#8, 98#8, 0#8, 0#8], ⟨[], 0, 0, 0⟩) ∧
    meaning t (.str [97#8, 98#8, 0#8, 0#8]) = some (.str [97#8, 98#8]) ∧ a = .str [97#8, 0x22#8, 98#8] :=
  ⟨.str 3 3 [] [.size (.leaf (.single 3))], .str [97#8, 0x22#8, 98#8], .str [0#8, 0#8, 0#8, 0#8],
    by simp [CTy.Sat, AC.Sat, AV.size, Con.Sat, RLeaf.Sat], by simp [HasLayout], rfl, rfl, rfl⟩

end Asn1
