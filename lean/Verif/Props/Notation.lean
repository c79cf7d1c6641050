import Verif.Proof.NotationCheck
/-!
# Values and constraints as written in ASN.1: C95, C96, C97
-/
namespace Asn1

/-! ## C95: values -/

/-- C95: what the compiler accepts as a value of a type is translated into the value that the notation denotes. Partial: no component is given twice. -/
theorem C95_denotes_partial (t : NTy) (v : VN) (h : checkValueType t v = true) (ho : v.OnceEach) : ∃ a, mapVal t v = some a ∧ t.Denotes v a := by
  unfold checkValueType at h
  exact accepted t none v (by simpa using h) ho

/-- C95: a notation denotes one value of a type. -/
theorem C95_unique (t : NTy) (v : VN) (a b : AV) (hd : t.Distinct) (ha : t.Denotes v a) (hb : t.Denotes v b) : a = b := denotes_unique hd ha hb

/-- C95: whatever denotes a value of a type is accepted, and translated into this value. Partial: the types of the value assignments that are referred to are not
themselves references. -/
theorem C95_accepted_partial (t : NTy) (v : VN) (a : AV) (h : t.Denotes v a) (hd : t.Distinct) (hb : v.BuiltinGovernors) :
    checkValueType t v = true ∧ mapVal t v = some a := by
  refine ⟨?_, complete t v a h hd⟩
  unfold checkValueType
  rw [matched t none v a h hd hb]
  rfl

/-- C95: a literal `'…'H` denotes, as a BIT STRING, four bits for each digit. Partial: the number of digits is even. -/
theorem C95_hexBits_partial (cons : List XC) (digits : List (Fin 16)) (he : digits.length % 2 = 0) :
    mapVal (.bits cons) (hexLiteral digits) = some (.bits (digits.flatMap hexDigitBits)) := by
  unfold hexLiteral
  rw [complete (.bits cons) (.octets (hexOctets digits)) (.bits (bytesBits (hexOctets digits)))
    (.inr ⟨_, .written (by simp [VN.IsName]), rfl⟩) (by simp [NTy.Distinct]), hexOctets_bits, he]
  simp

/-- C95: a literal `'…'H` denotes, as an OCTET STRING, the digits two by two, with 0 for a missing last one. -/
theorem C95_hexOctets (cons : List XC) (digits : List (Fin 16)) :
    ∃ l, mapVal (.octets cons) (hexLiteral digits) = some (.octets l) ∧ l.length = (digits.length + 1) / 2 ∧
      bytesBits l = digits.flatMap hexDigitBits ++ List.replicate (4 * (digits.length % 2)) false :=
  ⟨hexOctets digits, rfl, hexOctets_length digits, hexOctets_bits digits⟩

/-- C95: an integer of at most 53 bits, given for a REAL, denotes just this number: its mantissa times the power of two is the integer. -/
theorem C95_integerAsReal (n : Int) (h0 : n ≠ 0) (h : n.natAbs < 2 ^ 53) :
    dblIsNan (dblOfInt n) = false ∧ dblIsInf (dblOfInt n) = false ∧ dblSign (dblOfInt n) = decide (n < 0) ∧
      ∃ k : Nat, dblPow (dblOfInt n) = -(k : Int) ∧ dblMant (dblOfInt n) = n.natAbs * 2 ^ k := by
  obtain ⟨h1, h2, h3, h4, h5⟩ := dblOfInt_fields h0 h
  have hl := log2_le_52 (m := n.natAbs) (by omega) h
  exact ⟨h3, h4, h5, 52 - Nat.log2 n.natAbs, by rw [h2]; omega, h1⟩

/-- The ENUMERATED type `{red(0), green(5)}`. -/
def colourTy : NTy := .enum [("red", 0), ("green", 5)] []

/-- `SEQUENCE { a INTEGER, c Colour OPTIONAL, l SEQUENCE OF REAL }`. -/
def noteTy : NTy :=
  .seq (.cons "a" .mandatory (.int []) (.cons "c" .optional (.ref "M" "Colour" colourTy []) (.cons "l" .mandatory (.seqOf (.real []) []) .nil))) []

/-- `{ l {2, 2.5}, a x }` with `x INTEGER ::= 7`. -/
def noteVal : VN :=
  .seq (.cons "l" (.seqOf (.cons (.int 2) (.cons (.real 0x4004000000000000#64) .nil))) (.cons "a" (.ref "M" "x" none (.int 7)) .nil))

example : checkValueType noteTy noteVal = true ∧ noteVal.OnceEach ∧ noteTy.Distinct ∧ noteVal.BuiltinGovernors ∧
    mapVal noteTy noteVal = some (.seq [some (.int 7), none, some (.seqOf [.real (dblOfInt 2), .real 0x4004000000000000#64])]) := by
  refine ⟨by decide +kernel, ?_, ?_, ?_, rfl⟩
  · simp [noteVal, VN.OnceEach, VNFields.OnceEach, VNs.OnceEach, VNFields.toList]
  · simp [noteTy, colourTy, NTy.Distinct, NFields.Distinct, NFields.toList]
  · simp [noteVal, VN.BuiltinGovernors, VNFields.BuiltinGovernors, VNs.BuiltinGovernors]
example : mapVal colourTy (.ident "M" "green") = some (.enum 5) := rfl
example : checkValueType colourTy (.ident "M" "blue") = false := by decide +kernel
example : checkValueType noteTy (.seq (.cons "a" (.int 1) .nil)) = false := by decide +kernel
example : mapVal (.bits []) (hexLiteral [10, 1]) = some (.bits [true, false, true, false, false, false, false, true]) := rfl
example : dblOfInt (-3) = 0xC008000000000000#64 := by decide +kernel

/-- The full claim fails: `'ABC'H` as a BIT STRING becomes 16 bits; X.680 says twelve. -/
theorem C95_oddDigits_violation : ∃ w, mapVal (.bits []) (hexLiteral [10, 11, 12]) = some (.bits w) ∧ w.length = 16 ∧
    ([10, 11, 12] : List (Fin 16)).flatMap hexDigitBits ≠ w := ⟨_, rfl, rfl, by decide⟩

/-- The full claim fails: `{a 1, a 2}` is accepted although it denotes nothing; the first value is taken. -/
theorem C95_twice_violation :
    ∃ (t : NTy) (v : VN), t.Distinct ∧ checkValueType t v = true ∧ mapVal t v = some (.seq [some (.int 1)]) ∧ ∀ a, ¬ t.Denotes v a := by
  refine ⟨.seq (.cons "a" .mandatory (.int []) .nil) [], .seq (.cons "a" (.int 1) (.cons "a" (.int 2) .nil)), ?_, by decide +kernel, rfl, ?_⟩
  · simp [NTy.Distinct, NFields.Distinct, NFields.toList]
  · rintro a ⟨l, xs, hl, _, hn, _⟩
    have := (VN.base_iff _ _).2 hl
    simp only [VN.base, Option.some.injEq, VN.seq.injEq] at this
    rw [← this] at hn
    simp [VNFields.toList] at hn

/-- The full claim fails: with `A ::= INTEGER`, `B ::= A` and `x A ::= 1`, the value `x` for a B is refused. -/
theorem C95_governor_violation :
    ∃ (t : NTy) (v : VN), t.Denotes v (.int 1) ∧ checkValueType t v = false ∧ mapVal t v = some (.int 1) :=
  ⟨.ref "M" "B" (.ref "M" "A" (.int []) []) [], .ref "M" "x" (some ("M", "A")) (.int 1), ⟨1, .name (.written (by simp [VN.IsName])), rfl⟩, by decide +kernel, rfl⟩

/-! ## C96: constraints -/

/-- C96: the constraint that the compiler works with admits the values that the notation admits. Partial: single values in it are values of the type. -/
theorem C96_constraint_partial (t : NTy) (c : XC) (ac : AC) (h : mapCon t c = some ac) (hd : t.Distinct) (hv : c.Valued t) (a : AV) :
    ac.Sat a ↔ c.Sat t a := mapCon_sat c t ac a h hd hv

/-- `(WITH COMPONENTS {a (0..x | 20<..MAX), c ABSENT, l (SIZE(1..3)) (WITH COMPONENT (1.0))})` with `x INTEGER ::= 7`. -/
def noteCon : XC :=
  .components (.cons "a" .noMark (.union (.range (.int 0) (.ref "M" "x" none (.int 7)) true true) (.valMax (.int 20) false))
    (.bare "c" .absent (.cons "l" .noMark (.inter (.size (.range (.int 1) (.int 3) true true)) (.component (.single (.int 1)))) .nil)))

example : ∃ ac, mapCon noteTy noteCon = some ac ∧ noteTy.Distinct ∧ noteCon.Valued noteTy := by
  refine ⟨_, rfl, ?_, ?_⟩
  · simp [noteTy, colourTy, NTy.Distinct, NFields.Distinct, NFields.toList]
  · rw [noteCon, XC.Valued]
    refine ⟨fun i u _ => by simp [XC.Valued], fun i u h => ?_, trivial⟩
    have hu := (NTy.isPart_unique (t := noteTy) (nm := "l") (i := 2) (u := .seqOf (.real []) [])
      (by simp [noteTy, colourTy, NTy.Distinct, NFields.Distinct, NFields.toList]) ⟨.mandatory, rfl⟩ h).2
    subst hu
    refine ⟨trivial, fun e he => ?_⟩
    cases he
    exact ⟨_, .inr ⟨1, .written (by simp [VN.IsName]), rfl⟩⟩

/-! ## C97: DEFAULT values and value assignments -/

/-- C97: a DEFAULT value, or the value of a value assignment, is accepted exactly if it denotes a value of the type that satisfies all constraints of the type, of its
parts and of the types it refers to. Partial: constraints of the forms of `NTy.Plain`, values written as `NTy.Direct` says, no component given twice, no value
assignments whose type is a reference. -/
theorem C97_accepted_partial (t : NTy) (v : VN) (hp : t.Plain) (hd : t.Distinct) (hi : t.Direct v) (ho : v.OnceEach) (hb : v.BuiltinGovernors) :
    acceptsDefault t v = true ↔ ∃ a, t.Denotes v a ∧ t.Sat a := by
  unfold acceptsDefault
  rw [Bool.and_eq_true, beq_iff_eq]
  constructor
  · rintro ⟨h1, h2⟩
    obtain ⟨a, _, ha⟩ := C95_denotes_partial t v h1 ho
    exact ⟨a, ha, (((conforms_sat t [] v a hp hd ha hi (by simp)).isTrue).1 h2).1⟩
  · rintro ⟨a, ha, hs⟩
    exact ⟨(C95_accepted_partial t v a ha hd hb).1, ((conforms_sat t [] v a hp hd ha hi (by simp)).isTrue).2 ⟨hs, by simp⟩⟩

/-- C97: the check never fails with an internal error: a value of the type is either accepted or refused. Partial: as `C97_accepted_partial`. -/
theorem C97_decided_partial (t : NTy) (v : VN) (a : AV) (hp : t.Plain) (hd : t.Distinct) (hi : t.Direct v) (ha : t.Denotes v a) :
    conforms t [] v = some true ∨ conforms t [] v = some false := by
  rcases conforms_sat t [] v a hp hd ha hi (by simp) with h | h
  · exact .inl h.1
  · exact .inr h.1

/-- C97: the value of a BIT STRING that is written as a hexadecimal string is accepted exactly if the number of its bits satisfies the SIZE constraints. -/
theorem C97_hexSize_partial (sizes : List XC) (hc : ∀ c ∈ sizes, c.Plain true (.int [])) (l : List Byte) :
    acceptsDefault (.bits (sizes.map .size)) (.octets l) = true ↔ (NTy.bits (sizes.map .size)).Sat (.bits (bytesBits l)) := by
  have hn : (VN.octets l).sizeFor (some .bit) = some (some (8 * l.length)) := rfl
  have ha : Answers (conforms (.bits (sizes.map .size)) [] (.octets l)) ((NTy.bits (sizes.map .size)).Sat (.bits (bytesBits l))) := by
    rw [conforms, NTy.Sat, List.append_nil]
    refine Answers.allB (P := fun c => XC.Sat c (.bits (sizes.map .size)) (.bits (bytesBits l))) fun c hm => ?_
    obtain ⟨d, hd, rfl⟩ := List.mem_map.1 hm
    rw [isAllowed, hn, XC.Sat]
    refine (isAllowed_sat d true (.int []) (.int (8 * l.length : Nat)) (.int (8 * l.length : Nat)) false (some .bit) (hc d hd) (by simp [NTy.Distinct])
      ⟨_, .written (by simp [VN.IsName]), rfl⟩ (by simp [NTy.Direct]) (by simp) (by simp)).congr ?_
    have hz : (AV.bits (bytesBits l)).size = some (8 * l.length) := by rw [AV.size, bytesBits_length]
    constructor
    · exact fun h => ⟨_, hz, h⟩
    · rintro ⟨m, hm, h⟩
      rw [hz] at hm
      cases hm
      exact h
  unfold acceptsDefault
  rw [Bool.and_eq_true, beq_iff_eq]
  exact ⟨fun h => (ha.isTrue).1 h.2, fun h => ⟨rfl, (ha.isTrue).2 h⟩⟩

/-- `BIT STRING (SIZE(9..16)) DEFAULT 'FFFF'H` is accepted, `DEFAULT 'FF'H` is not. -/
example : (∀ c ∈ [XC.range (.int 9) (.int 16) true true], c.Plain true (.int [])) ∧
    acceptsDefault (.bits [.size (.range (.int 9) (.int 16) true true)]) (.octets [255#8, 255#8]) = true ∧
    acceptsDefault (.bits [.size (.range (.int 9) (.int 16) true true)]) (.octets [255#8]) = false :=
  ⟨by simp [XC.Plain, plainBound, NTy.stripped, ← VN.base_iff, VN.base], rfl, rfl⟩

/-- `SEQUENCE { a INTEGER (0..10), b BIT STRING (SIZE(4)) OPTIONAL, c Colour (green), l SEQUENCE (SIZE(1..3)) OF REAL (0.5..<2.5) }` with the constraint
`(WITH COMPONENTS {a (5 | 7), b ABSENT})`. -/
def checkedTy : NTy :=
  .seq (.cons "a" .mandatory (.int [.range (.int 0) (.int 10) true true])
    (.cons "b" .optional (.bits [.size (.single (.int 4))])
    (.cons "c" .mandatory (.ref "M" "Colour" colourTy [.single (.ident "M" "green")])
    (.cons "l" .mandatory (.seqOf (.real [.range (.real 0x3FE0000000000000#64) (.real 0x4004000000000000#64) true false]) [.size (.range (.int 1) (.int 3) true true)])
      .nil))))
    [.components (.cons "a" .noMark (.union (.single (.int 5)) (.single (.int 7))) (.bare "b" .absent .nil))]

/-- `{ a x, c green, l {r} }`. -/
def checkedVal (x : Int) (r : Dbl) : VN :=
  .seq (.cons "a" (.int x) (.cons "c" (.ident "M" "green") (.cons "l" (.seqOf (.cons (.real r) .nil)) .nil)))

theorem checkedTy_plain : checkedTy.Plain := by
  have w : ∀ x : Int, VN.RefersTo (.int x) (.int x) := fun x => .written (by simp [VN.IsName])
  have wr : ∀ x : Dbl, VN.RefersTo (.real x) (.real x) := fun x => .written (by simp [VN.IsName])
  refine ⟨?_, ?_, ?_, ⟨?_, ?_⟩, ⟨?_, ?_⟩, trivial⟩
  · intro c hc
    simp only [List.mem_singleton] at hc
    subst hc
    exact ⟨by simp [XCs.names], ⟨0, _, ⟨.mandatory, rfl⟩, trivial, trivial⟩, by simp [plainMark, NTy.stripped], ⟨1, _, .optional, rfl⟩,
      by simp [plainMark, NTy.stripped], .inl ⟨_, _, rfl⟩⟩
  · intro c hc
    simp only [List.mem_singleton] at hc
    subst hc
    exact ⟨⟨0, w 0⟩, 10, w 10⟩
  · intro c hc
    simp only [List.mem_singleton] at hc
    subst hc
    exact ⟨rfl, trivial⟩
  · intro c hc
    simp at hc
  · intro c hc
    simp only [List.mem_singleton] at hc
    subst hc
    exact ⟨"green", rfl, by simp⟩
  · intro c hc
    simp only [List.mem_singleton] at hc
    subst hc
    exact ⟨trivial, ⟨1, w 1⟩, 3, w 3⟩
  · intro c hc
    simp only [List.mem_singleton] at hc
    subst hc
    exact ⟨⟨_, wr _, by decide⟩, _, wr _, by decide⟩

example : checkedTy.Plain ∧ checkedTy.Distinct ∧ checkedTy.Direct (checkedVal 7 0x3FF0000000000000#64) ∧ (checkedVal 7 0x3FF0000000000000#64).OnceEach ∧
    (checkedVal 7 0x3FF0000000000000#64).BuiltinGovernors := by
  refine ⟨checkedTy_plain, ?_, ?_, ?_, ?_⟩
  · simp [checkedTy, colourTy, NTy.Distinct, NFields.Distinct, NFields.toList]
  · simp [checkedTy, checkedVal, colourTy, NTy.Direct, NFields.Direct, VN.IsName, VNFields.toList, VNs.toList, ← VN.base_iff, VN.base, VN.name]
    decide
  · simp [checkedVal, VN.OnceEach, VNFields.OnceEach, VNs.OnceEach, VNFields.toList]
  · simp [checkedVal, VN.BuiltinGovernors, VNFields.BuiltinGovernors, VNs.BuiltinGovernors]
example : acceptsDefault checkedTy (checkedVal 7 0x3FF0000000000000#64) = true := by decide +kernel
example : acceptsDefault checkedTy (checkedVal 6 0x3FF0000000000000#64) = false := by decide +kernel
example : acceptsDefault checkedTy (checkedVal 7 0x4004000000000000#64) = false := by decide +kernel

/-- The full claim fails: `REAL (1..2) DEFAULT 2.5` is accepted. -/
theorem C97_real_violation : ∃ (t : NTy) (v : VN) (a : AV), acceptsDefault t v = true ∧ t.Denotes v a ∧ ¬ t.Sat a := by
  refine ⟨.real [.range (.int 1) (.int 2) true true], .real 0x4004000000000000#64, .real 0x4004000000000000#64, by decide +kernel,
    .inl ⟨_, .written (by simp [VN.IsName]), rfl⟩, ?_⟩
  intro h
  obtain ⟨_, b, hb, hu⟩ := h _ List.mem_cons_self
  have hb' := complete _ _ _ hb (by simp [NTy.Distinct])
  have e : b = .real (dblOfInt 2) := by cases hb'; rfl
  subst e
  revert hu
  simp only [AV.UpTo]
  decide +kernel

/-- The full claim fails: with `x INTEGER ::= 1`, `y INTEGER ::= 1`, a component of type `INTEGER (x)` with `DEFAULT y` is refused. -/
theorem C97_names_violation : ∃ (t : NTy) (v : VN) (a : AV), acceptsDefault t v = false ∧ t.Denotes v a ∧ t.Sat a := by
  have w : ∀ nm, VN.RefersTo (.ref "M" nm none (.int 1)) (.int 1) := fun nm => .name (.written (by simp [VN.IsName]))
  refine ⟨.int [.single (.ref "M" "x" none (.int 1))], .ref "M" "y" none (.int 1), .int 1, by decide +kernel, ⟨1, w _, rfl⟩, ?_⟩
  intro c hc
  simp only [List.mem_singleton] at hc
  subst hc
  exact ⟨.int 1, ⟨1, w _, rfl⟩, rfl⟩

/-- The full claim fails: with `x INTEGER ::= 1` in one module and `x INTEGER ::= 2` in another, `INTEGER (M.x)` admits the default `N.x`. -/
theorem C97_module_violation : ∃ (t : NTy) (v : VN) (a : AV), acceptsDefault t v = true ∧ t.Denotes v a ∧ ¬ t.Sat a := by
  refine ⟨.int [.single (.ref "M" "x" none (.int 1))], .ref "N" "x" none (.int 2), .int 2, by decide +kernel,
    ⟨2, .name (.written (by simp [VN.IsName])), rfl⟩, ?_⟩
  intro h
  obtain ⟨b, hb, hu⟩ := h _ List.mem_cons_self
  have hb' := complete _ _ _ hb (by simp [NTy.Distinct])
  have e : b = .int 1 := by cases hb'; rfl
  subst e
  simp [AV.Equals] at hu

/-- The full claim fails: `BIT STRING ('1010'B) DEFAULT 'A0'H` is accepted, four bits against eight. -/
theorem C97_padding_violation : ∃ (t : NTy) (v : VN) (a : AV), acceptsDefault t v = true ∧ t.Denotes v a ∧ ¬ t.Sat a := by
  refine ⟨.bits [.single (.bits [true, false, true, false])], hexLiteral [10, 0], .bits [true, false, true, false, false, false, false, false], by decide +kernel,
    .inr ⟨_, .written (by simp [VN.IsName, hexLiteral]), rfl⟩, ?_⟩
  intro h
  obtain ⟨b, hb, hu⟩ := h _ List.mem_cons_self
  have hb' := complete _ _ _ hb (by simp [NTy.Distinct])
  have e : b = .bits [true, false, true, false] := by cases hb'; rfl
  subst e
  simp [AV.Equals] at hu

/-- The full claim fails: with `x SEQUENCE OF INTEGER ::= {100}`, `SEQUENCE OF INTEGER (0..10) DEFAULT x` is accepted: the parts of a value that is referred to are
not looked at. -/
theorem C97_inside_violation : ∃ (t : NTy) (v : VN) (a : AV), acceptsDefault t v = true ∧ t.Denotes v a ∧ ¬ t.Sat a := by
  refine ⟨.seqOf (.int [.range (.int 0) (.int 10) true true]) [], .ref "M" "x" none (.seqOf (.cons (.int 100) .nil)), .seqOf [.int 100], by decide +kernel,
    ⟨_, _, .name (.written (by simp [VN.IsName])), rfl, .cons ⟨100, .written (by simp [VN.IsName]), rfl⟩ .nil⟩, ?_⟩
  rintro ⟨_, l, hl, h⟩
  cases hl
  obtain ⟨_, b, hb, hu⟩ := h _ List.mem_cons_self _ List.mem_cons_self
  have hb' := complete _ _ _ hb (by simp [NTy.Distinct])
  have e : b = .int 10 := by cases hb'; rfl
  subst e
  simp [AV.UpTo] at hu

/-- The full claim fails: `SEQUENCE (WITH COMPONENTS {o (SIZE(1))}) OF` an OCTET STRING `o` refuses the default `{o '00'H}`. -/
theorem C97_innerSize_violation : ∃ (t : NTy) (v : VN) (a : AV), acceptsDefault t v = false ∧ t.Denotes v a ∧ t.Sat a := by
  refine ⟨.seq (.cons "o" .mandatory (.octets []) .nil) [.components (.cons "o" .noMark (.size (.single (.int 1))) .nil)],
    .seq (.cons "o" (.octets [0#8]) .nil), .seq [some (.octets [0#8])], by decide +kernel,
    ⟨_, _, .written (by simp [VN.IsName]), rfl, by simp [VNFields.toList], by simp [VNFields.toList, NFields.toList],
      _, _, rfl, .inl ⟨_, _, List.mem_cons_self, rfl, .inl ⟨_, .written (by simp [VN.IsName]), rfl⟩⟩, rfl⟩, ?_, _, rfl, ?_, trivial⟩
  · intro c hc
    simp only [List.mem_singleton] at hc
    subst hc
    refine ⟨⟨0, _, ⟨.mandatory, rfl⟩, trivial, fun x hx => ?_⟩, trivial⟩
    cases hx
    exact ⟨1, rfl, .int 1, ⟨1, .written (by simp [VN.IsName]), rfl⟩, rfl⟩
  · intro y hy c hc
    simp at hc

/-- The full claim fails: `(WITH COMPONENTS {x (0..10) OPTIONAL})` refuses a default without `x`. -/
theorem C97_optional_violation : ∃ (t : NTy) (v : VN) (a : AV), acceptsDefault t v = false ∧ t.Denotes v a ∧ t.Sat a := by
  refine ⟨.seq (.cons "x" .optional (.int []) .nil) [.components (.cons "x" .optional (.range (.int 0) (.int 10) true true) .nil)],
    .seq .nil, .seq [none], by decide +kernel,
    ⟨_, _, .written (by simp [VN.IsName]), rfl, by simp [VNFields.toList], by simp [VNFields.toList],
      _, _, rfl, .inr ⟨by simp [VNFields.toList], trivial, rfl⟩, rfl⟩, ?_, _, rfl, ?_, trivial⟩
  · intro c hc
    simp only [List.mem_singleton] at hc
    subst hc
    exact ⟨⟨0, _, ⟨.optional, rfl⟩, trivial, fun x hx => by cases hx⟩, trivial⟩
  · intro y hy
    cases hy

/-- The full claim fails: a CHOICE with `(WITH COMPONENTS {a PRESENT})` accepts the default `b : 1`. -/
theorem C97_present_violation : ∃ (t : NTy) (v : VN) (a : AV), acceptsDefault t v = true ∧ t.Denotes v a ∧ ¬ t.Sat a := by
  refine ⟨.choice (.cons "a" (.int []) (.cons "b" (.int []) .nil)) [.components (.bare "a" .present .nil)], .choice "b" (.int 1), .choice 1 (.int 1),
    by decide +kernel, ⟨_, _, _, _, .written (by simp [VN.IsName]), rfl, .inr ⟨0, rfl, .inl ⟨rfl, rfl, 1, .written (by simp [VN.IsName]), rfl⟩⟩⟩, ?_⟩
  rintro ⟨h, _⟩
  obtain ⟨⟨i, u, hp, hm⟩, _⟩ := h _ List.mem_cons_self
  have hi := (NTy.isPart_unique (t := .choice (.cons "a" (.int []) (.cons "b" (.int []) .nil)) [.components (.bare "a" .present .nil)]) (nm := "a") (i := 0)
    (u := .int []) (by simp [NTy.Distinct, NAlts.Distinct, NAlts.toList]) rfl hp).1
  subst hi
  simp [AV.part, Mark.Sat] at hm

/-- The full claim fails: `IA5String (FROM("ab" | "x".."z")) DEFAULT "a"` is refused. -/
theorem C97_alphabet_violation : ∃ (t : NTy) (v : VN) (a : AV), acceptsDefault t v = false ∧ t.Denotes v a ∧ t.Sat a := by
  refine ⟨.str [.alphabet (.union (.single (.str [97#8, 98#8])) (.range (.str [120#8]) (.str [122#8]) true true))], .str [97#8], .str [97#8], by decide +kernel,
    ⟨_, .written (by simp [VN.IsName]), rfl⟩, ?_⟩
  intro c hc
  simp only [List.mem_singleton] at hc
  subst hc
  refine ⟨_, rfl, fun ch hch => .inl ⟨_, .written (by simp [VN.IsName]), ?_⟩⟩
  simp only [List.mem_singleton] at hch
  subst hch
  exact List.mem_cons_self

/-- The full claim fails: `OBJECT IDENTIFIER ({1 2}) DEFAULT {1 2}` is refused. -/
theorem C97_oid_violation : ∃ (t : NTy) (v : VN) (a : AV), acceptsDefault t v = false ∧ t.Denotes v a ∧ t.Sat a := by
  refine ⟨.oid [.single (.oid [1#64, 2#64])], .oid [1#64, 2#64], .oid [1#64, 2#64], by decide +kernel, ⟨_, .written (by simp [VN.IsName]), rfl⟩, ?_⟩
  intro c hc
  simp only [List.mem_singleton] at hc
  subst hc
  exact ⟨_, ⟨_, .written (by simp [VN.IsName]), rfl⟩, rfl⟩

/-- The full claim fails: `OCTET STRING (SIZE(1)) DEFAULT '1010'B` is refused, although four bits make one octet. -/
theorem C97_bitsForOctets_violation : ∃ (t : NTy) (v : VN) (a : AV), acceptsDefault t v = false ∧ t.Denotes v a ∧ t.Sat a := by
  refine ⟨.octets [.size (.single (.int 1))], .bits [true, false, true, false], .octets [0xA0#8], by decide +kernel,
    .inr ⟨_, _, .written (by simp [VN.IsName]), ?_, rfl⟩, ?_⟩
  · exact packed_packBits [true, false, true, false]
  · intro c hc
    simp only [List.mem_singleton] at hc
    subst hc
    exact ⟨1, rfl, .int 1, ⟨1, .written (by simp [VN.IsName]), rfl⟩, rfl⟩

end Asn1
