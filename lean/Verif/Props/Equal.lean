import Verif.Proof.EqualSame
import Verif.Props.Real
/-!
# C79: the generated functions `<type>_Equal`
-/
namespace Asn1

/-- C79 (part): for a type in which REAL does not occur, `_Equal` applied to two objects that denote values ends without
touching anything outside the objects and returns TRUE exactly when they denote the same value: array elements behind the
count, unused bits, characters behind the terminating zero and the content of absent components do not matter.
Missing: REAL (see `C79_withReal` and `C79_real_violation`) and the default values of absent components (see
`C79_default_violation`). -/
theorem C79_equal_partial (t : CTy) (hr : t.noReal = true) (a b : CVal) (x y : AV) (ha : meaning t a = some x)
    (hb : meaning t b = some y) (s : BitStream) :
    ∃ r, cEqual t a b s = .ok (r, s) ∧ (r = true ↔ x = y) := by
  obtain ⟨r, h, hS⟩ := cEqual_spec t a b x y ha hb
  refine ⟨r, by rw [h]; rfl, hS.trans ⟨fun h => sameBy_eq_of t x y (sameBy_noReal t x y hr h), ?_⟩⟩
  rintro rfl
  exact sameBy_noReal t x x hr (sameBy_refl (R := (· = ·)) (fun _ => rfl) t a x ha)

/-- A SEQUENCE with a variable size OCTET STRING, an OPTIONAL BIT STRING, a CHOICE and a SEQUENCE OF strings. -/
def exEqTy : CTy := .seq (.cons .mandatory (.octets 0 4 []) (.cons .optional (.bits 0 11 [])
  (.cons .mandatory (.choice (.cons (.int ⟨true, 0, 255⟩ []) (.cons (.bool []) .nil)) [])
  (.cons .mandatory (.seqOf 1 2 (.str 0 3 [] []) []) .nil)))) []

/-- An object of this type; `g` stands for everything that does not belong to the value. -/
def exEqVal (g : Byte) (present : Bool) (b1 : Byte) : CVal :=
  .seq [(g = 0#8, .octets 2 [1#8, 2#8, g, g]), (present, .bits 11 [0xAB#8, b1]), (true, .choice 2 (.bool true)),
    (true, .seqOf 1 [.str [65#8, 0#8, g, g], .str [g, g, g, g]])]

example : exEqTy.noReal = true ∧ (meaning exEqTy (exEqVal 0xFF#8 true 0xE0#8)).isSome = true ∧
    (meaning exEqTy (exEqVal 7#8 true 0xFF#8)).isSome = true ∧
    cEqual exEqTy (exEqVal 0xFF#8 true 0xE0#8) (exEqVal 7#8 true 0xFF#8) ⟨[], 0, 0, 0⟩ = .ok (true, ⟨[], 0, 0, 0⟩) ∧
    cEqual exEqTy (exEqVal 0xFF#8 true 0xE0#8) (exEqVal 0xFF#8 false 0xE0#8) ⟨[], 0, 0, 0⟩ = .ok (false, ⟨[], 0, 0, 0⟩) ∧
    cEqual exEqTy (exEqVal 0xFF#8 true 0xE0#8) (exEqVal 0xFF#8 true 0xC0#8) ⟨[], 0, 0, 0⟩ = .ok (false, ⟨[], 0, 0, 0⟩) := by
  decide +kernel

/-- C79: the result depends on the values only: objects that denote the same values give the same result, for every
type. -/
theorem C79_valuesOnly (t : CTy) (a a' b b' : CVal) (x y : AV) (ha : meaning t a = some x) (ha' : meaning t a' = some x)
    (hb : meaning t b = some y) (hb' : meaning t b' = some y) (s : BitStream) :
    cEqual t a b s = cEqual t a' b' s := by
  obtain ⟨r, h, hS⟩ := cEqual_spec t a b x y ha hb
  obtain ⟨r', h', hS'⟩ := cEqual_spec t a' b' x y ha' hb'
  have : r = r' := Bool.eq_iff_iff.2 (hS.trans hS'.symm)
  rw [h, h', this]

/-- C79: with REAL: the result is TRUE exactly when the values are the same, real numbers compared by
`Asn1Real_Equal` (C59). -/
theorem C79_withReal (t : CTy) (a b : CVal) (x y : AV) (ha : meaning t a = some x)
    (hb : meaning t b = some y) (s : BitStream) :
    ∃ r, cEqual t a b s = .ok (r, s) ∧ (r = true ↔ SameBy (fun a b => asn1RealEqual a b = true) t x y) := by
  obtain ⟨r, h, hS⟩ := cEqual_spec t a b x y ha hb
  exact ⟨r, by rw [h]; rfl, hS⟩

/-- C79: values that are the same and contain no NaN are equal. -/
theorem C79_same (t : CTy) (a b : CVal) (x y : AV) (ha : meaning t a = some x) (hb : meaning t b = some y)
    (hs : SameBy (fun a b => a = b ∧ (IsFinite a ∨ a.toNat % 2 ^ 52 = 0)) t x y) (s : BitStream) :
    cEqual t a b s = .ok (true, s) := by
  obtain ⟨r, h, hS⟩ := cEqual_spec t a b x y ha hb
  have : r = true := hS.2 (sameBy_mono (fun a b hab => by
    obtain ⟨rfl, hn⟩ := hab
    exact C59_reflexive a hn) t x y hs)
  rw [h, this]; rfl

example : ∃ t a b x y, meaning t a = some x ∧ meaning t b = some y ∧
    SameBy (fun a b => a = b ∧ (IsFinite a ∨ a.toNat % 2 ^ 52 = 0)) t x y ∧ t.noReal = false :=
  ⟨.seqOf 0 2 (.real []) [], .seqOf 1 [.real 0x3FF0000000000000#64, .real 0#64],
    .seqOf 1 [.real 0x3FF0000000000000#64, .real 1#64], .seqOf [.real 0x3FF0000000000000#64],
    .seqOf [.real 0x3FF0000000000000#64], rfl, rfl, by simp only [SameBy]; exact List.Forall₂.cons ⟨rfl, .inl (by unfold IsFinite; decide)⟩ .nil,
    rfl⟩

/-- C79, violation: different real numbers count as equal: 1.0 and the next double. -/
theorem C79_real_violation : ∃ t a b x y, meaning t a = some x ∧ meaning t b = some y ∧ x ≠ y ∧
    ∀ s, cEqual t a b s = .ok (true, s) :=
  ⟨.real [], .real 0x3FF0000000000000#64, .real 0x3FF0000000000001#64, _, _, rfl, rfl, by simp, fun s => by
    rw [cEqual]
    have : asn1RealEqual 0x3FF0000000000000#64 0x3FF0000000000001#64 = true := by decide +kernel
    rw [this]; rfl⟩

/-- C79, violation: `SEQUENCE { a INTEGER DEFAULT 5 }`: an object without `a` and an object with `a` = 5 denote the same
value in ASN.1, but `_Equal` returns FALSE. -/
theorem C79_default_violation : ∃ t a b x y, meaning t a = some x ∧ meaning t b = some y ∧ fill t x = fill t y ∧
    ∀ s, cEqual t a b s = .ok (false, s) :=
  ⟨.seq (.cons (.default (.int 5)) (.int ⟨true, 0, 255⟩ []) .nil) [], .seq [(false, .int 5)], .seq [(true, .int 5)], _, _,
    rfl, rfl, by simp [fill, fillFields], fun s => rfl⟩

/-- C79: objects without an alternative are never equal: `kind` = `…_NONE` is different from itself. -/
theorem C79_none (alts : CAlts) (cons : List AC) (u w : CVal) (k : Int) (hk : k ≤ 0) (s : BitStream) :
    cEqual (.choice alts cons) (.choice k u) (.choice k w) s = .ok (false, s) := by
  rw [cEqual, if_pos rfl, if_neg (by omega)]; rfl

end Asn1
