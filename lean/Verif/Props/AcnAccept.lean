import Verif.Proof.AcnAcceptEnum
import Verif.Proof.RoundTrip
/-!
# Theorems: what the compiler accepts can be encoded
-/
namespace Asn1

/-! ## C86: INTEGER -/

/-- C86, full statement: with every combination of ACN properties that the compiler accepts for an INTEGER, all values of the
type that its C type can hold are encoded and decoded back; and no combination is rejected that would do this. -/
def C86_full : Prop :=
  (∀ slim t r enc, acceptInt slim t r = some enc → ∀ w, (w = 8 ∨ w = 16 ∨ w = 32 ∨ w = 64) →
    (intClassOf slim r = if r.unsigned then uClass w else sClass w) →
    ∀ x, r.contains x → InClass (intClassOf slim r) x →
      RoundTrip (encAInt r enc x) () (decAInt w r enc) x (aintCode r enc x).length) ∧
  (∀ slim t a b p enc, a ≤ b → intProps t = some p → intEncodingClass p (decide (a ≥ 0)) = some enc →
    enc.holds (.concrete a b) a → enc.holds (.concrete a b) b → acceptInt slim t (.concrete a b) = some enc)

/-- C86: accepted properties encode all values without loss, up to what `Unchecked` lists. -/
theorem C86_accepted_partial (slim : Bool) (t : AcnIntText) (r : Rng) (enc : IntEnc) (h : acceptInt slim t r = some enc) (w : Nat)
    (hw : w = 8 ∨ w = 16 ∨ w = 32 ∨ w = 64) (hcl : intClassOf slim r = if r.unsigned then uClass w else sClass w) (x : Int)
    (hx : r.contains x) (hc : InClass (intClassOf slim r) x) (hu : Unchecked w r enc x) :
    RoundTrip (encAInt r enc x) () (decAInt w r enc) x (aintCode r enc x).length := by
  have hf := acceptInt_fits h hw hcl hx hc hu
  exact roundTrip_of (encAInt_appends hf) (decAInt_reads hf).1

/-- Every range has such a width. -/
theorem C86_width (slim : Bool) (r : Rng) :
    ∃ w, (w = 8 ∨ w = 16 ∨ w = 32 ∨ w = 64) ∧ intClassOf slim r = if r.unsigned then uClass w else sClass w :=
  intClassOf_width slim r

/-- C86: the encoding is the one that the properties ask for. -/
theorem C86_as_written (slim : Bool) (t : AcnIntText) (r : Rng) (enc : IntEnc) (h : acceptInt slim t r = some enc) :
    AsWritten t r enc := acceptInt_asWritten h

example : acceptInt true ⟨some .posInt, some (.fixed 32), some true⟩ (.concrete 0 1000) = some (.little 4) := by decide +kernel

/-- C86: a combination that names an encoding and is rejected for lack of space lacks it: a bound of the range does not fit.
Missing: ASCII encodings of ranges without negative numbers. -/
theorem C86_rejected_partial (slim : Bool) (t : AcnIntText) (a b : Int) (p : AcnIntProps) (enc : IntEnc)
    (hp : intProps t = some p) (he : intEncodingClass p (decide (a ≥ 0)) = some enc) (hna : ¬ (a ≥ 0 ∧ ∃ n, enc = .ascii n))
    (ha : enc.holds (.concrete a b) a) (hb : enc.holds (.concrete a b) b) : acceptInt slim t (.concrete a b) = some enc := by
  have e : acceptInt slim t (.concrete a b) = acceptRange t (decide (a ≥ 0)) a b := by
    unfold acceptInt
    rw [intClassOf_positive]
    rfl
  rw [e]
  unfold acceptRange
  rw [hp, Option.bind_some, he]
  dsimp only
  cases hc : checkSpace (decide (a ≥ 0)) enc a b with
  | true => rfl
  | false =>
    have := checkSpace_rejects (r := .concrete a b) hc (fun h => of_decide_eq_true h) (fun h => hna ⟨of_decide_eq_true h.1, h.2⟩)
    rcases this with h | h
    · exact absurd ha h
    · exact absurd hb h

/-- 12 bits of two's complement; an ASCII number with a terminator of two octets. -/
example : acceptInt true ⟨some .twosComplement, some (.fixed 12), none⟩ (.concrete (-1000) 1000) = some (.const 12) := by decide +kernel
example : acceptInt false ⟨some .ascii, some (.nullTerminated (some (List.replicate 16 true))), none⟩ (.negInf 5)
    = some (.asciiNull [255#8, 255#8]) := by decide +kernel
example : Unchecked 16 (.concrete (-1000) 1000) (.const 12) (-7) := trivial
example : Unchecked 64 (.negInf 5) (.asciiNull [255#8, 255#8]) (-7) := ⟨255#8, [255#8], rfl, .inr (by decide)⟩
example : intClassOf true (.concrete (-1000) 1000) = if (Rng.concrete (-1000) 1000).unsigned then uClass 16 else sClass 16 := by decide +kernel
/-- One value too many for 11 bits; little endian needs 16, 32 or 64 bits; a size without encoding. -/
example : acceptInt true ⟨some .twosComplement, some (.fixed 11), none⟩ (.concrete (-1000) 1024) = none := by decide +kernel
example : acceptInt true ⟨some .posInt, some (.fixed 24), some true⟩ (.concrete 0 1000) = none := by decide +kernel
example : acceptInt true ⟨none, some (.fixed 24), none⟩ (.concrete 0 1000) = none := by decide +kernel

/-- C86 violation: `INTEGER (-100..99)` in three ASCII characters is accepted, and the assertion in the encoder fails for -100. -/
theorem C86_ascii_violation :
    acceptInt false ⟨some .ascii, some (.fixed 24), none⟩ (.concrete (-100) 99) = some (.ascii 3) ∧
    encAInt (.concrete (-100) 99) (.ascii 3) (-100) ⟨[0#8, 0#8, 0#8, 0#8], 4, 0, 0⟩ = .abort :=
  ⟨by decide +kernel, by decide +kernel⟩

/-- C86 violation: BCD digits with a terminator are accepted for negative numbers. -1 becomes the 20 digits of 2^64 - 1, and the
encoder writes outside a buffer of the size that the compiler announces. -/
theorem C86_bcd_violation :
    acceptInt false ⟨some .bcd, some (.nullTerminated none), none⟩ (.concrete (-100) 99) = some .bcdNull ∧
    aintMax (.concrete (-100) 99) .bcdNull = 8 * 10 ∧
    encAInt (.concrete (-100) 99) .bcdNull (-1) ⟨List.replicate 10 0#8, 10, 0, 0⟩ = .ub :=
  ⟨by decide +kernel, by decide +kernel, by decide +kernel⟩

/-- C86 violation: a terminator that is a digit is accepted, and 10 is received as 1. -/
theorem C86_terminator_violation :
    let zero : List Bool := [false, false, true, true, false, false, false, false]
    acceptInt false ⟨some .ascii, some (.nullTerminated (some zero)), none⟩ (.concrete 0 99) = some (.asciiNull [48#8]) ∧
    ∃ s s', encAInt (.concrete 0 99) (.asciiNull [48#8]) 10 ⟨[0#8, 0#8, 0#8, 0#8], 4, 0, 0⟩ = .ok ((), s) ∧
      decAInt 64 (.concrete 0 99) (.asciiNull [48#8]) ⟨s.buf, 4, 0, 0⟩ = .ok ((true, 1), s') :=
  ⟨by decide +kernel, ⟨[49#8, 48#8, 48#8, 0#8], 4, 3, 0⟩, ⟨[49#8, 48#8, 48#8, 0#8], 4, 2, 0⟩, by decide +kernel, by decide +kernel⟩

/-- C86 violation: an empty terminator is accepted, and 10 is received as 0. -/
theorem C86_noTerminator_violation :
    acceptInt false ⟨some .ascii, some (.nullTerminated (some [])), none⟩ (.concrete 0 99) = some (.asciiNull []) ∧
    ∃ s s', encAInt (.concrete 0 99) (.asciiNull []) 10 ⟨[0#8, 0#8, 0#8, 0#8], 4, 0, 0⟩ = .ok ((), s) ∧
      decAInt 64 (.concrete 0 99) (.asciiNull []) ⟨s.buf, 4, 0, 0⟩ = .ok ((true, 0), s') :=
  ⟨by decide +kernel, ⟨[49#8, 48#8, 0#8, 0#8], 4, 2, 0⟩, ⟨[49#8, 48#8, 0#8, 0#8], 4, 0, 0⟩, by decide +kernel, by decide +kernel⟩

/-- C86 violation: `INTEGER (0..99)` in two ASCII digits is rejected although all its values fit. -/
theorem C86_rejected_violation :
    acceptInt false ⟨some .ascii, some (.fixed 16), none⟩ (.concrete 0 99) = none ∧
    ∀ x, Rng.contains (.concrete 0 99) x → RoundTrip (encAInt (.concrete 0 99) (.ascii 2) x) () (decAInt 64 (.concrete 0 99) (.ascii 2)) x 16 := by
  refine ⟨by decide +kernel, fun x hx => ?_⟩
  obtain ⟨h0, h1⟩ := hx
  have hf : AIntFits 64 (.concrete 0 99) (.ascii 2) x := by
    refine ⟨⟨by simp, ?_⟩, ?_⟩
    · show 0 ≤ x ∧ x < 2 ^ 64
      omega
    · show 2 ≤ 100 ∧ x < 10 ^ 2
      omega
  have e : (aintCode (.concrete 0 99) (.ascii 2) x).length = 16 := by
    show (bytesBits (digitChars 2 x.toNat)).length = 16
    rw [bytesBits_length, digitChars_length]
  rw [← e]
  exact roundTrip_of (encAInt_appends hf) (decAInt_reads hf).1

/-! ## C87: ENUMERATED -/

/-- C87: the items of an ENUMERATED get the numbers that X.680 asks for, all different, and the number that is encoded for an
item is the declared one. (The compiler checks that names and given numbers are different: FrontEndAst/CheckAsn1.fs:551, 565.) -/
theorem C87_numbers (ev : Bool) (items : List EnumDecl) (hn : (items.map EnumDecl.name).Nodup)
    (hv : (items.filterMap EnumDecl.value).Nodup) :
    ∃ numbers, EnumNumbers items numbers ∧ numbers.Nodup ∧ (encodedItems ev items).length = items.length ∧
      ∀ (i : Nat) (hi : i < items.length) (h : i < (encodedItems ev items).length) (h' : i < numbers.length),
        (encodedItems ev items)[i] = (numbers[i], EncodedNumber ev items[i] i numbers[i]) :=
  ⟨itemNumbers items, enumNumbers_of hn hv, itemNumbers_nodup hv, encodedItems_length hn ev,
    fun _ hi h h' => encodedItems_snd hn ev hi h h'⟩

/-- There is only one way to number the items. -/
theorem C87_unique (items : List EnumDecl) (a b : List Int) (ha : EnumNumbers items a) (hb : EnumNumbers items b) : a = b :=
  enumNumbers_unique ha hb

/-- C87: encoded numbers differ if the ACN specification does not give numbers to items. -/
theorem C87_distinct (ev : Bool) (items : List EnumDecl) (hn : (items.map EnumDecl.name).Nodup)
    (hv : (items.filterMap EnumDecl.value).Nodup) (hs : ev = true → ∀ it ∈ items, it.set = none) :
    ((encodedItems ev items).map Prod.snd).Nodup := encodedItems_nodup hn hv hs

/-- C87, full statement: with every combination of ACN properties that the compiler accepts for an ENUMERATED, every item is
encoded and decoded back. -/
def C87_full : Prop :=
  ∀ t ev items its enc, acceptEnum t ev items = some (its, enc) → (items.map EnumDecl.name).Nodup →
    (items.filterMap EnumDecl.value).Nodup → ∀ x y, (x, y) ∈ its →
    InClass (if (enumRng its).unsigned then uClass 64 else sClass 64) y → ∀ valid,
    RoundTrip (encLeaf (.enum its valid enc) x) true (decLeaf (.enum its valid enc)) x (leafCode (.enum its valid enc) x).length

/-- C87: accepted properties encode all items without loss, if the encoded numbers differ, none is negative in the uPER
encoding, and up to what `Unchecked` lists. -/
theorem C87_accepted_partial (t : AcnIntText) (ev : Bool) (items : List EnumDecl) (its : List (Int × Int)) (enc : IntEnc)
    (h : acceptEnum t ev items = some (its, enc)) (hv : (items.filterMap EnumDecl.value).Nodup) (hd : (its.map Prod.snd).Nodup)
    (x y : Int) (hxy : (x, y) ∈ its) (hc : InClass (if (enumRng its).unsigned then uClass 64 else sClass 64) y)
    (hup : enc = .uper → (enumRng its).unsigned = true) (hu : Unchecked 64 (enumRng its) enc y) (valid : List Int) :
    RoundTrip (encLeaf (.enum its valid enc) x) true (decLeaf (.enum its valid enc)) x (leafCode (.enum its valid enc) x).length := by
  have hf := acceptEnum_fits h hv hd hxy hc hup hu (valid := valid)
  exact roundTrip_of (encLeaf_appends hf) (decLeaf_reads hf).1

/-- Items with and without numbers. -/
def exEnum : List EnumDecl := [⟨"red", none, none⟩, ⟨"green", some 0, some 300⟩, ⟨"blue", none, none⟩, ⟨"black", some 2, none⟩, ⟨"white", none, none⟩]

example : (exEnum.map EnumDecl.name).Nodup ∧ (exEnum.filterMap EnumDecl.value).Nodup := by decide
example : encodedItems false exEnum = [(1, 0), (0, 1), (3, 2), (2, 3), (4, 4)] := by
  simp [encodedItems, definitionItems, exEnum, allocateItems, freshValue, itemIndex, List.idxOf, List.findIdx, List.findIdx.go, List.mergeSort, List.MergeSort.Internal.splitInTwo]

theorem exEnum_items : encodedItems true exEnum = [(1, 1), (0, 300), (3, 3), (2, 2), (4, 4)] := by
  simp [encodedItems, definitionItems, exEnum, allocateItems, freshValue, itemIndex, List.idxOf, List.findIdx, List.findIdx.go, List.mergeSort, List.MergeSort.Internal.splitInTwo]

example : acceptEnum ⟨some .posInt, some (.fixed 9), none⟩ true exEnum = some ([(1, 1), (0, 300), (3, 3), (2, 2), (4, 4)], .const 9) := by
  simp only [acceptEnum, exEnum_items]; decide +kernel
example : acceptEnum ⟨some .posInt, some (.fixed 8), none⟩ true exEnum = none := by
  simp only [acceptEnum, exEnum_items]; decide +kernel
example : InClass (if (enumRng [(1, 1), (0, 300), (3, 3), (2, 2), (4, 4)]).unsigned then uClass 64 else sClass 64) 300 := by
  refine ⟨by decide +kernel, by decide +kernel, by decide⟩

/-- Two items that the ACN specification gives the same number. -/
def exTwice : List EnumDecl := [⟨"a", none, some 5⟩, ⟨"b", none, some 5⟩]

theorem exTwice_items : encodedItems true exTwice = [(0, 5), (1, 5)] := by
  simp [encodedItems, definitionItems, exTwice, allocateItems, freshValue, itemIndex, List.idxOf, List.findIdx, List.findIdx.go, List.mergeSort, List.MergeSort.Internal.splitInTwo]

/-- C87 violation: two items may be given the same number, and the second is received as the first. -/
theorem C87_twice_violation :
    acceptEnum ⟨some .posInt, some (.fixed 8), none⟩ true exTwice = some ([(0, 5), (1, 5)], .const8) ∧
    ∃ s s', encLeaf (.enum [(0, 5), (1, 5)] [0, 1] .const8) 1 ⟨[0#8], 1, 0, 0⟩ = .ok (true, s) ∧
      decLeaf (.enum [(0, 5), (1, 5)] [0, 1] .const8) ⟨s.buf, 1, 0, 0⟩ = .ok ((true, 0), s') :=
  ⟨by simp only [acceptEnum, exTwice_items]; decide +kernel, ⟨[5#8], 1, 1, 0⟩, ⟨[5#8], 1, 1, 0⟩, by decide +kernel, by decide +kernel⟩

/-- An item with a negative number. -/
def exNegative : List EnumDecl := [⟨"a", some (-1), none⟩, ⟨"b", some 1, none⟩]

theorem exNegative_items : encodedItems true exNegative = [(-1, -1), (1, 1)] := by
  simp [encodedItems, definitionItems, exNegative, allocateItems, itemIndex, List.idxOf, List.findIdx, List.findIdx.go, List.mergeSort, List.MergeSort.Internal.splitInTwo]

/-- C87 violation: `[encode-values]` without further properties is accepted for negative numbers, and the assertion in the encoder
fails: the bounds are taken for unsigned numbers. -/
theorem C87_negative_violation :
    acceptEnum ⟨none, none, none⟩ true exNegative = some ([(-1, -1), (1, 1)], .uper) ∧
    encLeaf (.enum [(-1, -1), (1, 1)] [-1, 1] .uper) 1 ⟨[0#8], 1, 0, 0⟩ = .abort :=
  ⟨by simp only [acceptEnum, exNegative_items]; decide +kernel, by decide +kernel⟩

end Asn1
