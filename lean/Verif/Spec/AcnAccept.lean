import Verif.Spec.AcnGen
import Verif.Model.AcnAccept
/-!
# Specification: accepted encodings

Of `Verif.Model.AcnAccept` only the declarations of items and properties are used.
-/
namespace Asn1

/-- `x` fits the C type of the class `c` and is not the least 64 bit number (which the runtime cannot negate). -/
def InClass (c : IntClass) (x : Int) : Prop := c.min ≤ x ∧ x ≤ c.max ∧ x ≠ -(2 ^ 63)

/-- What the compiler does not check and a user has to: for the uPER encoding that the range fits the runtime (C10, C11, C48);
`-10^(n-1)` has one digit more than there is room for behind the sign; BCD digits have no sign; a terminator must be there and
must not begin with a digit. -/
def Unchecked (w : Nat) (r : Rng) (enc : IntEnc) (x : Int) : Prop :=
  match enc with
  | .uper => r.ok w false ∧ r.holds64 false x
  | .ascii n => x ≠ -(10 ^ (n - 1))
  | .bcdNull => 0 ≤ x
  | .asciiNull nul => ∃ c t, nul = c :: t ∧ (c.toNat < 48 ∨ 57 < c.toNat)
  | _ => True

/-- The encoding `enc` of the numbers of `r` is the one that is asked for: `pos-int` is for ranges without negative numbers,
`twos-complement` for the others; `size n` means `n` bits (octets of ASCII, half octets of BCD); two, four or eight octets are in
the order of the property `endianness`, most significant octet first if it is not given; the terminator has the bits of
`termination-pattern` and is a zero octet if it is not given. -/
def AsWritten (t : AcnIntText) (r : Rng) (enc : IntEnc) : Prop :=
  match t.encoding, t.size with
  | none, none => t.little = none ∧ enc = .uper
  | some .posInt, some (.fixed n) => r.unsigned = true ∧ Binary n
  | some .twosComplement, some (.fixed n) => r.unsigned = false ∧ Binary n
  | some .ascii, some (.fixed n) => ∃ k, n = 8 * k ∧ enc = .ascii k
  | some .bcd, some (.fixed n) => ∃ k, n = 4 * k ∧ enc = .bcd k
  | some .bcd, some (.nullTerminated _) => enc = .bcdNull
  | some .ascii, some (.nullTerminated none) => enc = .asciiNull [0#8]
  | some .ascii, some (.nullTerminated (some bits)) => ∃ nul, bytesBits nul = bits ∧ enc = .asciiNull nul
  | _, _ => False
where
  /-- `n` bits of binary digits. -/
  Binary (n : Nat) : Prop :=
    (n = 8 ∧ enc = .const8) ∨ (∃ k, n = 8 * k ∧ enc = .little k ∧ t.little = some true) ∨
    (∃ k, n = 8 * k ∧ enc = .big k ∧ t.little ≠ some true) ∨ (n ≤ 64 ∧ enc = .const n ∧ t.little ≠ some true)

/-- X.680 20.3: the numbers of the items of an ENUMERATED, in the order of the items. An item with a number has this number. An
item without one has the least non-negative number that is neither the number of an item with a number nor that of an earlier
item without a number. -/
structure EnumNumbers (items : List EnumDecl) (numbers : List Int) : Prop where
  length : numbers.length = items.length
  given : ∀ (i : Nat) (h : i < items.length) (v : Int), items[i].value = some v → numbers[i]'(by omega) = v
  fresh : ∀ (i : Nat) (h : i < items.length), items[i].value = none → 0 ≤ numbers[i]'(by omega) ∧
    (∀ it ∈ items, it.value ≠ some (numbers[i]'(by omega))) ∧
    (∀ (j : Nat) (hj : j < i), items[j].value = none → numbers[j]'(by omega) ≠ numbers[i]'(by omega)) ∧
    ∀ k, 0 ≤ k → k < numbers[i]'(by omega) → (∃ it ∈ items, it.value = some k) ∨
      ∃ (j : Nat) (hj : j < i), items[j].value = none ∧ numbers[j]'(by omega) = k

/-- The number that is encoded for the item at position `i`, whose own number is `n`: the position; with `encode-values` the
number in the ACN specification if there is one, else the number of the item. -/
def EncodedNumber (encodeValues : Bool) (it : EnumDecl) (i : Nat) (n : Int) : Int :=
  if encodeValues then it.set.getD n else i

end Asn1
