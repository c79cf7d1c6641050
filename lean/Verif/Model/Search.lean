import Verif.Model.Oid
/-!
# Search and comparison helpers: asn1crt/asn1crt.c:49-93, asn1crt/asn1crt_encoding.c:19-22 and 53-59

These functions do not use a bit stream; they are modelled in the same monad, which leaves its state alone.
-/
namespace Asn1

/-- `arr[i]` with a signed index: undefined for negative indices and past the end. -/
def arrGetI (arr : List Int) (i : Int) : M Int :=
  if 0 ≤ i then tblGet arr i.toNat else mUb

/-- The `while` loop of `binarySearch`, asn1crt/asn1crt.c:75-83, with a step budget; running out of it counts as
undefined (a loop that does not end). -/
def binarySearchLoop (arr : List Int) (value : Int) : (fuel : Nat) → (low high : Int) → M Int
  | 0, _, _ => mUb
  | fuel + 1, low, high =>
    if low ≤ high then do
      let mid := low + (high - low).tdiv 2
      let x ← arrGetI arr mid
      if x = value then pure mid
      else if x < value then binarySearchLoop arr value fuel (mid + 1) high
      else binarySearchLoop arr value fuel low (mid - 1)
    else pure (-1)

/-- `binarySearch`, asn1crt/asn1crt.c:72-85. -/
def binarySearch (arr : List Int) (size : Nat) (value : Int) : M Int :=
  binarySearchLoop arr value (size + 1) 0 ((size : Int) - 1)

/-- The `for` loop of `linearSearch`, asn1crt/asn1crt.c:88-91: `n` elements left from index `i`. -/
def linearSearchLoop (arr : List Int) (value : Int) : (n i : Nat) → M Int
  | 0, _ => pure (-1)
  | n + 1, i => do
    let x ← tblGet arr i
    if x = value then pure (i : Int) else linearSearchLoop arr value n (i + 1)

/-- `linearSearch`, asn1crt/asn1crt.c:87-93. -/
def linearSearch (arr : List Int) (size : Nat) (value : Int) : M Int := linearSearchLoop arr value size 0

/-- The `for` loop of `GetCharIndex`, asn1crt/asn1crt.c:52-54: `n` elements left from index `i`. -/
def getCharIndexLoop (ch : Byte) (set : List Byte) : (n i : Nat) → M Nat
  | 0, _ => pure 0
  | n + 1, i => do
    let x ← tblGet set i
    if ch = x then pure i else getCharIndexLoop ch set n (i + 1)

/-- `GetCharIndex`, asn1crt/asn1crt.c:49-56. Simplification: `char` and `byte` are compared as 8-bit values, which is
what C does for the characters 0..127 that occur in ASN.1 strings. -/
def getCharIndex (ch : Byte) (set : List Byte) (setLen : Nat) : M Nat := getCharIndexLoop ch set setLen 0

/-- `memcmp(a, b, n) == 0` of the C library: undefined unless both objects have `n` bytes. -/
def memEq (a b : List Byte) (n : Nat) : M Bool :=
  if n ≤ a.length ∧ n ≤ b.length then pure (decide (a.take n = b.take n)) else mUb

/-- `OctetString_equal`, asn1crt/asn1crt_encoding.c:19-22. -/
def octetStringEqual (len1 len2 : Nat) (arr1 arr2 : List Byte) : M Bool :=
  if len1 = len2 then memEq arr1 arr2 len1 else pure false

/-- `BitString_equal`, asn1crt/asn1crt_encoding.c:53-59. -/
def bitStringEqual (n1 n2 : Nat) (arr1 arr2 : List Byte) : M Bool :=
  if n1 = n2 then do
    let whole ← (if n1 / 8 = 0 then pure true else memEq arr1 arr2 (n1 / 8))
    if whole then
      if n1 % 8 > 0 then do
        let a ← tblGet arr1 (n1 / 8)
        let b ← tblGet arr2 (n1 / 8)
        pure (decide (a >>> (8 - n1 % 8) = b >>> (8 - n1 % 8)))
      else pure true
    else pure false
  else pure false

end Asn1
