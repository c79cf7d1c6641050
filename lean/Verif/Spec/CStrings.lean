import Verif.Spec.Ints
/-!
# Specification vocabulary: C strings
-/
namespace Asn1

/-- The array `obj` holds the C string `str`: its characters, none of them 0, then a zero byte. -/
def HoldsString (obj str : List (BitVec 8)) : Prop := str ++ [0#8] <+: obj ∧ 0#8 ∉ str

/-- The destination array after decoding `str` into it: the string, zeros up to `max + 1` bytes, the rest as before. -/
def filled (max : Nat) (str dst : List (BitVec 8)) : List (BitVec 8) :=
  str ++ List.replicate (max + 1 - str.length) 0#8 ++ dst.drop (max + 1)

/-- Every character of `str` occurs in the alphabet `set`. -/
def Within (set str : List (BitVec 8)) : Prop := ∀ c ∈ str, c ∈ set

/-- Each character as its index in the alphabet, in the least number of bits that holds every index. -/
def indexCode (set str : List (BitVec 8)) : List Bool :=
  str.flatMap fun c => constrainedCode 0 ((set.length : Int) - 1) (set.idxOf c)

end Asn1
