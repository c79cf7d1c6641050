import Verif.Spec.Bits
import Verif.Spec.Ints
/-!
# Specification: length determinants and fragmentation (X.691, 11.9), independent of the C code
-/
namespace Asn1

/-- Unconstrained length (X.691, 11.9.3.5 to 11.9.3.8) for items whose codes are listed:
* fewer than 128 items: one octet `0nnnnnnn`, then the items;
* fewer than 16384: two octets `10nnnnnn nnnnnnnn`, then the items;
* otherwise an octet `11mmmmmm`, with `m` the largest of 1..4 such that `m * 16384` items are present,
  then these items, then the rest in the same way. -/
def fragmentedCode (items : List (List Bool)) : List Bool :=
  if items.length < 128 then false :: bitsMsb 7 items.length ++ items.flatten
  else if items.length < 16384 then [true, false] ++ bitsMsb 14 items.length ++ items.flatten
  else
    [true, true] ++ bitsMsb 6 (min 4 (items.length / 16384)) ++
      (items.take (min 4 (items.length / 16384) * 16384)).flatten ++
      fragmentedCode (items.drop (min 4 (items.length / 16384) * 16384))
termination_by items.length
decreasing_by
  simp only [List.length_drop]
  omega

/-- Length determinant and items for a size constraint `lo..hi`: nothing when the size is fixed and below
65536, the offset in the least number of bits when `hi` is below 65536, else fragmentation. -/
def sizedCode (lo hi : Nat) (items : List (List Bool)) : List Bool :=
  if hi < 65536 then constrainedCode lo hi items.length ++ items.flatten else fragmentedCode items

end Asn1
