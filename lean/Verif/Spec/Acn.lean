import Verif.Spec.Stream
/-!
# Specification: ACN integer code words, independent of the C code
-/
namespace Asn1

/-- `n` bits of two's complement. -/
def twosCode (n : Nat) (v : Int) : List Bool := bitsMsb n (v % 2 ^ n).toNat

/-- `v` fits in `n` bits of two's complement. -/
def FitsTwos (n : Nat) (v : Int) : Prop := 1 ≤ n ∧ -(2 ^ (n - 1) : Int) ≤ v ∧ v < 2 ^ (n - 1)

/-- The `size` low octets of `v`, least significant octet first. -/
def littleCode : (size v : Nat) → List Bool
  | 0, _ => []
  | n + 1, v => bitsMsb 8 v ++ littleCode n (v / 256)

/-- The octets of an IEEE754 bit image, most significant first. -/
def bigImage : (size : Nat) → Nat → List Byte
  | 0, _ => []
  | k + 1, v => BitVec.ofNat 8 (v / 256 ^ k) :: bigImage k v

/-- `f` aligns to `m` bits: the new position is the least multiple of `m` that is not before the old one; an encoder has
written zeros up to there; a decoder over any buffer at the same position lands at the same position. -/
def AlignsTo (f : M Unit) (m : Nat) : Prop :=
  ∀ p, ∃ q, m ∣ q ∧ p ≤ q ∧ (∀ q', m ∣ q' → p ≤ q' → q ≤ q') ∧
    (∀ s bs, EncSt s bs → s.pos = p → q ≤ 8 * s.count →
      ∃ s', f s = .ok ((), s') ∧ s'.pos = q ∧ EncSt s' (bs ++ List.replicate (q - p) false) ∧ Frame s s') ∧
    (∀ t, Wf t → t.pos = p → q ≤ 8 * t.count →
      ∃ t', f t = .ok ((), t') ∧ t'.pos = q ∧ Wf t' ∧ t'.buf = t.buf ∧ t'.count = t.count)

end Asn1
