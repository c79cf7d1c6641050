/-!
# The ends of a value range

X.680, 51.4: `a..b`, `a<..b`, `a..<b`, `a<..<b`, where `a` may be MIN and `b` may be MAX.
-/
namespace Asn1

/-- A value range of INTEGER as it is written. `none` is MIN or MAX; `open` means that there is a `<`. -/
structure RangeText where
  lo : Option Int
  loOpen : Bool
  hi : Option Int
  hiOpen : Bool

/-- X.680, 51.4.3 and 51.4.4: the values that the range selects from those of the parent type. MIN and MAX are the least and the greatest value of
the parent type; with `<` the end itself does not count. -/
def RangeText.Selects (parent : Int → Prop) (r : RangeText) (x : Int) : Prop :=
  parent x ∧
  (match r.lo with
    | some a => if r.loOpen then a < x else a ≤ x
    | none => if r.loOpen then ∃ y, parent y ∧ y < x else True) ∧
  (match r.hi with
    | some b => if r.hiOpen then x < b else x ≤ b
    | none => if r.hiOpen then ∃ y, parent y ∧ x < y else True)

/-- One of the integer types of C of the given number of bits holds both numbers. -/
def OneType (bits : Nat) (a b : Int) : Prop :=
  (-(2 ^ (bits - 1)) ≤ a ∧ a < 2 ^ (bits - 1) ∧ -(2 ^ (bits - 1)) ≤ b ∧ b < 2 ^ (bits - 1)) ∨
  (0 ≤ a ∧ a < 2 ^ bits ∧ 0 ≤ b ∧ b < 2 ^ bits)

end Asn1
