import Verif.Spec.Uper
import Verif.Model.Sizes
/-!
# Specification: types whose announced sizes are right
-/
namespace Asn1

mutual
/-- All size bounds are 32 bit numbers (as in the compiler), and no WITH COMPONENTS narrows the size of a BIT STRING. -/
def PlainSizes : Ty → Prop
  | .octets _ hi => hi < 2 ^ 32
  | .bits lo hi alo ahi => hi < 2 ^ 32 ∧ alo = lo ∧ ahi = hi
  | .str _ _ hi => hi < 2 ^ 32
  | .seq fs => PlainSizesFields fs
  | .seqOf _ hi t => hi < 2 ^ 32 ∧ PlainSizes t
  | .choice alts => PlainSizesAlts alts
  | .ref t => PlainSizes t
  | _ => True
def PlainSizesFields : Fields → Prop
  | .nil => True
  | .cons _ t rest => PlainSizes t ∧ PlainSizesFields rest
def PlainSizesAlts : Alts → Prop
  | .nil => True
  | .cons t rest => PlainSizes t ∧ PlainSizesAlts rest
end

/-- The sizes are below 65536, or differ by at most 255. -/
def NarrowSize (lo hi : Nat) : Prop := hi < 65536 ∨ hi - lo < 256

mutual
/-- Types whose announced minimum is right: all sizes are narrow, the root of an extensible INTEGER is unbounded. -/
def PlainMin : Ty → Prop
  | .intExt root _ _ => ∀ a b, root ≠ .concrete a b
  | .octets lo hi => NarrowSize lo hi
  | .bits lo hi _ _ => NarrowSize lo hi
  | .str _ lo hi => NarrowSize lo hi
  | .seq fs => PlainMinFields fs
  | .seqOf lo hi t => NarrowSize lo hi ∧ PlainMin t
  | .choice alts => PlainMinAlts alts
  | .ref t => PlainMin t
  | _ => True
def PlainMinFields : Fields → Prop
  | .nil => True
  | .cons _ t rest => PlainMin t ∧ PlainMinFields rest
def PlainMinAlts : Alts → Prop
  | .nil => True
  | .cons t rest => PlainMin t ∧ PlainMinAlts rest
end

end Asn1
