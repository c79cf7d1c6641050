import Verif.Spec.RangeEnds
import Verif.Model.Constraint
/-!
# Value ranges in the front end
-/
namespace Asn1

/-- `CheckValueRange`, FrontEndAst/CreateAsn1AstFromAntlrTree.fs:272-286. `false`: an error message. The word size of the call is not used. -/
def checkEnds (min max : Int) : Bool := !(decide (min < 0) && decide (max > 9223372036854775807))

/-- `CreateConstraint` for `VALUE_RANGE_EXPR` with an upper end, FrontEndAst/CreateAsn1AstFromAntlrTree.fs:394-422, for INTEGER and ends that are
literals. The outer `none`: an error message. The inner `none`: no constraint. -/
def createRange (r : RangeText) : Option (Option RLeaf) :=
  match r.lo, r.hi with
  | none, none => some none
  | none, some b => some (some (.minVal b (!r.hiOpen)))
  | some a, none => some (some (.valMax a (!r.loOpen)))
  | some a, some b => if checkEnds a b then some (some (.range a b (!r.loOpen) (!r.hiOpen))) else none

end Asn1
