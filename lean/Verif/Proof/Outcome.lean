import Verif.Model.Core
/-! Outcomes of a run, for concrete runs. -/
namespace Asn1

/-- Stops with undefined behaviour. -/
def Res.isUb {α : Type} : Res α → Bool
  | .ub => true
  | _ => false

theorem Res.eq_ub {α : Type} {r : Res α} (h : r.isUb = true) : r = .ub := by
  cases r <;> first | rfl | cases h

end Asn1
