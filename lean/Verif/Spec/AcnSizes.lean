import Verif.Spec.AcnGen
import Verif.Spec.Sizes
import Verif.Model.AcnSizes
/-!
# Specification: types whose announced ACN sizes are right
-/
namespace Asn1

mutual
/-- The types without ACN properties are as in `PlainSizes`. -/
def APlain : ATy → Prop
  | .prim t => PlainSizes t
  | .seq fs => APlainFields fs
  | .seqOf _ _ _ t => APlain t
  | .choice _ alts => APlainAlts alts
  | .ref _ t => APlain t
  | .align _ t => APlain t
  | _ => True
def APlainFields : AFields → Prop
  | .nil => True
  | .asn1 _ t rest => APlain t ∧ APlainFields rest
  | .acn _ _ _ rest => APlainFields rest
  | .acnNull _ _ rest => APlainFields rest
def APlainAlts : AAlts → Prop
  | .nil => True
  | .cons _ t rest => APlain t ∧ APlainAlts rest
end

mutual
/-- Types whose announced minimum is right: the types without ACN properties are as in `PlainMin`; the elements of a list that is never empty and has its length before it all have
the same size; a component that is always absent has the minimum 0. -/
def APlainMin : ATy → Prop
  | .prim t => PlainMin t
  | .seq fs => APlainMinFields fs
  | .seqOf lo _ none t => APlainMin t ∧ (lo = 0 ∨ acnMaxBits t = acnMinBits t)
  | .seqOf _ _ (some _) t => APlainMin t
  | .choice _ alts => APlainMinAlts alts
  | .ref _ t => APlainMin t
  | .align _ t => APlainMin t
  | _ => True
def APlainMinFields : AFields → Prop
  | .nil => True
  | .asn1 .absent t rest => acnMinBits t = 0 ∧ APlainMinFields rest
  | .asn1 _ t rest => APlainMin t ∧ APlainMinFields rest
  | .acn _ _ _ rest => APlainMinFields rest
  | .acnNull _ _ rest => APlainMinFields rest
def APlainMinAlts : AAlts → Prop
  | .nil => True
  | .cons _ t rest => APlainMin t ∧ APlainMinAlts rest
end

end Asn1
