import Verif.Spec.Init
/-!
# Values for which the C constant is claimed to be right (C98)

Nothing here mentions generated code.
-/
namespace Asn1

/-- Some component of the SEQUENCE has a value or a DEFAULT value. -/
def CFields.Written : CFields → List (Option AV) → Prop
  | .cons _ _ _, some _ :: _ => True
  | .cons (.default _) _ _, none :: _ => True
  | .cons _ _ rest, none :: xs => rest.Written xs
  | _, _ => False

/-- Some component may be absent. -/
def CFields.Optional : CFields → Prop
  | .nil => False
  | .cons o _ rest => o ≠ .mandatory ∨ rest.Optional

mutual
/-- The value can be declared as a constant: it can be stored, real numbers are finite, in each SEQUENCE with components that may be
absent some component has a value or a DEFAULT value, and the DEFAULT values of absent components can be declared as well. -/
def CTy.Constant : CTy → Option (Nat × Nat) → AV → Prop
  | .seq fs _, _, .seq l => fs.Constant l ∧ (fs.Optional → fs.Written l)
  | .seqOf lo hi t _, sz, .seqOf l =>
    l.length ≤ hi ∧ (lo = hi → l.length = hi) ∧ ((sz.getD (lo, hi)).1 = (sz.getD (lo, hi)).2 → lo = hi) ∧
      ∀ x ∈ l, t.Constant none x
  | .choice alts _, _, .choice i x => alts.Constant i x
  | .ref t sz' _, sz, a => t.Constant (sz <|> sz') a
  | .real _, _, .real d => (d >>> 52) &&& 0x7FF#64 ≠ 0x7FF#64
  | t, sz, a => t.Storable sz a
/-- The components. -/
def CFields.Constant : CFields → List (Option AV) → Prop
  | .nil, [] => True
  | .cons _ t rest, some x :: xs => t.Constant none x ∧ rest.Constant xs
  | .cons .mandatory _ _, none :: _ => False
  | .cons (.default d) t rest, none :: xs => t.Constant none d ∧ rest.Constant xs
  | .cons _ _ rest, none :: xs => rest.Constant xs
  | _, _ => False
/-- The alternative. -/
def CAlts.Constant : CAlts → Nat → AV → Prop
  | .nil, _, _ => False
  | .cons t _, 0, x => t.Constant none x
  | .cons _ rest, i + 1, x => rest.Constant i x
end

end Asn1
