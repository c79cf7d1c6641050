import Verif.Model.XerGen
/-!
# Comparing values of the generated XER codecs
-/
namespace Asn1

mutual
/-- Equality of values, computed. -/
def XVal.same : XVal → XVal → Bool
  | .int a, .int b => decide (a = b)
  | .bool a, .bool b => decide (a = b)
  | .null, .null => true
  | .enum a, .enum b => decide (a = b)
  | .str a, .str b => decide (a = b)
  | .octets n a, .octets m b => decide (n = m) && decide (a = b)
  | .bits n a, .bits m b => decide (n = m) && decide (a = b)
  | .seq a, .seq b => XVal.sameFields a b
  | .seqOf a, .seqOf b => XVal.sameList a b
  | .choice i a, .choice j b => decide (i = j) && XVal.same a b
  | .unset, .unset => true
  | _, _ => false
/-- The same for lists. -/
def XVal.sameList : List XVal → List XVal → Bool
  | [], [] => true
  | a :: l, b :: m => XVal.same a b && XVal.sameList l m
  | _, _ => false
/-- The same for components. -/
def XVal.sameFields : List (Bool × XVal) → List (Bool × XVal) → Bool
  | [], [] => true
  | (e, a) :: l, (f, b) :: m => decide (e = f) && XVal.same a b && XVal.sameFields l m
  | _, _ => false
end

mutual
theorem XVal.eq_of_same : ∀ (a b : XVal), XVal.same a b = true → a = b
  | .int a, b, h => by cases b <;> simp_all [XVal.same]
  | .bool a, b, h => by cases b <;> simp_all [XVal.same]
  | .null, b, h => by cases b <;> simp_all [XVal.same]
  | .enum a, b, h => by cases b <;> simp_all [XVal.same]
  | .str a, b, h => by cases b <;> simp_all [XVal.same]
  | .octets n a, b, h => by cases b <;> simp_all [XVal.same]
  | .bits n a, b, h => by cases b <;> simp_all [XVal.same]
  | .seq a, b, h => by
    cases b <;> simp only [XVal.same, Bool.false_eq_true] at h
    rw [XVal.eq_of_sameFields _ _ h]
  | .seqOf a, b, h => by
    cases b <;> simp only [XVal.same, Bool.false_eq_true] at h
    rw [XVal.eq_of_sameList _ _ h]
  | .choice i a, b, h => by
    cases b <;> simp only [XVal.same, Bool.false_eq_true, Bool.and_eq_true, decide_eq_true_eq] at h
    rw [h.1, XVal.eq_of_same _ _ h.2]
  | .unset, b, h => by cases b <;> simp_all [XVal.same]
theorem XVal.eq_of_sameList : ∀ (a b : List XVal), XVal.sameList a b = true → a = b
  | [], b, h => by cases b <;> simp_all [XVal.sameList]
  | a :: l, b, h => by
    cases b <;> simp only [XVal.sameList, Bool.false_eq_true, Bool.and_eq_true] at h
    rw [XVal.eq_of_same _ _ h.1, XVal.eq_of_sameList _ _ h.2]
theorem XVal.eq_of_sameFields : ∀ (a b : List (Bool × XVal)), XVal.sameFields a b = true → a = b
  | [], b, h => by cases b <;> simp_all [XVal.sameFields]
  | (e, a) :: l, b, h => by
    cases b with
    | nil => simp [XVal.sameFields] at h
    | cons p m =>
      obtain ⟨f, b⟩ := p
      simp only [XVal.sameFields, Bool.and_eq_true, decide_eq_true_eq] at h
      rw [h.1.1, XVal.eq_of_same _ _ h.1.2, XVal.eq_of_sameFields _ _ h.2]
end

/-- `f` on `s` returns the flag `b` and the value `v`, computed. -/
def xGives (f : XM (Bool × XVal)) (s : XerStream) (b : Bool) (v : XVal) : Bool :=
  match f s with
  | .ok (some (b', v'), _) => decide (b' = b) && XVal.same v' v
  | _ => false

theorem xGives_ok {f : XM (Bool × XVal)} {s : XerStream} {b : Bool} {v : XVal} (h : xGives f s b v = true) :
    ∃ s', f s = .ok (some (b, v), s') := by
  unfold xGives at h
  split at h
  · next b' v' s' e =>
    simp only [Bool.and_eq_true, decide_eq_true_eq] at h
    rw [e, h.1, XVal.eq_of_same _ _ h.2]
    exact ⟨s', rfl⟩
  · cases h

end Asn1
