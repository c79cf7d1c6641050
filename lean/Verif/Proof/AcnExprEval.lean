import Verif.Spec.AcnExpr
/-! # Proofs: the value of a presence expression -/
namespace Asn1

theorem convTo_has {t : CT} {x : Int} (h : t.has x) : convTo t x = x := by
  cases t <;> simp only [CT.has, CT.lo, CT.hi, convTo, CT.modulus] at h ⊢ <;> omega

theorem resultIn_has {t : CT} {x : Int} (h : t.has x) : resultIn t x = .ok (t, x) := by
  cases t with
  | i32 => simp only [resultIn, CT.modulus]; exact if_pos h
  | i64 => simp only [resultIn, CT.modulus]; exact if_pos h
  | u32 =>
    simp only [resultIn, CT.modulus]
    simp only [CT.has, CT.lo, CT.hi] at h
    rw [Int.emod_eq_of_lt h.1 (by omega)]
  | u64 =>
    simp only [resultIn, CT.modulus]
    simp only [CT.has, CT.lo, CT.hi] at h
    rw [Int.emod_eq_of_lt h.1 (by omega)]

theorem tmod_has {t : CT} {x : Int} (h : t.has x) (y : Int) : t.has (x.tmod y) := by
  have hz : t.lo ≤ 0 ∧ 0 ≤ t.hi := by cases t <;> simp [CT.lo, CT.hi]
  obtain ⟨h1, h2⟩ := h
  have key : (0 ≤ x → 0 ≤ x.tmod y ∧ x.tmod y ≤ x) := by
    intro hx
    refine ⟨Int.tmod_nonneg y hx, ?_⟩
    obtain ⟨n, rfl⟩ := Int.eq_ofNat_of_zero_le hx
    have : (n : Int).tmod y = ((n % y.natAbs : Nat) : Int) := by
      rcases Int.natAbs_eq y with h | h <;> rw [h] <;> simp [Int.tmod_neg, Int.ofNat_tmod, Int.tmod_eq_emod_of_nonneg]
    rw [this]
    exact Int.ofNat_le.2 (Nat.mod_le _ _)
  by_cases hx : 0 ≤ x
  · have := key hx
    exact ⟨by omega, by omega⟩
  · have hx' : 0 ≤ -x := by omega
    have : 0 ≤ (-x).tmod y ∧ (-x).tmod y ≤ -x := by
      refine ⟨Int.tmod_nonneg y hx', ?_⟩
      obtain ⟨n, hn⟩ := Int.eq_ofNat_of_zero_le hx'
      rw [hn]
      have : (n : Int).tmod y = ((n % y.natAbs : Nat) : Int) := by
        rcases Int.natAbs_eq y with h | h <;> rw [h] <;> simp [Int.tmod_neg, Int.ofNat_tmod, Int.tmod_eq_emod_of_nonneg]
      rw [this]
      exact Int.ofNat_le.2 (Nat.mod_le _ _)
    rw [Int.neg_tmod] at this
    exact ⟨by omega, by omega⟩

theorem evalC_value {ty : List String → CT} {env : List String → Int} {e : AcnExp} : ∀ {x : Int}, Representable ty env e →
    expValue env e = some x → evalC ty env e = .ok (cType ty e, x) := by
  induction e with
  | int v =>
    intro x hr h
    cases h
    simp only [Representable] at hr
    simp only [evalC, cType]
    split
    · rfl
    · rfl
  | const n => intro x _ h; cases h
  | real t => intro x _ h; cases h
  | bool b => intro x _ h; cases h; rfl
  | field p => intro x _ h; cases h; rfl
  | not e ih =>
    intro x hr h
    simp only [expValue, Option.map_eq_some_iff] at h
    obtain ⟨y, hy, rfl⟩ := h
    simp only [evalC]
    rw [ih hr hy]
    simp [cBool, cType]
  | neg e ih =>
    intro x hr h
    have hx := hr.2 x h
    simp only [expValue, Option.map_eq_some_iff] at h
    obtain ⟨y, hy, rfl⟩ := h
    simp only [evalC]
    rw [ih hr.1 hy]
    exact resultIn_has hx
  | bin op a b iha ihb =>
    intro x hr h
    obtain ⟨ha, hb⟩ := hr
    have h0 := h
    simp only [expValue] at h
    cases hma : expValue env a with
    | none => rw [hma] at h; cases h
    | some u =>
      rw [hma] at h
      simp only [evalC]
      rw [iha ha hma]
      dsimp only at h hb ⊢
      cases op with
      | and =>
        dsimp only at h hb
        by_cases hu : u = 0
        · rw [if_pos hu] at h; cases h
          rw [if_pos ⟨rfl, hu⟩]; rfl
        · rw [if_neg hu, Option.map_eq_some_iff] at h
          obtain ⟨y, hy, rfl⟩ := h
          rw [if_neg (by simp [hu]), if_neg (by simp), ihb (hb (by rw [hma]; simpa using hu)) hy]
          by_cases h0 : y = 0 <;> simp [h0, cBool, cType]
      | or =>
        dsimp only at h hb
        by_cases hu : u = 0
        · rw [if_neg (by simp [hu]), Option.map_eq_some_iff] at h
          obtain ⟨y, hy, rfl⟩ := h
          rw [if_neg (by simp), if_neg (by simp [hu]), ihb (hb (by rw [hma, hu])) hy]
          by_cases h0 : y = 0 <;> simp [h0, cBool, cType]
        · rw [if_pos hu] at h; cases h
          rw [if_neg (by simp), if_pos ⟨rfl, hu⟩]; rfl
      | _ =>
        dsimp only at h hb
        rw [if_neg (by simp), if_neg (by simp)]
        cases hmb : expValue env b with
        | none => rw [hmb] at h; cases h
        | some y =>
          rw [hmb] at h
          rw [ihb hb.1 hmb]
          dsimp only at h ⊢
          have hcu := hb.2.1 u hma
          have hcy : (commonType (cType ty a) (cType ty b)).has y := by
            first
              | exact hb.2.2.1 y hmb
              | exact hb.2.2 y hmb
          rw [if_neg (by simp), convTo_has hcu, convTo_has hcy]
          first
            | (cases h; exact resultIn_has (hb.2.2.2 _ h0))
            | (cases h
               simp only [cBinary, cBool, cType, decide_eq_true_eq, ge_iff_le, gt_iff_lt, ne_eq, ite_not])
            | (split at h
               · cases h
               cases h
               simp only [cBinary]
               rw [if_neg (by assumption)]
               first
                 | exact resultIn_has (hb.2.2.2 _ h0)
                 | (rw [resultIn_has (hb.2.2.2 (u.tdiv y) (by simp only [expValue, hma, hmb]; rw [if_neg (by assumption)]))]
                    exact resultIn_has (tmod_has hcu y)))

/-- Only the components that are mentioned matter. -/
theorem evalC_congr {ty : List String → CT} {env env' : List String → Int} {e : AcnExp} (h : ∀ p, e.MentionsPath p → env p = env' p) :
    evalC ty env e = evalC ty env' e := by
  induction e with
  | field p => simp only [evalC]; rw [h p rfl]
  | not e ih => simp only [evalC]; rw [ih h]
  | neg e ih => simp only [evalC]; rw [ih h]
  | bin o a b iha ihb =>
    simp only [evalC]
    rw [iha fun p hp => h p (.inl hp), ihb fun p hp => h p (.inr hp)]
  | _ => rfl

/-! ## Small numbers -/

/-- A type that has all numbers from `lo` to 2^31 - 1. -/
def SmallType (lo : Int) (t : CT) : Prop := 0 ≤ lo ∨ (-(2 ^ 31) ≤ lo ∧ (t = .i32 ∨ t = .i64))

theorem SmallType.has {lo : Int} {t : CT} (h : SmallType lo t) {x : Int} (hx : lo ≤ x ∧ x < 2 ^ 31) : t.has x := by
  rcases h with h | ⟨h, rfl | rfl⟩
  · cases t <;> simp only [CT.has, CT.lo, CT.hi] <;> omega
  · simp only [CT.has, CT.lo, CT.hi]; omega
  · simp only [CT.has, CT.lo, CT.hi]; omega

theorem SmallType.common {lo : Int} {s t : CT} (hs : SmallType lo s) (ht : SmallType lo t) : SmallType lo (commonType s t) := by
  rcases hs with h | ⟨h, hs⟩
  · exact .inl h
  rcases ht with h | ⟨h, ht⟩
  · exact .inl h
  refine .inr ⟨h, ?_⟩
  rcases hs with rfl | rfl <;> rcases ht with rfl | rfl <;> simp [commonType]

theorem cType_small {ty : List String → CT} {lo : Int} (h0 : -(2 ^ 31) ≤ lo) {e : AcnExp} (h : ∀ p, e.MentionsPath p → SmallType lo (ty p)) :
    SmallType lo (cType ty e) := by
  have i32 : SmallType lo .i32 := .inr ⟨h0, .inl rfl⟩
  induction e with
  | int v =>
    simp only [cType]
    split
    · exact i32
    · exact .inr ⟨h0, .inr rfl⟩
  | field p => exact h p rfl
  | neg e ih => exact ih h
  | bin o a b iha ihb =>
    have hc := (iha fun p hp => h p (.inl hp)).common (ihb fun p hp => h p (.inr hp))
    cases o <;> first | exact hc | exact i32
  | _ => exact i32

theorem AllSmall.value {lo : Int} {env : List String → Int} (hlo : lo ≤ 0) {e : AcnExp} (h : AllSmall lo env e) {x : Int} (hx : expValue env e = some x) :
    lo ≤ x ∧ x < 2 ^ 31 := by
  cases e with
  | int v => cases hx; simp only [AllSmall] at h; omega
  | const n => cases hx
  | real t => cases hx
  | bool b => cases hx; cases b <;> simp <;> omega
  | field p => cases hx; exact h
  | not e =>
    simp only [expValue, Option.map_eq_some_iff] at hx
    obtain ⟨y, _, rfl⟩ := hx
    split <;> omega
  | neg e => exact h.2 x hx
  | bin o a b => exact h.2.2.1 x hx

theorem representable_of_small {ty : List String → CT} {env : List String → Int} {lo : Int} (h0 : -(2 ^ 31) ≤ lo) (hlo : lo ≤ 0)
    {e : AcnExp} (hs : AllSmall lo env e) (h : ∀ p, e.MentionsPath p → SmallType lo (ty p)) : Representable ty env e := by
  induction e with
  | int v =>
    simp only [AllSmall] at hs
    show v < 2 ^ 63
    omega
  | field p => exact (h p rfl).has hs
  | not e ih => exact ih hs h
  | neg e ih => exact ⟨ih hs.1 h, fun x hx => (cType_small h0 (e := e) h).has (hs.2 x hx)⟩
  | bin o a b iha ihb =>
    have ha := iha hs.1 fun p hp => h p (.inl hp)
    have hb := ihb hs.2.1 fun p hp => h p (.inr hp)
    have hc := (cType_small h0 (e := a) fun p hp => h p (.inl hp)).common (cType_small h0 (e := b) fun p hp => h p (.inr hp))
    have va : HasValue env a (commonType (cType ty a) (cType ty b)) := fun x hx => hc.has (hs.1.value hlo hx)
    have vb : HasValue env b (commonType (cType ty a) (cType ty b)) := fun x hx => hc.has (hs.2.1.value hlo hx)
    have vr : HasValue env (.bin o a b) (commonType (cType ty a) (cType ty b)) := fun x hx => hc.has (hs.2.2.1 x hx)
    refine ⟨ha, ?_⟩
    cases o with
    | and => exact fun _ => hb
    | or => exact fun _ => hb
    | mod => exact ⟨hb, va, vb, fun x hx => hc.has (hs.2.2.2 rfl x hx)⟩
    | _ => first | exact ⟨hb, va, vb, vr⟩ | exact ⟨hb, va, vb⟩
  | _ => trivial

/-- The truth value of an expression that is accepted as boolean is 0 or 1. -/
theorem expValue_bool {seq : SFields} {env : List String → Int} {e : AcnExp}
    (hf : ∀ p, e.MentionsPath p → fieldType p seq = some .bool → env p = 0 ∨ env p = 1) (h : expType seq e = some .bool) {x : Int}
    (hx : expValue env e = some x) : x = 0 ∨ x = 1 := by
  cases e with
  | int v => cases h
  | const n => cases h
  | real t => cases h
  | bool b => cases hx; cases b <;> simp
  | field p => cases hx; exact hf p rfl h
  | not e =>
    simp only [expValue, Option.map_eq_some_iff] at hx
    obtain ⟨y, _, rfl⟩ := hx
    split <;> simp
  | neg e =>
    simp only [expType] at h
    split at h <;> cases h
  | bin o a b =>
    simp only [expType] at h
    split at h
    rotate_left
    · cases h
    rename_i t1 t2 _ _
    simp only [expValue] at hx
    split at hx
    · cases hx
    cases o with
    | and => dsimp only at hx; split at hx
             · cases hx; simp
             · rw [Option.map_eq_some_iff] at hx
               obtain ⟨y, _, rfl⟩ := hx
               split <;> simp
    | or => dsimp only at hx; split at hx
            · cases hx; simp
            · rw [Option.map_eq_some_iff] at hx
              obtain ⟨y, _, rfl⟩ := hx
              split <;> simp
    | _ =>
      dsimp only at hx
      split at hx
      · cases hx
      first
        | (cases hx; split <;> simp; done)
        | (simp only [binType] at h
           split at h
           · rename_i hh; cases h; exact absurd rfl hh.1
           · cases h)

end Asn1
