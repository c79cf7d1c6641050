import Mathlib.Data.List.Forall2
import Verif.Model.Equal
import Verif.Spec.CVal
import Verif.Props.Search
/-! Helper lemmas for Equal.lean. -/
namespace Asn1

theorem octetStringEqual_pure {n1 n2 : Nat} {a b : List Byte} (h1 : n1 ≤ a.length) (h2 : n2 ≤ b.length) :
    octetStringEqual n1 n2 a b = pure (decide (a.take n1 = b.take n2)) := by
  funext s; exact C32_octetString n1 n2 a b h1 h2 s

theorem bitStringEqual_pure {n1 n2 : Nat} {a b : List Byte} (h1 : n1 ≤ 8 * a.length) (h2 : n2 ≤ 8 * b.length) :
    bitStringEqual n1 n2 a b = pure (decide ((bytesBits a).take n1 = (bytesBits b).take n2)) := by
  funext s; exact C32_bitString n1 n2 a b h1 h2 s

theorem oidEqual_pure {a b : Oid} (ha : a.values.length = 20) (hb : b.values.length = 20) (hna : a.nCount ≤ 20)
    (hnb : b.nCount ≤ 20) :
    oidEqual a b = pure (decide (a.values.take a.nCount = b.values.take b.nCount)) := by
  funext s; exact C32_objectIdentifier a b ha hb hna hnb s

theorem eqBitsN_eq (n : Nat) (a b : List Byte) : eqBitsN (n : Int) a b = bitStringEqual n n a b := by
  have hd : (n : Int).tdiv 8 = ((n / 8 : Nat) : Int) := by rw [Int.tdiv_eq_ediv_of_nonneg (by omega)]; omega
  have hm : (n : Int).tmod 8 = ((n % 8 : Nat) : Int) := by rw [Int.tmod_eq_emod_of_nonneg (by omega)]; omega
  have h0 : memEqI a b ((n / 8 : Nat) : Int) = (if n / 8 = 0 then pure true else memEq a b (n / 8)) := by
    rw [memEqI, if_pos (by omega), Int.toNat_natCast]
    split
    · rename_i h; rw [h]; simp [memEq]
    · rfl
  have ht : (8 - ((n % 8 : Nat) : Int)).toNat = 8 - n % 8 := by omega
  have hg : (((n % 8 : Nat) : Int) > 0) = (n % 8 > 0) := by simp only [gt_iff_lt, eq_iff_iff]; omega
  have ha : ∀ x : List Byte, eqBitsN.arrGetB x ((n / 8 : Nat) : Int) = tblGet x (n / 8) := by
    intro x; rw [eqBitsN.arrGetB, if_pos (by omega), Int.toNat_natCast]
  rw [eqBitsN, bitStringEqual, if_pos rfl, hd, hm, h0, ht, ha, ha]
  simp only [hg]

theorem counted_eq {α : Type} {n : Int} {max : Nat} {l x : List α} (h : counted n max l = some x) :
    0 ≤ n ∧ n ≤ max ∧ x = l.take n.toNat := by
  unfold counted at h
  split at h
  · rename_i hh; simp only [Option.some.injEq] at h; exact ⟨hh.1, hh.2, h.symm⟩
  · cases h

/-- A sizeable type: the elements of a fixed size type are the whole array, otherwise those before the count. -/
theorem count_cases {α : Type} {lo hi : Nat} {n : Int} {arr x : List α} (hlen : hi ≤ arr.length)
    (h : (if lo = hi then some (arr.take hi) else counted n hi arr) = some x) :
    ∃ k : Nat, k ≤ hi ∧ x = arr.take k ∧ x.length = k ∧ (lo = hi → k = hi) ∧ (lo ≠ hi → n = k) := by
  by_cases e : lo = hi
  · rw [if_pos e] at h
    simp only [Option.some.injEq] at h
    exact ⟨hi, Nat.le_refl _, h.symm, by rw [← h, List.length_take]; omega, fun _ => rfl, fun hn => absurd e hn⟩
  · rw [if_neg e] at h
    obtain ⟨h0, h1, h2⟩ := counted_eq h
    exact ⟨n.toNat, by omega, h2, by rw [h2, List.length_take]; omega, fun he => absurd he e, fun _ => by omega⟩

theorem take_full {α : Type} {hi : Nat} {arr : List α} (h : arr.length = hi) : arr.take hi = arr := by
  rw [← h, List.take_length]

theorem take_eq_iff_lengths {α : Type} {k m : Nat} {a b : List α} (ha : (a.take k).length = k) (hb : (b.take m).length = m)
    (h : k ≠ m) : a.take k ≠ b.take m := by
  intro e
  have := congrArg List.length e
  rw [ha, hb] at this
  exact h this

theorem eqOctets_pure {lo hi : Nat} {n1 n2 : Int} {a1 a2 x y : List Byte} (h1 : a1.length = hi) (h2 : a2.length = hi)
    (hx : (if lo = hi then some a1 else counted n1 hi a1) = some x)
    (hy : (if lo = hi then some a2 else counted n2 hi a2) = some y) :
    eqOctets (decide (lo = hi)) hi n1 a1 n2 a2 = pure (decide (x = y)) := by
  have hx' : (if lo = hi then some (a1.take hi) else counted n1 hi a1) = some x := by rw [take_full h1]; exact hx
  have hy' : (if lo = hi then some (a2.take hi) else counted n2 hi a2) = some y := by rw [take_full h2]; exact hy
  obtain ⟨k, hk, ex, lx, fx, vx⟩ := count_cases (by omega) hx'
  obtain ⟨m, hm, ey, ly, fy, vy⟩ := count_cases (by omega) hy'
  unfold eqOctets
  by_cases e : lo = hi
  · rw [if_pos (by simpa using e), memEq_pure (by omega) (by omega), ex, ey, fx e, fy e]
  · rw [if_neg (by simpa using e), vx e, vy e]
    by_cases hkm : k = m
    · subst hkm
      rw [if_pos rfl, memEqI, if_pos (by omega), Int.toNat_natCast, memEq_pure (by omega) (by omega), ex, ey]
    · rw [if_neg (by omega)]
      have : x ≠ y := by rintro rfl; omega
      simp [this]

theorem eqBits_pure {lo hi : Nat} {n1 n2 : Int} {a1 a2 : List Byte} {x y : List Bool} (h1 : a1.length = (hi + 7) / 8)
    (h2 : a2.length = (hi + 7) / 8)
    (hx : (if lo = hi then some ((bytesBits a1).take hi) else counted n1 hi (bytesBits a1)) = some x)
    (hy : (if lo = hi then some ((bytesBits a2).take hi) else counted n2 hi (bytesBits a2)) = some y) :
    eqBits (decide (lo = hi)) hi n1 a1 n2 a2 = pure (decide (x = y)) := by
  obtain ⟨k, hk, ex, lx, fx, vx⟩ := count_cases (by rw [bytesBits_length]; omega) hx
  obtain ⟨m, hm, ey, ly, fy, vy⟩ := count_cases (by rw [bytesBits_length]; omega) hy
  unfold eqBits
  by_cases e : lo = hi
  · rw [if_pos (by simpa using e), eqBitsN_eq, bitStringEqual_pure (by omega) (by omega), ex, ey, fx e, fy e]
  · rw [if_neg (by simpa using e), vx e, vy e]
    by_cases hkm : k = m
    · subst hkm
      rw [if_pos rfl, eqBitsN_eq, bitStringEqual_pure (by omega) (by omega), ex, ey]
    · rw [if_neg (by omega)]
      have : x ≠ y := by rintro rfl; omega
      simp [this]

theorem cStrEq_pure : ∀ {a b : List Byte}, 0#8 ∈ a → 0#8 ∈ b →
    cStrEq a b = pure (decide (a.takeWhile (· ≠ 0#8) = b.takeWhile (· ≠ 0#8)))
  | [], _, ha, _ => by cases ha
  | _ :: _, [], _, hb => by cases hb
  | c :: as, d :: bs, ha, hb => by
    rw [cStrEq]
    by_cases hcd : c = d
    · subst hcd
      rw [if_pos rfl]
      by_cases h0 : c = 0#8
      · rw [if_pos h0]; simp [h0]
      · rw [if_neg h0]
        have ha' : 0#8 ∈ as := by
          rcases List.mem_cons.1 ha with h | h
          · exact absurd h.symm h0
          · exact h
        have hb' : 0#8 ∈ bs := by
          rcases List.mem_cons.1 hb with h | h
          · exact absurd h.symm h0
          · exact h
        rw [cStrEq_pure ha' hb']
        congr 1
        rw [decide_eq_decide, List.takeWhile_cons_of_pos (by simpa using h0), List.takeWhile_cons_of_pos (by simpa using h0)]
        simp
    · rw [if_neg hcd]
      congr 1
      symm
      rw [decide_eq_false_iff_not]
      intro e
      by_cases hc0 : c = 0#8
      · have hd0 : d ≠ 0#8 := fun h => hcd (hc0.trans h.symm)
        rw [List.takeWhile_cons_of_neg (by simpa using hc0), List.takeWhile_cons_of_pos (by simpa using hd0)] at e
        cases e
      · rw [List.takeWhile_cons_of_pos (by simpa using hc0)] at e
        by_cases hd0 : d = 0#8
        · rw [List.takeWhile_cons_of_neg (by simpa using hd0)] at e
          cases e
        · rw [List.takeWhile_cons_of_pos (by simpa using hd0)] at e
          exact hcd (List.cons.inj e).1

theorem cString_eq {arr x : List Byte} (h : cString arr = some x) :
    0#8 ∈ arr ∧ (∀ c ∈ x, c.toNat < 128) ∧ x = arr.takeWhile (· ≠ 0#8) := by
  unfold cString at h
  split at h
  · rename_i hh
    simp only [Option.some.injEq] at h
    subst h
    exact ⟨hh.1, hh.2, rfl⟩
  · cases h

/-- `mapM` and its elements. -/
theorem mapM_some_iff {α β : Type} {f : α → Option β} : ∀ {l : List α} {m : List β},
    l.mapM f = some m ↔ List.Forall₂ (fun a b => f a = some b) l m
  | [], m => by simp [List.mapM_nil, eq_comm]
  | a :: l, m => by
    rw [List.mapM_cons]
    constructor
    · intro h
      simp only [Option.bind_eq_bind, Option.pure_def, Option.bind_eq_some_iff, Option.some.injEq] at h
      obtain ⟨b, hb, bs, hbs, rfl⟩ := h
      exact List.Forall₂.cons hb (mapM_some_iff.1 hbs)
    · intro h
      cases h with
      | cons h1 h2 =>
        simp only [Option.bind_eq_bind, Option.pure_def, Option.bind_eq_some_iff, Option.some.injEq]
        exact ⟨_, h1, _, mapM_some_iff.2 h2, rfl⟩

/-- The loop over the elements. -/
theorem eqLoop_spec {f : CVal → CVal → M Bool} {g : CVal → Option AV} {P : AV → AV → Prop}
    (hf : ∀ a b x y, g a = some x → g b = some y → ∃ r, f a b = pure r ∧ (r = true ↔ P x y)) (a b : List CVal) :
    ∀ (n i : Nat) (xs ys : List AV), i + n ≤ a.length → i + n ≤ b.length →
      List.Forall₂ (fun v x => g v = some x) ((a.drop i).take n) xs →
      List.Forall₂ (fun v x => g v = some x) ((b.drop i).take n) ys →
      ∃ r, eqLoop f a b n i = pure r ∧ (r = true ↔ List.Forall₂ P xs ys)
  | 0, i, xs, ys, _, _, hx, hy => by
    simp only [List.take_zero, List.forall₂_nil_left_iff] at hx hy
    subst hx hy
    exact ⟨true, rfl, by simp⟩
  | n + 1, i, xs, ys, ha, hb, hx, hy => by
    rw [List.drop_eq_getElem_cons (by omega : i < a.length), List.take_succ_cons] at hx
    rw [List.drop_eq_getElem_cons (by omega : i < b.length), List.take_succ_cons] at hy
    cases hx with
    | cons hx0 hx1 =>
    cases hy with
    | cons hy0 hy1 =>
      rename_i x xs' y ys'
      obtain ⟨r, hr, hP⟩ := hf _ _ _ _ hx0 hy0
      obtain ⟨q, hq, hQ⟩ := eqLoop_spec hf a b n (i + 1) xs' ys' (by omega) (by omega) hx1 hy1
      rw [eqLoop, tblGet_pure (by omega), pure_bind, tblGet_pure (by omega), pure_bind, hr, pure_bind]
      cases r with
      | true =>
        rw [if_pos rfl, hq]
        exact ⟨q, rfl, by rw [hQ, List.forall₂_cons]; exact ⟨fun h => ⟨hP.1 rfl, h⟩, fun h => h.2⟩⟩
      | false =>
        rw [if_neg (by simp)]
        refine ⟨false, rfl, ?_⟩
        rw [List.forall₂_cons]
        exact ⟨fun h => (by cases h), fun h => by cases hP.2 h.1⟩

theorem forall2_length_ne {α : Type} {P : α → α → Prop} {xs ys : List α} (h : xs.length ≠ ys.length) :
    ¬ List.Forall₂ P xs ys := fun e => h e.length_eq

mutual
theorem cEqual_spec : ∀ (t : CTy) (a b : CVal) (x y : AV), meaning t a = some x → meaning t b = some y →
    ∃ r, cEqual t a b = pure r ∧ (r = true ↔ SameBy (fun a b => asn1RealEqual a b = true) t x y)
  | .int cls cons, a, b, x, y, hx, hy => by
    cases a <;> simp only [meaning, reduceCtorEq] at hx
    cases b <;> simp only [meaning, reduceCtorEq] at hy
    split at hx <;> simp only [Option.some.injEq, reduceCtorEq] at hx
    split at hy <;> simp only [Option.some.injEq, reduceCtorEq] at hy
    subst hx hy
    exact ⟨_, by rw [cEqual], by simp [SameBy]⟩
  | .bool cons, a, b, x, y, hx, hy => by
    cases a <;> simp only [meaning, reduceCtorEq, Option.some.injEq] at hx
    cases b <;> simp only [meaning, reduceCtorEq, Option.some.injEq] at hy
    subst hx hy
    exact ⟨_, by rw [cEqual], by simp [SameBy]⟩
  | .null, a, b, x, y, hx, hy => by
    cases a <;> simp only [meaning, reduceCtorEq, Option.some.injEq] at hx
    cases b <;> simp only [meaning, reduceCtorEq, Option.some.injEq] at hy
    subst hx hy
    exact ⟨_, by rw [cEqual], by simp [SameBy]⟩
  | .enum items cons, a, b, x, y, hx, hy => by
    cases a <;> simp only [meaning, reduceCtorEq] at hx
    cases b <;> simp only [meaning, reduceCtorEq] at hy
    split at hx <;> simp only [Option.some.injEq, reduceCtorEq] at hx
    split at hy <;> simp only [Option.some.injEq, reduceCtorEq] at hy
    subst hx hy
    exact ⟨_, by rw [cEqual], by simp [SameBy]⟩
  | .octets lo hi cons, a, b, x, y, hx, hy => by
    cases a <;> simp only [meaning, reduceCtorEq] at hx
    cases b <;> simp only [meaning, reduceCtorEq] at hy
    split at hx <;> simp only [Option.map_eq_some_iff, reduceCtorEq] at hx
    split at hy <;> simp only [Option.map_eq_some_iff, reduceCtorEq] at hy
    rename_i h1 h2
    obtain ⟨l, hl, rfl⟩ := hx
    obtain ⟨m, hm, rfl⟩ := hy
    exact ⟨_, by rw [cEqual, eqOctets_pure h1 h2 hl hm], by simp [SameBy]⟩
  | .bits lo hi cons, a, b, x, y, hx, hy => by
    cases a <;> simp only [meaning, reduceCtorEq] at hx
    cases b <;> simp only [meaning, reduceCtorEq] at hy
    split at hx <;> simp only [Option.map_eq_some_iff, reduceCtorEq] at hx
    split at hy <;> simp only [Option.map_eq_some_iff, reduceCtorEq] at hy
    rename_i h1 h2
    obtain ⟨l, hl, rfl⟩ := hx
    obtain ⟨m, hm, rfl⟩ := hy
    exact ⟨_, by rw [cEqual, eqBits_pure h1 h2 hl hm], by simp [SameBy]⟩
  | .str lo hi al cons, a, b, x, y, hx, hy => by
    cases a <;> simp only [meaning, reduceCtorEq] at hx
    cases b <;> simp only [meaning, reduceCtorEq] at hy
    split at hx <;> simp only [Option.map_eq_some_iff, reduceCtorEq] at hx
    split at hy <;> simp only [Option.map_eq_some_iff, reduceCtorEq] at hy
    obtain ⟨l, hl, rfl⟩ := hx
    obtain ⟨m, hm, rfl⟩ := hy
    obtain ⟨hl0, -, rfl⟩ := cString_eq hl
    obtain ⟨hm0, -, rfl⟩ := cString_eq hm
    exact ⟨_, by rw [cEqual, cStrEq_pure hl0 hm0], by simp [SameBy]⟩
  | .oid rel cons, a, b, x, y, hx, hy => by
    cases a <;> simp only [meaning, reduceCtorEq] at hx
    cases b <;> simp only [meaning, reduceCtorEq] at hy
    split at hx <;> simp only [Option.some.injEq, reduceCtorEq] at hx
    split at hy <;> simp only [Option.some.injEq, reduceCtorEq] at hy
    rename_i h1 h2
    subst hx hy
    exact ⟨_, by rw [cEqual, oidEqual_pure h1.1 h2.1 h1.2 h2.2], by simp [SameBy]⟩
  | .real cons, a, b, x, y, hx, hy => by
    cases a <;> simp only [meaning, reduceCtorEq, Option.some.injEq] at hx
    cases b <;> simp only [meaning, reduceCtorEq, Option.some.injEq] at hy
    subst hx hy
    exact ⟨_, by rw [cEqual], by simp [SameBy]⟩
  | .seq fs cons, a, b, x, y, hx, hy => by
    cases a <;> simp only [meaning, reduceCtorEq] at hx
    cases b <;> simp only [meaning, reduceCtorEq] at hy
    simp only [Option.map_eq_some_iff] at hx hy
    obtain ⟨l, hl, rfl⟩ := hx
    obtain ⟨m, hm, rfl⟩ := hy
    obtain ⟨r, hr, h⟩ := cEqualFields_spec fs _ _ l m hl hm
    exact ⟨r, by rw [cEqual, hr], by rw [h, SameBy]⟩
  | .seqOf lo hi t cons, a, b, x, y, hx, hy => by
    cases a <;> simp only [meaning, reduceCtorEq] at hx
    cases b <;> simp only [meaning, reduceCtorEq] at hy
    split at hx <;> simp only [Option.map_eq_some_iff, reduceCtorEq, Option.bind_eq_some_iff] at hx
    split at hy <;> simp only [Option.map_eq_some_iff, reduceCtorEq, Option.bind_eq_some_iff] at hy
    rename_i n1 a1 n2 a2 h1 h2
    obtain ⟨l, ⟨l0, hl0, hl⟩, rfl⟩ := hx
    obtain ⟨m, ⟨m0, hm0, hm⟩, rfl⟩ := hy
    rw [mapM_some_iff] at hl hm
    have hl0' : (if lo = hi then some (a1.take hi) else counted n1 hi a1) = some l0 := by rw [take_full h1]; exact hl0
    have hm0' : (if lo = hi then some (a2.take hi) else counted n2 hi a2) = some m0 := by rw [take_full h2]; exact hm0
    obtain ⟨k, hk, ex, lx, fx, vx⟩ := count_cases (by omega) hl0'
    obtain ⟨k', hk', ey, ly, fy, vy⟩ := count_cases (by omega) hm0'
    have key : ∀ n, k = n → k' = n → ∃ r, eqLoop (cEqual t) a1 a2 n 0 = pure r ∧
        (r = true ↔ SameBy (fun a b => asn1RealEqual a b = true) (.seqOf lo hi t cons) (.seqOf l) (.seqOf m)) := by
      intro n hkn hkn'
      obtain ⟨r, hr, h⟩ := eqLoop_spec (fun a b x y => cEqual_spec t a b x y) a1 a2 n 0 l m (by omega) (by omega)
        (by rw [List.drop_zero, ← hkn, ← ex]; exact hl) (by rw [List.drop_zero, ← hkn', ← ey]; exact hm)
      exact ⟨r, hr, by rw [h, SameBy]⟩
    rw [cEqual]
    by_cases e : lo = hi
    · rw [if_pos e]
      exact key lo (by rw [fx e, e]) (by rw [fy e, e])
    · rw [if_neg e, vx e, vy e]
      by_cases hkk : k = k'
      · rw [if_pos (by omega), Int.toNat_natCast]
        exact key k rfl hkk.symm
      · rw [if_neg (by omega)]
        refine ⟨false, rfl, ?_⟩
        rw [SameBy]
        have : l.length ≠ m.length := by rw [← hl.length_eq, ← hm.length_eq]; omega
        exact ⟨fun h => (by cases h), fun h => absurd h (forall2_length_ne this)⟩
  | .choice alts cons, a, b, x, y, hx, hy => by
    cases a <;> simp only [meaning, reduceCtorEq] at hx
    cases b <;> simp only [meaning, reduceCtorEq] at hy
    split at hx <;> simp only [Option.map_eq_some_iff, reduceCtorEq] at hx
    split at hy <;> simp only [Option.map_eq_some_iff, reduceCtorEq] at hy
    rename_i k1 u1 k2 u2 h1 h2
    obtain ⟨v, hv, rfl⟩ := hx
    obtain ⟨w, hw, rfl⟩ := hy
    rw [cEqual, SameBy]
    by_cases hk : k1 = k2
    · subst hk
      rw [if_pos rfl, if_pos h1]
      obtain ⟨r, hr, h⟩ := cEqualAlts_spec alts (k1.toNat - 1) _ _ v w hv hw
      exact ⟨r, hr, by rw [h]; simp⟩
    · rw [if_neg hk]
      exact ⟨false, rfl, fun h => (by cases h), fun h => by have := h.1; omega⟩
  | .ref t sz cons, a, b, x, y, hx, hy => by
    rw [meaning] at hx hy
    obtain ⟨r, hr, h⟩ := cEqual_spec t a b x y hx hy
    exact ⟨r, by rw [cEqual, hr], by rw [h, SameBy]⟩
theorem cEqualFields_spec : ∀ (fs : CFields) (a b : List (Bool × CVal)) (x y : List (Option AV)),
    meaningFields fs a = some x → meaningFields fs b = some y →
    ∃ r, cEqualFields fs a b = pure r ∧ (r = true ↔ SameByFields (fun a b => asn1RealEqual a b = true) fs x y)
  | .nil, a, b, x, y, hx, hy => by
    cases a <;> simp only [meaningFields, reduceCtorEq, Option.some.injEq] at hx
    cases b <;> simp only [meaningFields, reduceCtorEq, Option.some.injEq] at hy
    subst hx hy
    exact ⟨true, by rw [cEqualFields], by simp [SameByFields]⟩
  | .cons o t rest, a, b, x, y, hx, hy => by
    cases a with
    | nil => simp only [meaningFields, reduceCtorEq] at hx
    | cons p as =>
    cases b with
    | nil => simp only [meaningFields, reduceCtorEq] at hy
    | cons q bs =>
      obtain ⟨e1, v⟩ := p
      obtain ⟨e2, w⟩ := q
      have hboth : ∀ xs ys x0 y0, meaning t v = some x0 → meaning t w = some y0 → meaningFields rest as = some xs →
          meaningFields rest bs = some ys → ∃ r, (do
            let r ← cEqual t v w
            if r then cEqualFields rest as bs else pure false) = pure r ∧
            (r = true ↔ SameByFields (fun a b => asn1RealEqual a b = true) (.cons o t rest) (some x0 :: xs) (some y0 :: ys)) := by
        intro xs ys x0 y0 h1 h2 h3 h4
        obtain ⟨r, hr, h⟩ := cEqual_spec t v w x0 y0 h1 h2
        obtain ⟨r', hr', h'⟩ := cEqualFields_spec rest as bs xs ys h3 h4
        rw [hr, pure_bind, SameByFields]
        cases r with
        | true => rw [if_pos rfl]; exact ⟨r', hr', by rw [h']; exact ⟨fun h2 => ⟨h.1 rfl, h2⟩, fun h2 => h2.2⟩⟩
        | false => rw [if_neg (by simp)]; exact ⟨false, rfl, fun h => (by cases h), fun h2 => by cases h.2 h2.1⟩
      have hnone : ∀ xs ys, meaningFields rest as = some xs → meaningFields rest bs = some ys → ∃ r, (do
            let r ← (pure true : M Bool)
            if r then cEqualFields rest as bs else pure false) = pure r ∧
            (r = true ↔ SameByFields (fun a b => asn1RealEqual a b = true) (.cons o t rest) (none :: xs) (none :: ys)) := by
        intro xs ys h3 h4
        obtain ⟨r', hr', h'⟩ := cEqualFields_spec rest as bs xs ys h3 h4
        rw [pure_bind, if_pos rfl, SameByFields]
        exact ⟨r', hr', h'⟩
      cases o <;> cases e1 <;> cases e2 <;>
        simp only [meaningFields, Option.bind_eq_bind, Option.bind_eq_some_iff, Option.some.injEq] at hx hy <;>
        simp only [cEqualFields, if_true, if_false, reduceCtorEq, Bool.false_eq_true] <;>
        first
        | (obtain ⟨x0, hx0, xs, hxs, rfl⟩ := hx
           obtain ⟨y0, hy0, ys, hys, rfl⟩ := hy
           exact hboth xs ys x0 y0 hx0 hy0 hxs hys)
        | (obtain ⟨xs, hxs, rfl⟩ := hx
           obtain ⟨ys, hys, rfl⟩ := hy
           exact hnone xs ys hxs hys)
        | (obtain ⟨x0, hx0, xs, hxs, rfl⟩ := hx
           obtain ⟨ys, hys, rfl⟩ := hy
           exact ⟨false, by rw [pure_bind]; rfl, by simp [SameByFields]⟩)
        | (obtain ⟨xs, hxs, rfl⟩ := hx
           obtain ⟨y0, hy0, ys, hys, rfl⟩ := hy
           exact ⟨false, by rw [pure_bind]; rfl, by simp [SameByFields]⟩)
theorem cEqualAlts_spec : ∀ (alts : CAlts) (i : Nat) (a b : CVal) (x y : AV), meaningAlt alts i a = some x →
    meaningAlt alts i b = some y →
    ∃ r, cEqualAlts alts i a b = pure r ∧ (r = true ↔ SameByAlt (fun a b => asn1RealEqual a b = true) alts i x y)
  | .nil, _, a, b, x, y, hx, hy => by simp [meaningAlt] at hx
  | .cons t _, 0, a, b, x, y, hx, hy => by
    simp only [meaningAlt] at hx hy
    obtain ⟨r, hr, h⟩ := cEqual_spec t a b x y hx hy
    exact ⟨r, by rw [cEqualAlts, hr], by rw [h, SameByAlt]⟩
  | .cons t rest, i + 1, a, b, x, y, hx, hy => by
    simp only [meaningAlt] at hx hy
    obtain ⟨r, hr, h⟩ := cEqualAlts_spec rest i a b x y hx hy
    exact ⟨r, by rw [cEqualAlts, hr], by rw [h, SameByAlt]⟩
end

end Asn1
