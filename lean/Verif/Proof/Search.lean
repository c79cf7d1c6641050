import Verif.Model.Search
import Verif.Proof.BitStrings
import Verif.Proof.Oid
/-! Helper lemmas for Search.lean. -/
namespace Asn1

theorem arrGetI_pure {arr : List Int} {i : Int} (h0 : 0 ≤ i) (h : i.toNat < arr.length) : arrGetI arr i = pure arr[i.toNat] := by
  rw [arrGetI, if_pos h0, tblGet_pure h]

theorem binarySearchLoop_safe (arr : List Int) (value : Int) (fuel : Nat) : ∀ low high : Int, 0 ≤ low → high < arr.length →
    low ≤ high + 1 → high + 1 - low < fuel → ∃ r, binarySearchLoop arr value fuel low high = pure r ∧
      (r = -1 ∨ 0 ≤ r ∧ arr[r.toNat]? = some value) := by
  induction fuel with
  | zero =>
    intro low high h0 h1 hle h2
    omega
  | succ fuel ih =>
    intro low high h0 h1 hle h2
    simp only [binarySearchLoop]
    by_cases h : low ≤ high
    · rw [if_pos h]
      have hd : (high - low).tdiv 2 = (high - low) / 2 := Int.tdiv_eq_ediv_of_nonneg (by omega)
      rw [hd]
      have hm : (low + (high - low) / 2).toNat < arr.length := by omega
      rw [arrGetI_pure (by omega) hm, pure_bind]
      by_cases e : arr[(low + (high - low) / 2).toNat] = value
      · rw [if_pos e]
        exact ⟨_, rfl, Or.inr ⟨by omega, by rw [List.getElem?_eq_getElem hm, e]⟩⟩
      · rw [if_neg e]
        split
        · exact ih _ _ (by omega) h1 (by omega) (by omega)
        · exact ih _ _ h0 (by omega) (by omega) (by omega)
    · rw [if_neg h]
      exact ⟨-1, rfl, Or.inl rfl⟩

theorem binarySearchLoop_finds (arr : List Int) (value : Int) (hs : arr.Pairwise (· < ·)) (fuel : Nat) :
    ∀ low high : Int, 0 ≤ low → high < arr.length → high + 1 - low < fuel →
    ∀ k : Nat, low ≤ k → (k : Int) ≤ high → arr[k]? = some value →
    binarySearchLoop arr value fuel low high = pure (k : Int) := by
  induction fuel with
  | zero => intro low high h0 h1 h2 k; omega
  | succ fuel ih =>
    intro low high h0 h1 h2 k hk1 hk2 hk
    have hkl : k < arr.length := by omega
    rw [List.getElem?_eq_getElem hkl, Option.some.injEq] at hk
    simp only [binarySearchLoop]
    rw [if_pos (by omega)]
    have hd : (high - low).tdiv 2 = (high - low) / 2 := Int.tdiv_eq_ediv_of_nonneg (by omega)
    rw [hd]
    have hm : (low + (high - low) / 2).toNat < arr.length := by omega
    rw [arrGetI_pure (by omega) hm, pure_bind]
    have inc := List.pairwise_iff_getElem.1 hs
    have hk' : arr[k]? = some value := by rw [List.getElem?_eq_getElem hkl, hk]
    rcases Nat.lt_trichotomy (low + (high - low) / 2).toNat k with hlt | heq | hgt
    · have := inc _ _ hm hkl hlt
      rw [if_neg (by omega), if_pos (by omega)]
      exact ih _ _ (by omega) h1 (by omega) k (by omega) hk2 hk'
    · have e : arr[(low + (high - low) / 2).toNat] = value := by simp only [heq]; exact hk
      rw [if_pos e]
      congr 1; omega
    · have := inc _ _ hkl hm hgt
      rw [if_neg (by omega), if_neg (by omega)]
      exact ih _ _ h0 (by omega) (by omega) k hk1 (by omega) hk'

theorem linearSearchLoop_eq (arr : List Int) (value : Int) (n : Nat) : ∀ i, i + n = arr.length →
    ∃ r, linearSearchLoop arr value n i = pure r ∧
      (r = -1 ∧ (∀ j, i ≤ j → arr[j]? ≠ some value) ∨
       ∃ k : Nat, r = (k : Int) ∧ i ≤ k ∧ arr[k]? = some value ∧ ∀ j, i ≤ j → j < k → arr[j]? ≠ some value) := by
  induction n with
  | zero =>
    intro i h
    refine ⟨-1, rfl, Or.inl ⟨rfl, fun j hj => ?_⟩⟩
    rw [List.getElem?_eq_none (by omega)]; simp
  | succ n ih =>
    intro i h
    have hi : i < arr.length := by omega
    simp only [linearSearchLoop]
    rw [tblGet_pure hi, pure_bind]
    by_cases e : arr[i] = value
    · rw [if_pos e]
      exact ⟨_, rfl, Or.inr ⟨i, rfl, Nat.le_refl _, by rw [List.getElem?_eq_getElem hi, e], fun j h1 h2 => absurd h1 (by omega)⟩⟩
    · rw [if_neg e]
      have hne : arr[i]? ≠ some value := by rw [List.getElem?_eq_getElem hi]; simpa using e
      obtain ⟨r, hr, h' | ⟨k, hk1, hk2, hk3, hk4⟩⟩ := ih (i + 1) (by omega)
      · refine ⟨r, hr, Or.inl ⟨h'.1, fun j hj => ?_⟩⟩
        rcases Nat.lt_or_ge i j with h1 | h1
        · exact h'.2 j h1
        · rw [show j = i by omega]; exact hne
      · refine ⟨r, hr, Or.inr ⟨k, hk1, by omega, hk3, fun j hj hjk => ?_⟩⟩
        rcases Nat.lt_or_ge i j with h1 | h1
        · exact hk4 j h1 hjk
        · rw [show j = i by omega]; exact hne

theorem getCharIndexLoop_eq (set : List Byte) (ch : Byte) (n : Nat) : ∀ i, i + n = set.length →
    ∃ r, getCharIndexLoop ch set n i = pure r ∧
      (r = 0 ∧ (∀ j, i ≤ j → set[j]? ≠ some ch) ∨
       i ≤ r ∧ set[r]? = some ch ∧ ∀ j, i ≤ j → j < r → set[j]? ≠ some ch) := by
  induction n with
  | zero =>
    intro i h
    refine ⟨0, rfl, Or.inl ⟨rfl, fun j hj => ?_⟩⟩
    rw [List.getElem?_eq_none (by omega)]; simp
  | succ n ih =>
    intro i h
    have hi : i < set.length := by omega
    simp only [getCharIndexLoop]
    rw [tblGet_pure hi, pure_bind]
    by_cases e : ch = set[i]
    · rw [if_pos e]
      exact ⟨_, rfl, Or.inr ⟨Nat.le_refl _, by rw [List.getElem?_eq_getElem hi, e], fun j h1 h2 => absurd h1 (by omega)⟩⟩
    · rw [if_neg e]
      have hne : set[i]? ≠ some ch := by rw [List.getElem?_eq_getElem hi]; simpa using fun h => e h.symm
      obtain ⟨r, hr, h' | ⟨hk2, hk3, hk4⟩⟩ := ih (i + 1) (by omega)
      · refine ⟨r, hr, Or.inl ⟨h'.1, fun j hj => ?_⟩⟩
        rcases Nat.lt_or_ge i j with h1 | h1
        · exact h'.2 j h1
        · rw [show j = i by omega]; exact hne
      · refine ⟨r, hr, Or.inr ⟨by omega, hk3, fun j hj hjk => ?_⟩⟩
        rcases Nat.lt_or_ge i j with h1 | h1
        · exact hk4 j h1 hjk
        · rw [show j = i by omega]; exact hne

theorem memEq_pure {a b : List Byte} {n : Nat} (ha : n ≤ a.length) (hb : n ≤ b.length) : memEq a b n = pure (decide (a.take n = b.take n)) := by
  rw [memEq, if_pos ⟨ha, hb⟩]

theorem shift_eq_iff {a b : Byte} {r : Nat} (h0 : 0 < r) (h8 : r < 8) :
    a >>> (8 - r) = b >>> (8 - r) ↔ (byteBits a).take r = (byteBits b).take r := by
  have key : ∀ x : Byte, (byteBits x).take r = bitsMsb r (x >>> (8 - r)).toNat := by
    intro x
    have e : byteBits x = bitsMsb r (x.toNat >>> (8 - r)) ++ bitsMsb (8 - r) x.toNat := by
      rw [← bitsMsb_append, byteBits]
      congr 1; omega
    rw [e, List.take_left' (by simp), BitVec.toNat_ushiftRight]
  rw [key, key]
  constructor
  · intro h; rw [h]
  · intro h
    apply BitVec.eq_of_toNat_eq
    refine bitsMsb_inj ?_ ?_ h
    · rw [BitVec.toNat_ushiftRight, Nat.shiftRight_eq_div_pow, Nat.div_lt_iff_lt_mul (Nat.two_pow_pos _), ← Nat.pow_add]
      have := a.isLt
      rwa [show r + (8 - r) = 8 by omega]
    · rw [BitVec.toNat_ushiftRight, Nat.shiftRight_eq_div_pow, Nat.div_lt_iff_lt_mul (Nat.two_pow_pos _), ← Nat.pow_add]
      have := b.isLt
      rwa [show r + (8 - r) = 8 by omega]

theorem bits_take_split {arr : List Byte} {n : Nat} (h : n ≤ 8 * arr.length) (hr : 0 < n % 8) :
    ∃ hlt : n / 8 < arr.length, (bytesBits arr).take n = bytesBits (arr.take (n / 8)) ++ (byteBits arr[n / 8]).take (n % 8) := by
  have hlt : n / 8 < arr.length := by omega
  refine ⟨hlt, ?_⟩
  conv => lhs; rw [← List.take_append_drop (n / 8) arr, bytesBits_append, List.drop_eq_getElem_cons hlt, bytesBits_cons]
  have hl : (bytesBits (arr.take (n / 8))).length = 8 * (n / 8) := by rw [bytesBits_length, List.length_take]; omega
  rw [List.take_append, List.take_of_length_le (by omega), hl, List.take_append_of_le_length (by simp; omega)]
  congr 2; omega

theorem oidEqualLoop_eq (a b : Oid) (n : Nat) : ∀ i, i + n ≤ a.values.length → i + n ≤ b.values.length →
    oidEqualLoop a b n i = pure (decide ((a.values.drop i).take n = (b.values.drop i).take n)) := by
  induction n with
  | zero => intro i _ _; simp [oidEqualLoop]
  | succ n ih =>
    intro i ha hb
    rw [oidEqualLoop, tblGet_pure (by omega), pure_bind, tblGet_pure (by omega), pure_bind,
      List.drop_eq_getElem_cons (by omega : i < a.values.length), List.drop_eq_getElem_cons (by omega : i < b.values.length),
      List.take_succ_cons, List.take_succ_cons]
    by_cases h : a.values[i] = b.values[i]
    · rw [if_pos h, ih _ (by omega) (by omega)]
      simp [h]
    · rw [if_neg h]; simp [h]

end Asn1
