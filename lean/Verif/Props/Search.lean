import Verif.Model.Search
import Verif.Proof.BitStrings
import Verif.Proof.Oid
import Verif.Proof.Search
/-!
# C31: searching, C32: equality
-/
namespace Asn1

/-! ## C31 -/

/-- C31: on a strictly increasing table `binarySearch` ends without touching anything outside the table, returns the
index of the value if it is there and -1 if it is not. -/
theorem C31_binarySearch (arr : List Int) (hs : arr.Pairwise (· < ·)) (value : Int) (s : BitStream) :
    (∀ i : Nat, arr[i]? = some value → binarySearch arr arr.length value s = .ok ((i : Int), s)) ∧
    (value ∉ arr → binarySearch arr arr.length value s = .ok (-1, s)) := by
  constructor
  · intro i hi
    have hlt : i < arr.length := by
      rcases Nat.lt_or_ge i arr.length with h | h
      · exact h
      · rw [List.getElem?_eq_none h] at hi; cases hi
    rw [binarySearch, binarySearchLoop_finds arr value hs _ _ _ (by omega) (by omega) (by omega) i (by omega) (by omega) hi]
    rfl
  · intro hn
    obtain ⟨r, hr, h⟩ := binarySearchLoop_safe arr value (arr.length + 1) 0 ((arr.length : Int) - 1) (by omega) (by omega) (by omega) (by omega)
    rcases h with rfl | ⟨_, h⟩
    · rw [binarySearch, hr]; rfl
    · exact absurd (List.mem_of_getElem? h) hn

/-- The hypothesis is met by a table as generated for an ENUMERATED type. -/
example : [(-5 : Int), 0, 3, 2147483647].Pairwise (· < ·) ∧ [(-5 : Int), 0, 3, 2147483647][2]? = some 3 ∧ (4 : Int) ∉ [-5, 0, 3, 2147483647] := by decide

/-- C31: on any table, sorted or not, `binarySearch` ends, stays inside the table, and a non-negative result is the
index of the value. -/
theorem C31_binarySearch_any_table (arr : List Int) (value : Int) (s : BitStream) :
    ∃ r : Int, binarySearch arr arr.length value s = .ok (r, s) ∧ (r = -1 ∨ 0 ≤ r ∧ arr[r.toNat]? = some value) := by
  obtain ⟨r, hr, h⟩ := binarySearchLoop_safe arr value (arr.length + 1) 0 ((arr.length : Int) - 1) (by omega) (by omega) (by omega) (by omega)
  exact ⟨r, by rw [binarySearch, hr]; rfl, h⟩

/-- The order is needed: a value of an unsorted table can be missed. -/
example : binarySearch [5, 1, 2] 3 5 ⟨[], 0, 0, 0⟩ = .ok (-1, ⟨[], 0, 0, 0⟩) := by decide

/-- C31: on any table `linearSearch` returns the first index of the value, or -1 if it is not there. -/
theorem C31_linearSearch (arr : List Int) (value : Int) (s : BitStream) :
    (∀ i : Nat, arr[i]? = some value → (∀ j, j < i → arr[j]? ≠ some value) →
      linearSearch arr arr.length value s = .ok ((i : Int), s)) ∧
    (value ∉ arr → linearSearch arr arr.length value s = .ok (-1, s)) := by
  obtain ⟨r, hr, h⟩ := linearSearchLoop_eq arr value arr.length 0 (by omega)
  constructor
  · intro i hi hfirst
    rcases h with ⟨_, h⟩ | ⟨k, hk1, _, hk3, hk4⟩
    · exact absurd hi (h i (by omega))
    · have : k = i := by
        rcases Nat.lt_trichotomy k i with h1 | h1 | h1
        · exact absurd hk3 (hfirst k h1)
        · exact h1
        · exact absurd hi (hk4 i (by omega) h1)
      subst this
      rw [linearSearch, hr, hk1]; rfl
  · intro hn
    rcases h with ⟨h1, _⟩ | ⟨k, _, _, hk3, _⟩
    · rw [linearSearch, hr, h1]; rfl
    · exact absurd (List.mem_of_getElem? hk3) hn

example : [(7 : Int), 3, 3, -1][1]? = some 3 ∧ (∀ j, j < 1 → [(7 : Int), 3, 3, -1][j]? ≠ some 3) ∧ (0 : Int) ∉ [7, 3, 3, -1] := by
  refine ⟨rfl, ?_, by decide⟩
  intro j hj
  have : j = 0 := by omega
  subst this; decide

/-- C31, characters: `GetCharIndex` returns an index of the character in its alphabet (0 when it is not there). -/
theorem C31_getCharIndex (set : List Byte) (ch : Byte) (s : BitStream) :
    ∃ r, getCharIndex ch set set.length s = .ok (r, s) ∧
      (ch ∈ set → set[r]? = some ch ∧ ∀ j, j < r → set[j]? ≠ some ch) ∧ (ch ∉ set → r = 0) := by
  obtain ⟨r, hr, h⟩ := getCharIndexLoop_eq set ch set.length 0 (by omega)
  refine ⟨r, by rw [getCharIndex, hr]; rfl, ?_, ?_⟩
  · intro hm
    obtain ⟨i, hi⟩ := List.mem_iff_getElem?.1 hm
    rcases h with ⟨_, h⟩ | ⟨_, h1, h2⟩
    · exact absurd hi (h i (by omega))
    · exact ⟨h1, fun j hj => h2 j (by omega) hj⟩
  · intro hn
    rcases h with ⟨h, _⟩ | ⟨_, h1, _⟩
    · exact h
    · exact absurd (List.mem_of_getElem? h1) hn

example : (0x42#8 : Byte) ∈ [0x41#8, 0x42#8] ∧ (0x43#8 : Byte) ∉ [0x41#8, 0x42#8] := by decide

/-! ## C32 -/

/-- C32: `OctetString_equal` decides equality of the octet lists. -/
theorem C32_octetString (len1 len2 : Nat) (arr1 arr2 : List Byte) (h1 : len1 ≤ arr1.length) (h2 : len2 ≤ arr2.length)
    (s : BitStream) :
    octetStringEqual len1 len2 arr1 arr2 s = .ok (decide (arr1.take len1 = arr2.take len2), s) := by
  unfold octetStringEqual
  by_cases h : len1 = len2
  · subst h
    rw [if_pos rfl, memEq_pure h1 h2]; rfl
  · rw [if_neg h]
    have : arr1.take len1 ≠ arr2.take len2 := by
      intro e
      have := congrArg List.length e
      simp at this; omega
    simp [this]

example : octetStringEqual 2 2 [1#8, 2#8, 9#8] [1#8, 2#8, 7#8] ⟨[], 0, 0, 0⟩ = .ok (true, ⟨[], 0, 0, 0⟩) := by decide

/-- C32: `BitString_equal` decides equality of the bit lists; unused bits of the last byte do not matter. -/
theorem C32_bitString (n1 n2 : Nat) (arr1 arr2 : List Byte) (h1 : n1 ≤ 8 * arr1.length) (h2 : n2 ≤ 8 * arr2.length)
    (s : BitStream) :
    bitStringEqual n1 n2 arr1 arr2 s = .ok (decide ((bytesBits arr1).take n1 = (bytesBits arr2).take n2), s) := by
  unfold bitStringEqual
  by_cases h : n1 = n2
  · subst h
    rw [if_pos rfl]
    have e0 : (if n1 / 8 = 0 then (pure true : M Bool) else memEq arr1 arr2 (n1 / 8)) =
        pure (decide (arr1.take (n1 / 8) = arr2.take (n1 / 8))) := by
      split
      · rename_i h0; rw [h0]; simp
      · rw [memEq_pure (by omega) (by omega)]
    rw [e0, pure_bind]
    by_cases hr : n1 % 8 > 0
    · obtain ⟨l1, e1⟩ := bits_take_split h1 hr
      obtain ⟨l2, e2⟩ := bits_take_split h2 hr
      rw [e1, e2]
      have hiff : bytesBits (arr1.take (n1 / 8)) ++ (byteBits arr1[n1 / 8]).take (n1 % 8) =
          bytesBits (arr2.take (n1 / 8)) ++ (byteBits arr2[n1 / 8]).take (n1 % 8) ↔
          arr1.take (n1 / 8) = arr2.take (n1 / 8) ∧ arr1[n1 / 8] >>> (8 - n1 % 8) = arr2[n1 / 8] >>> (8 - n1 % 8) := by
        rw [shift_eq_iff hr (by omega)]
        constructor
        · intro e
          have := List.append_inj e (by simp; omega)
          exact ⟨bytesBits_inj this.1, this.2⟩
        · rintro ⟨a, b⟩; rw [a, b]
      by_cases hw : arr1.take (n1 / 8) = arr2.take (n1 / 8)
      · simp only [hw, decide_true, if_true, hr]
        rw [tblGet_pure l1, pure_bind, tblGet_pure l2, pure_bind, pure_run]
        congr 2
        rw [decide_eq_decide]
        rw [hw] at hiff
        rw [hiff]
        simp
      · have : ¬ (bytesBits (arr1.take (n1 / 8)) ++ (byteBits arr1[n1 / 8]).take (n1 % 8) =
          bytesBits (arr2.take (n1 / 8)) ++ (byteBits arr2[n1 / 8]).take (n1 % 8)) := fun e => hw (hiff.1 e).1
        simp [hw, this]
    · have t1 : (bytesBits arr1).take n1 = bytesBits (arr1.take (n1 / 8)) := by
        conv => lhs; rw [← List.take_append_drop (n1 / 8) arr1, bytesBits_append]
        rw [List.take_left' (by simp; omega)]
      have t2 : (bytesBits arr2).take n1 = bytesBits (arr2.take (n1 / 8)) := by
        conv => lhs; rw [← List.take_append_drop (n1 / 8) arr2, bytesBits_append]
        rw [List.take_left' (by simp; omega)]
      rw [t1, t2]
      by_cases hw : arr1.take (n1 / 8) = arr2.take (n1 / 8)
      · simp [hw, hr]
      · have : ¬ bytesBits (arr1.take (n1 / 8)) = bytesBits (arr2.take (n1 / 8)) := fun e => hw (bytesBits_inj e)
        simp [hw, this]
  · rw [if_neg h]
    have : (bytesBits arr1).take n1 ≠ (bytesBits arr2).take n2 := by
      intro e
      have := congrArg List.length e
      simp at this; omega
    simp [this]

example : bitStringEqual 11 11 [0xAB#8, 0xE0#8] [0xAB#8, 0xFF#8] ⟨[], 0, 0, 0⟩ = .ok (true, ⟨[], 0, 0, 0⟩) := by decide
example : bitStringEqual 12 12 [0xAB#8, 0xE0#8] [0xAB#8, 0xFF#8] ⟨[], 0, 0, 0⟩ = .ok (false, ⟨[], 0, 0, 0⟩) := by decide

/-- C32: `ObjectIdentifier_equal` decides equality of the component lists. -/
theorem C32_objectIdentifier (a b : Oid) (ha : a.values.length = 20) (hb : b.values.length = 20) (hna : a.nCount ≤ 20)
    (hnb : b.nCount ≤ 20) (s : BitStream) :
    oidEqual a b s = .ok (decide (a.values.take a.nCount = b.values.take b.nCount), s) := by
  unfold oidEqual
  by_cases h : a.nCount = b.nCount
  · rw [if_pos ⟨h, hna⟩, oidEqualLoop_eq _ _ _ _ (by omega) (by omega), List.drop_zero, List.drop_zero, h]; rfl
  · rw [if_neg (fun e => h e.1)]
    have : a.values.take a.nCount ≠ b.values.take b.nCount := by
      intro e
      have := congrArg List.length e
      simp at this; omega
    simp [this]

example : ∃ a b : Oid, a.values.length = 20 ∧ b.values.length = 20 ∧ a.nCount ≤ 20 ∧ b.nCount ≤ 20 ∧ a ≠ b ∧
    oidEqual a b ⟨[], 0, 0, 0⟩ = .ok (true, ⟨[], 0, 0, 0⟩) :=
  ⟨⟨2, [1#64, 3#64] ++ List.replicate 18 0#64⟩, ⟨2, [1#64, 3#64] ++ List.replicate 18 7#64⟩, rfl, rfl, by decide, by decide, by decide, by decide⟩

end Asn1
