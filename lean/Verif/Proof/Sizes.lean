import Verif.Spec.Sizes
import Verif.Proof.Oid
import Verif.Proof.GenCode
/-!
# Proofs about announced sizes
-/
namespace Asn1

theorem numBits_eq {a : Int} (h : a < 2 ^ 100) : numBits a = bitLen a.toNat := by
  unfold numBits
  split
  · rename_i hp
    have hle := bitLen_le_iff a.toNat
    have h100 : bitLen a.toNat ≤ 100 := (hle 100).2 (by omega)
    have h1 : 1 ≤ bitLen a.toNat := by
      rcases Nat.eq_zero_or_pos (bitLen a.toNat) with h | h
      · rw [bitLen_eq_zero] at h; omega
      · exact h
    have key : ((List.range 100).map (· + 1)).find? (fun i => decide (a ≤ 2 ^ i - 1)) = some (bitLen a.toNat) := by
      rw [List.find?_eq_some_iff_getElem]
      have hp2 : ∀ i : Nat, (a ≤ 2 ^ i - 1) ↔ a.toNat < 2 ^ i := by
        intro i
        have : ((2 : Int) ^ i) = ((2 ^ i : Nat) : Int) := by simp
        rw [this]; omega
      refine ⟨?_, bitLen a.toNat - 1, by simp; omega, by simp; omega, ?_⟩
      · rw [decide_eq_true_eq, hp2]; exact (hle _).1 (Nat.le_refl _)
      · intro j hj
        simp only [List.getElem_map, List.getElem_range, Bool.not_eq_true', decide_eq_false_iff_not]
        rw [hp2]
        intro hc
        have := (hle (j + 1)).2 hc
        omega
    rw [key]; rfl
  · rename_i hp
    have : a.toNat = 0 := by omega
    rw [this]; rfl

theorem constrainedCode_length (lo hi v : Int) : (constrainedCode lo hi v).length = bitLen (hi - lo).toNat := by
  simp [constrainedCode]

theorem flatten_length_le {l : List (List Bool)} {k : Nat} (h : ∀ x ∈ l, x.length ≤ k) :
    l.flatten.length ≤ l.length * k := by
  induction l with
  | nil => simp
  | cons x l ih =>
    have h1 := h x List.mem_cons_self
    have h2 := ih (fun y hy => h y (List.mem_cons_of_mem _ hy))
    simp only [List.flatten_cons, List.length_append, List.length_cons, Nat.add_mul, Nat.one_mul]
    omega

theorem flatten_length_ge {l : List (List Bool)} {k : Nat} (h : ∀ x ∈ l, k ≤ x.length) :
    l.length * k ≤ l.flatten.length := by
  induction l with
  | nil => simp
  | cons x l ih =>
    have h1 := h x List.mem_cons_self
    have h2 := ih (fun y hy => h y (List.mem_cons_of_mem _ hy))
    simp only [List.flatten_cons, List.length_append, List.length_cons, Nat.add_mul, Nat.one_mul]
    omega

theorem flatten_split (l : List (List Bool)) (n : Nat) :
    l.flatten.length = (l.take n).flatten.length + (l.drop n).flatten.length := by
  conv => lhs; rw [← List.take_append_drop n l]
  rw [List.flatten_append, List.length_append]

theorem fragmentedCode_length (l : List (List Bool)) :
    l.flatten.length + 8 ≤ (fragmentedCode l).length ∧
    (fragmentedCode l).length ≤
      l.flatten.length + 8 * (l.length / 65536 + if l.length % 65536 < 16384 then 2 else 3) := by
  rw [fragmentedCode]
  split
  · simp only [List.length_append, List.length_cons, bitsMsb_length]
    split <;> omega
  · split
    · simp only [List.length_append, List.length_cons, List.length_nil, bitsMsb_length]
      split <;> omega
    · rename_i h1 h2
      have ih := fragmentedCode_length (l.drop (min 4 (l.length / 16384) * 16384))
      have hs := flatten_split l (min 4 (l.length / 16384) * 16384)
      generalize hm : min 4 (l.length / 16384) = m at *
      simp only [List.length_append, List.length_cons, List.length_nil, bitsMsb_length]
      rw [List.length_drop] at ih
      refine ⟨by omega, ?_⟩
      have ih := ih.2
      split at ih <;> split <;> omega
termination_by l.length
decreasing_by
  simp only [List.length_drop]
  omega

theorem sizedCode_le {lo hi k : Nat} {items : List (List Bool)} (hlo : lo ≤ items.length) (hhi : items.length ≤ hi)
    (h32 : hi < 2 ^ 32) (hk : ∀ x ∈ items, x.length ≤ k) :
    (sizedCodeGen false lo hi items).length ≤ sizeableMax lo hi k := by
  have hf := flatten_length_le hk
  have hm : items.length * k ≤ hi * k := Nat.mul_le_mul_right k hhi
  have hb : numBits ((hi : Int) - lo) = bitLen (hi - lo) := by
    rw [numBits_eq (by omega)]; congr 1; omega
  have h1 : (sizedCode lo hi items).length ≤ sizeableMax lo hi k := by
    unfold sizedCode sizeableMax
    split
    · rename_i h
      rw [List.length_append, constrainedCode_length]
      have e : ((hi : Int) - lo).toNat = hi - lo := by omega
      rw [e, hb]
      split
      · rename_i h2
        have : bitLen (hi - lo) = 0 := by rw [bitLen_eq_zero]; omega
        omega
      · rw [if_pos (by omega)]; omega
    · rename_i h
      rw [if_neg (by omega), if_neg (by omega)]
      have := (fragmentedCode_length items).2
      have hd : items.length / 65536 ≤ hi / 65536 := Nat.div_le_div_right hhi
      split at this <;> omega
  unfold sizedCodeGen
  split
  · rw [List.length_take]; omega
  · exact h1

theorem sizedCode_ge {lo hi k : Nat} {items : List (List Bool)} (hlo : lo ≤ items.length) (hhi : items.length ≤ hi)
    (h32 : hi < 2 ^ 32) (hn : NarrowSize lo hi) (hk : ∀ x ∈ items, k ≤ x.length) :
    sizeableMin lo hi k ≤ (sizedCodeGen false lo hi items).length := by
  have hf := flatten_length_ge hk
  have hm : lo * k ≤ items.length * k := Nat.mul_le_mul_right k hlo
  have hb : numBits ((hi : Int) - lo) = bitLen (hi - lo) := by
    rw [numBits_eq (by omega)]; congr 1; omega
  unfold sizeableMin
  rw [hb]
  by_cases h : hi < 65536
  · have e1 : sizedCodeGen false lo hi items = constrainedCode lo hi items.length ++ items.flatten := by
      unfold sizedCodeGen sizedCode
      have : decide (65536 ≤ hi) = false := decide_eq_false (by omega)
      rw [this, if_neg (by simp), if_pos h]
    rw [e1, List.length_append, constrainedCode_length]
    have e : ((hi : Int) - lo).toNat = hi - lo := by omega
    rw [e]
    split
    · omega
    · split <;> omega
  · have hnw : hi - lo < 256 := by rcases hn with hn | hn <;> omega
    have hfl := (fragmentedCode_length items).1
    have e1 : sizedCode lo hi items = fragmentedCode items := by unfold sizedCode; rw [if_neg h]
    rw [if_neg (by omega), if_neg (by omega)]
    have hb8 : bitLen (hi - lo) ≤ 8 := (bitLen_le_iff _ _).2 (by omega)
    unfold sizedCodeGen
    rw [e1]
    split
    · rename_i hc
      simp only [Bool.not_false, Bool.true_and, Bool.and_eq_true, decide_eq_true_eq] at hc
      have : bitLen (hi - lo) = 0 := by rw [bitLen_eq_zero]; omega
      rw [List.length_take]; omega
    · omega

theorem lengthPrefixedNat_length (n : Nat) : (lengthPrefixedNat n).length = 8 + 8 * octetsNat n := by
  simp [lengthPrefixedNat]

theorem lengthPrefixedInt_length (v : Int) : (lengthPrefixedInt v).length = 8 + 8 * octetsInt v := by
  simp [lengthPrefixedInt]

theorem octetsNat_le {n : Nat} (h : n < 2 ^ 64) : octetsNat n ≤ 8 := by
  have := (bitLen_le_iff n 64).2 h
  unfold octetsNat; omega

theorem octetsInt_le {v : Int} (h1 : -(2 ^ 63) ≤ v) (h2 : v < 2 ^ 63) : octetsInt v ≤ 8 := by
  unfold octetsInt
  have := (bitLen_le_iff (if 0 ≤ v then v.toNat else (-v - 1).toNat) 63).2 (by split <;> omega)
  omega

theorem intCode_bounds {w : Nat} {ext : Bool} {r : Rng} {v : Int} (hok : r.ok w ext) (hv : r.contains v)
    (h64 : r.holds64 ext v) : intMinBits r ≤ (intCode r v).length ∧ (intCode r v).length ≤ intMaxBits r := by
  cases r with
  | concrete a b =>
    simp only [intCode, constrainedCode_length, intMinBits, intMaxBits]
    have : b - a < 2 ^ 100 := by
      simp only [Rng.ok] at hok
      obtain ⟨_, hok⟩ := hok
      split at hok
      · rcases hok with ⟨hw, hb⟩
        rcases hw with rfl | rfl | rfl | rfl <;> omega
      · omega
    rw [numBits_eq this]
    exact ⟨Nat.le_refl _, Nat.le_refl _⟩
  | posInf a =>
    simp only [intCode, lengthPrefixedNat_length, intMinBits, intMaxBits]
    have : octetsNat (v - a).toNat ≤ 8 := by
      apply octetsNat_le
      simp only [Rng.holds64, Rng.contains] at *
      split at h64 <;> omega
    omega
  | negInf b =>
    simp only [intCode, lengthPrefixedInt_length, intMinBits, intMaxBits]
    have : octetsInt v ≤ 8 := by
      simp only [Rng.holds64] at h64
      exact octetsInt_le (by omega) (by omega)
    omega
  | full =>
    simp only [intCode, lengthPrefixedInt_length, intMinBits, intMaxBits]
    have : octetsInt v ≤ 8 := by
      simp only [Rng.holds64] at h64
      exact octetsInt_le (by omega) (by omega)
    omega

theorem oidCode_bounds {l : List Nat} (h1 : 1 ≤ l.length) (h2 : l.length ≤ 20) (h : ∀ x ∈ l, x < 2 ^ 64) :
    16 ≤ (oidCode (oidOctets l)).length ∧ (oidCode (oidOctets l)).length ≤ 16 * 8 * 20 + 16 := by
  have hle := oidOctets_length h
  have hge : 1 ≤ (oidOctets l).length := by
    cases l with
    | nil => simp at h1
    | cons a l => rw [oidOctets_cons, List.length_append]; have := subidOctets_pos a; omega
  have hfm : ∀ l : List Nat, (l.flatMap (bitsMsb 8)).length = 8 * l.length := by
    intro l
    induction l with
    | nil => rfl
    | cons a l ih => rw [List.flatMap_cons, List.length_append, bitsMsb_length, ih, List.length_cons]; omega
  unfold oidCode
  rw [List.length_append, hfm]
  split <;> simp only [List.length_cons, bitsMsb_length] <;> omega

theorem choiceBits_eq {n : Nat} (h : n < 2 ^ 31) : choiceBits n = bitLen ((n : Int) - 1).toNat := by
  unfold choiceBits
  split
  · exact numBits_eq (by omega)
  · have : ((n : Int) - 1).toNat = 0 := by omega
    rw [this]; rfl

theorem presence_length : ∀ (fs : Fields) (vs : List (Bool × Val)), ValidFields fs vs →
    (presenceCode fs vs).length = maskBits fs
  | .nil, [], _ => rfl
  | .cons .mandatory _ rest, _ :: vs, h => presence_length rest vs h.2
  | .cons .optional _ rest, _ :: vs, h => by
    simp only [presenceCode, maskBits, List.length_cons, presence_length rest vs h.2]; omega
  | .cons (.default _) _ rest, _ :: vs, h => by
    simp only [presenceCode, maskBits, List.length_cons, presence_length rest vs h.2]; omega
  | .cons .absent _ rest, _ :: vs, h => by
    simp only [presenceCode, maskBits, List.length_cons, presence_length rest vs h.2]; omega
  | .cons .present _ rest, _ :: vs, h => by
    simp only [presenceCode, maskBits, List.length_cons, presence_length rest vs h.2]; omega
  | .nil, _ :: _, h => by simp [ValidFields] at h
  | .cons o _ _, [], h => by cases o <;> simp [ValidFields] at h

theorem bits_items_length {n : Nat} {arr : List Byte} {w : List Bool} (hw : w.length = n) (hp : Packed w arr) :
    (((bytesBits arr).take n).map fun b => [b]).length = n := by
  rw [List.length_map, List.length_take, hp.2, List.length_append]; omega

theorem charCode_length {alphabet : List Byte} (h : alphabet.length < 2 ^ 31) (c : Byte) :
    (charCode alphabet c).length = numBits ((alphabet.length : Int) - 1) := by
  unfold charCode
  rw [constrainedCode_length, numBits_eq (by omega)]
  congr 2; omega

theorem oid_bounds {o : Oid} {a b : U64} {l : List U64} (h : o.holdsComps (a :: b :: l)) (ha : a.toNat ≤ 2)
    (hb : b.toNat ≤ 39) (hl : l.length ≤ 18) :
    16 ≤ (oidCode (oidOctets (oidSubids ((o.values.take o.nCount).map BitVec.toNat)))).length ∧
    (oidCode (oidOctets (oidSubids ((o.values.take o.nCount).map BitVec.toNat)))).length ≤ 16 * 8 * 20 + 16 := by
  have e : (o.values.take o.nCount).map BitVec.toNat = (a :: b :: l).map BitVec.toNat := by
    rw [h]; dsimp only; rw [List.take_left]
  rw [e]
  simp only [List.map_cons, oidSubids]
  apply oidCode_bounds
  · simp
  · simp; omega
  · intro x hx
    rcases List.mem_cons.1 hx with rfl | hx
    · omega
    · obtain ⟨y, _, rfl⟩ := List.mem_map.1 hx
      exact y.isLt

theorem relOid_bounds {o : Oid} {l : List U64} (h : o.holdsComps l) (h1 : 1 ≤ l.length) (h2 : l.length ≤ 20) :
    16 ≤ (oidCode (oidOctets ((o.values.take o.nCount).map BitVec.toNat))).length ∧
    (oidCode (oidOctets ((o.values.take o.nCount).map BitVec.toNat))).length ≤ 16 * 8 * 20 + 16 := by
  have e : (o.values.take o.nCount).map BitVec.toNat = l.map BitVec.toNat := by
    rw [h]; dsimp only; rw [List.take_left]
  rw [e]
  apply oidCode_bounds
  · simpa using h1
  · simpa using h2
  · intro x hx
    obtain ⟨y, _, rfl⟩ := List.mem_map.1 hx
    exact y.isLt

mutual
theorem code_le : ∀ (t : Ty) (v : Val), Ok t → PlainSizes t → Valid t v → (code false t v).length ≤ maxBits t
  | .int w r, v, hok, _, hv => by
    cases v <;> simp only [Valid] at hv
    simp only [Ok] at hok
    simp only [code, maxBits]
    exact (intCode_bounds hok hv.1 hv.2).2
  | .intExt root inRoot more, v, hok, _, hv => by
    cases v <;> simp only [Valid] at hv
    simp only [Ok] at hok
    simp only [code, maxBits, intExtCode]
    rcases hv with ⟨h1, h2⟩ | ⟨h1, _, h3, h4⟩
    · rw [if_pos h1, List.length_cons]
      have hb := (intCode_bounds hok.1 (hok.2 _ h1) h2).2
      have : intMaxBits root ≤ intMaxBits .full := by
        cases root with
        | concrete a b =>
          have hok := hok.1
          simp only [Rng.ok] at hok
          obtain ⟨_, hok⟩ := hok
          simp only [Bool.true_eq_false, and_false, if_false] at hok
          simp only [intMaxBits]
          rw [numBits_eq (by omega)]
          exact (bitLen_le_iff _ _).2 (by omega)
        | _ => simp [intMaxBits]
      omega
    · rw [if_neg (by simp [h1]), List.length_cons, lengthPrefixedInt_length]
      have := octetsInt_le (v := _) (by omega) h4
      simp only [intMaxBits]
      omega
  | .bool, v, _, _, hv => by
    cases v <;> simp only [Valid] at hv
    simp [code, maxBits]
  | .null, v, _, _, hv => by
    cases v <;> simp only [Valid] at hv
    simp [code, maxBits]
  | .enum items valid table, v, hok, _, hv => by
    cases v <;> simp only [Valid] at hv
    simp only [Ok] at hok
    simp only [code, maxBits, enumCode, constrainedCode_length]
    rw [numBits_eq (by omega)]
    simp
  | .octets lo hi, v, hok, hp, hv => by
    cases v <;> simp only [Valid] at hv
    simp only [PlainSizes] at hp
    simp only [code, maxBits]
    refine sizedCode_le (by simpa using hv.1) (by simpa using hv.2) hp ?_
    intro x hx
    obtain ⟨b, _, rfl⟩ := List.mem_map.1 hx
    simp [byteBits]
  | .bits lo hi alo ahi, v, hok, hp, hv => by
    cases v <;> simp only [Valid] at hv
    simp only [PlainSizes] at hp
    obtain ⟨hp, rfl, rfl⟩ := hp
    obtain ⟨h1, h2, _, _, w, hw, hpk⟩ := hv
    simp only [code, maxBits]
    have hl := bits_items_length hw hpk
    refine sizedCode_le (by omega) (by omega) hp ?_
    intro x hx
    obtain ⟨b, _, rfl⟩ := List.mem_map.1 hx
    simp
  | .str alphabet lo hi, v, hok, hp, hv => by
    cases v <;> simp only [Valid] at hv
    simp only [PlainSizes] at hp
    simp only [Ok] at hok
    simp only [code, maxBits]
    refine sizedCode_le (by simpa using hv.1) (by simpa using hv.2.1) hp ?_
    intro x hx
    obtain ⟨b, _, rfl⟩ := List.mem_map.1 hx
    rw [charCode_length hok.2.1]
  | .oid, v, _, _, hv => by
    cases v <;> simp only [Valid] at hv
    obtain ⟨a, b, l, h1, h2, h3, h4⟩ := hv
    exact (oid_bounds h1 h2 h3 h4).2
  | .relOid, v, _, _, hv => by
    cases v <;> simp only [Valid] at hv
    obtain ⟨l, h1, h2, h3⟩ := hv
    exact (relOid_bounds h1 h2 h3).2
  | .real _, v, _, _, hv => by
    cases v <;> simp only [Valid] at hv
    simp only [code, maxBits]
    exact (realCode_bounds hv.2).2
  | .seq fs, v, hok, hp, hv => by
    cases v <;> simp only [Valid] at hv
    simp only [PlainSizes] at hp
    simp only [Ok] at hok
    simp only [code, maxBits, List.length_append, presence_length fs _ hv]
    have := fieldsCode_le fs _ hok hp hv
    omega
  | .seqOf lo hi t, v, hok, hp, hv => by
    cases v <;> simp only [Valid] at hv
    simp only [PlainSizes] at hp
    simp only [Ok] at hok
    simp only [code, maxBits]
    refine sizedCode_le (by simpa using hv.1) (by simpa using hv.2.1) hp.1 ?_
    intro x hx
    obtain ⟨y, hy, rfl⟩ := List.mem_map.1 hx
    exact code_le t y hok.2 hp.2 (hv.2.2 y hy)
  | .choice alts, v, hok, hp, hv => by
    cases v <;> simp only [Valid] at hv
    simp only [PlainSizes] at hp
    simp only [Ok] at hok
    simp only [code, maxBits, List.length_append, constrainedCode_length]
    rw [choiceBits_eq hok.2.1]
    have := altCode_le alts _ _ hok.2.2 hp hv
    simp only [Int.sub_zero]
    omega
  | .ref t, v, hok, hp, hv => by
    simp only [Valid] at hv
    simp only [PlainSizes] at hp
    simp only [Ok] at hok
    simp only [code, maxBits]
    exact code_le t v hok hp hv
theorem fieldsCode_le : ∀ (fs : Fields) (vs : List (Bool × Val)), OkFields fs → PlainSizesFields fs → ValidFields fs vs →
    (fieldsCode false fs vs).length ≤ maxFields fs
  | .nil, [], _, _, _ => by simp [fieldsCode]
  | .cons o t rest, (e, v) :: vs, hok, hp, hv => by
    simp only [OkFields] at hok
    simp only [PlainSizesFields] at hp
    simp only [fieldsCode, maxFields, List.length_append]
    have h1 : (e = true → Valid t v) ∧ ValidFields rest vs := by
      cases o <;> simp only [ValidFields] at hv <;> refine ⟨fun he => ?_, hv.2⟩ <;> simp_all
    have h2 := fieldsCode_le rest vs hok.2 hp.2 h1.2
    have h3 : (if e = true then code false t v else []).length ≤ maxBits t := by
      cases e
      · simp
      · exact code_le t v hok.1 hp.1 (h1.1 rfl)
    omega
  | .nil, _ :: _, _, _, h => by simp [ValidFields] at h
  | .cons o _ _, [], _, _, h => by cases o <;> simp [ValidFields] at h
theorem altCode_le : ∀ (alts : Alts) (i : Nat) (v : Val), OkAlts alts → PlainSizesAlts alts → ValidAlt alts i v →
    (altCode false alts i v).length ≤ maxAlts alts
  | .nil, _, _, _, _, h => by simp [ValidAlt] at h
  | .cons t rest, 0, v, hok, hp, hv => by
    simp only [OkAlts] at hok
    simp only [PlainSizesAlts] at hp
    simp only [ValidAlt] at hv
    simp only [altCode, maxAlts]
    have := code_le t v hok.1 hp.1 hv
    omega
  | .cons t rest, i + 1, v, hok, hp, hv => by
    simp only [OkAlts] at hok
    simp only [PlainSizesAlts] at hp
    simp only [ValidAlt] at hv
    simp only [altCode, maxAlts]
    have := altCode_le rest i v hok.2 hp.2 hv
    omega
end

mutual
theorem code_ge : ∀ (t : Ty) (v : Val), Ok t → PlainSizes t → PlainMin t → Valid t v →
    minBits t ≤ (code false t v).length
  | .int w r, v, hok, _, _, hv => by
    cases v <;> simp only [Valid] at hv
    simp only [Ok] at hok
    simp only [code, minBits]
    exact (intCode_bounds hok hv.1 hv.2).1
  | .intExt root inRoot more, v, hok, _, hm, hv => by
    cases v <;> simp only [Valid] at hv
    simp only [Ok] at hok
    simp only [PlainMin] at hm
    simp only [code, minBits, intExtCode]
    rcases hv with ⟨h1, h2⟩ | ⟨h1, _, h3, h4⟩
    · rw [if_pos h1, List.length_cons]
      have hb := (intCode_bounds hok.1 (hok.2 _ h1) h2).1
      have : intMinBits root = intMinBits .full := by
        cases root with
        | concrete a b => exact absurd rfl (hm a b)
        | _ => simp [intMinBits]
      omega
    · rw [if_neg (by simp [h1]), List.length_cons, lengthPrefixedInt_length]
      simp only [intMinBits]
      omega
  | .bool, v, _, _, _, hv => by
    cases v <;> simp only [Valid] at hv
    simp [code, minBits]
  | .null, v, _, _, _, hv => by
    cases v <;> simp only [Valid] at hv
    simp [code, minBits]
  | .enum items valid table, v, hok, _, _, hv => by
    cases v <;> simp only [Valid] at hv
    simp only [Ok] at hok
    simp only [code, minBits, enumCode, constrainedCode_length]
    rw [numBits_eq (by omega)]
    simp
  | .octets lo hi, v, hok, hp, hm, hv => by
    cases v <;> simp only [Valid] at hv
    simp only [PlainSizes] at hp
    simp only [PlainMin] at hm
    simp only [code, minBits]
    refine sizedCode_ge (by simpa using hv.1) (by simpa using hv.2) hp hm ?_
    intro x hx
    obtain ⟨b, _, rfl⟩ := List.mem_map.1 hx
    simp [byteBits]
  | .bits lo hi alo ahi, v, hok, hp, hm, hv => by
    cases v <;> simp only [Valid] at hv
    simp only [PlainSizes] at hp
    simp only [PlainMin] at hm
    obtain ⟨h1, h2, _, _, w, hw, hpk⟩ := hv
    simp only [code, minBits]
    have hl := bits_items_length hw hpk
    refine sizedCode_ge (by omega) (by omega) hp.1 hm ?_
    intro x hx
    obtain ⟨b, _, rfl⟩ := List.mem_map.1 hx
    simp
  | .str alphabet lo hi, v, hok, hp, hm, hv => by
    cases v <;> simp only [Valid] at hv
    simp only [PlainSizes] at hp
    simp only [PlainMin] at hm
    simp only [Ok] at hok
    simp only [code, minBits]
    refine sizedCode_ge (by simpa using hv.1) (by simpa using hv.2.1) hp hm ?_
    intro x hx
    obtain ⟨b, _, rfl⟩ := List.mem_map.1 hx
    rw [charCode_length hok.2.1]
  | .oid, v, _, _, _, hv => by
    cases v <;> simp only [Valid] at hv
    obtain ⟨a, b, l, h1, h2, h3, h4⟩ := hv
    exact (oid_bounds h1 h2 h3 h4).1
  | .relOid, v, _, _, _, hv => by
    cases v <;> simp only [Valid] at hv
    obtain ⟨l, h1, h2, h3⟩ := hv
    exact (relOid_bounds h1 h2 h3).1
  | .real _, v, _, _, _, hv => by
    cases v <;> simp only [Valid] at hv
    simp only [code, minBits]
    exact (realCode_bounds hv.2).1
  | .seq fs, v, hok, hp, hm, hv => by
    cases v <;> simp only [Valid] at hv
    simp only [PlainSizes] at hp
    simp only [PlainMin] at hm
    simp only [Ok] at hok
    simp only [code, minBits, List.length_append, presence_length fs _ hv]
    have := fieldsCode_ge fs _ hok hp hm hv
    omega
  | .seqOf lo hi t, v, hok, hp, hm, hv => by
    cases v <;> simp only [Valid] at hv
    simp only [PlainSizes] at hp
    simp only [PlainMin] at hm
    simp only [Ok] at hok
    simp only [code, minBits]
    refine sizedCode_ge (by simpa using hv.1) (by simpa using hv.2.1) hp.1 hm.1 ?_
    intro x hx
    obtain ⟨y, hy, rfl⟩ := List.mem_map.1 hx
    exact code_ge t y hok.2 hp.2 hm.2 (hv.2.2 y hy)
  | .choice alts, v, hok, hp, hm, hv => by
    cases v <;> simp only [Valid] at hv
    simp only [PlainSizes] at hp
    simp only [PlainMin] at hm
    simp only [Ok] at hok
    simp only [code, minBits, List.length_append, constrainedCode_length]
    rw [choiceBits_eq hok.2.1]
    have := altCode_ge alts _ _ hok.2.2 hp hm hv
    simp only [Int.sub_zero]
    omega
  | .ref t, v, hok, hp, hm, hv => by
    simp only [Valid] at hv
    simp only [PlainSizes] at hp
    simp only [PlainMin] at hm
    simp only [Ok] at hok
    simp only [code, minBits]
    exact code_ge t v hok hp hm hv
theorem fieldsCode_ge : ∀ (fs : Fields) (vs : List (Bool × Val)), OkFields fs → PlainSizesFields fs → PlainMinFields fs →
    ValidFields fs vs → minFields fs ≤ (fieldsCode false fs vs).length
  | .nil, [], _, _, _, _ => by simp [minFields]
  | .cons o t rest, (e, v) :: vs, hok, hp, hm, hv => by
    simp only [OkFields] at hok
    simp only [PlainSizesFields] at hp
    simp only [PlainMinFields] at hm
    simp only [fieldsCode, List.length_append]
    cases o with
    | mandatory =>
      simp only [ValidFields] at hv
      obtain ⟨⟨rfl, hv1⟩, hv2⟩ := hv
      have h2 := fieldsCode_ge rest vs hok.2 hp.2 hm.2 hv2
      have h3 := code_ge t v hok.1 hp.1 hm.1 hv1
      simp only [minFields, if_true]
      omega
    | optional =>
      simp only [ValidFields] at hv
      have h2 := fieldsCode_ge rest vs hok.2 hp.2 hm.2 hv.2
      simp only [minFields]; omega
    | default d =>
      simp only [ValidFields] at hv
      have h2 := fieldsCode_ge rest vs hok.2 hp.2 hm.2 hv.2
      simp only [minFields]; omega
    | absent =>
      simp only [ValidFields] at hv
      have h2 := fieldsCode_ge rest vs hok.2 hp.2 hm.2 hv.2
      simp only [minFields]; omega
    | present =>
      simp only [ValidFields] at hv
      have h2 := fieldsCode_ge rest vs hok.2 hp.2 hm.2 hv.2
      simp only [minFields]; omega
  | .nil, _ :: _, _, _, _, h => by simp [ValidFields] at h
  | .cons o _ _, [], _, _, _, h => by cases o <;> simp [ValidFields] at h
theorem altCode_ge : ∀ (alts : Alts) (i : Nat) (v : Val), OkAlts alts → PlainSizesAlts alts → PlainMinAlts alts →
    ValidAlt alts i v → minAlts alts ≤ (altCode false alts i v).length
  | .nil, _, _, _, _, _, h => by simp [ValidAlt] at h
  | .cons t rest, 0, v, hok, hp, hm, hv => by
    simp only [OkAlts] at hok
    simp only [PlainSizesAlts] at hp
    simp only [PlainMinAlts] at hm
    simp only [ValidAlt] at hv
    have := code_ge t v hok.1 hp.1 hm.1 hv
    cases rest <;> simp only [altCode, minAlts] <;> omega
  | .cons t rest, i + 1, v, hok, hp, hm, hv => by
    simp only [OkAlts] at hok
    simp only [PlainSizesAlts] at hp
    simp only [PlainMinAlts] at hm
    simp only [ValidAlt] at hv
    have := altCode_ge rest i v hok.2 hp.2 hm.2 hv
    cases rest with
    | nil => simp [ValidAlt] at hv
    | cons t2 r2 => simp only [altCode, minAlts] at *; omega
end

end Asn1
