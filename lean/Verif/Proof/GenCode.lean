import Verif.Proof.GenDec
/-! Unambiguous codes, conformance, several messages in one stream. -/
namespace Asn1

theorem decSt_of_bits (w : List Bool) : ∃ s pad, DecSt s (w ++ pad) := by
  obtain ⟨r, h1, h2⟩ := packed_exists w
  refine ⟨⟨r, r.length, 0, 0⟩, List.replicate (8 * r.length - w.length) false, ⟨by simp, by simp⟩, ?_, ?_⟩
  · simp [BitStream.pos]; omega
  · intro i hi
    rw [← h2]
    simp [BitStream.pos, bytesBits_getD]

theorem reads_unique {α : Type} {f : M α} {a b : α} {w1 w2 r1 r2 : List Bool} (h1 : Reads f a w1) (h2 : Reads f b w2)
    (e : w1 ++ r1 = w2 ++ r2) : a = b ∧ r1 = r2 := by
  obtain ⟨s, pad, hs⟩ := decSt_of_bits (w1 ++ r1)
  obtain ⟨s1, e1, d1, _, _⟩ := h1 s (r1 ++ pad) (by rw [← List.append_assoc]; exact hs)
  obtain ⟨s2, e2, d2, _, _⟩ := h2 s (r2 ++ pad) (by rw [← List.append_assoc, ← e]; exact hs)
  rw [e1] at e2
  simp only [Res.ok.injEq, Prod.mk.injEq] at e2
  obtain ⟨ea, es⟩ := e2
  subst es
  refine ⟨ea, ?_⟩
  have l1 := d1.pos
  have l2 := d2.pos
  simp only [List.length_append] at l1 l2
  apply List.ext_getElem?
  intro i
  by_cases hi : i < r1.length
  · have b1 := d1.bits i (by simp; omega)
    have b2 := d2.bits i (by simp; omega)
    rw [b1, List.getElem?_append_left hi, List.getElem?_append_left (by omega)] at b2
    rw [List.getElem?_eq_getElem hi, List.getElem?_eq_getElem (show i < r2.length by omega)] at b2 ⊢
    simpa using b2
  · rw [List.getElem?_eq_none (by omega), List.getElem?_eq_none (by omega)]

theorem idxOf_sorted : ∀ {l : List Int} {v : Int}, l.Pairwise (· < ·) → v ∈ l → l.idxOf v = l.countP (fun x => decide (x < v))
  | [], v, _, h => by simp at h
  | x :: l, v, hp, h => by
    rw [List.pairwise_cons] at hp
    by_cases e : x = v
    · subst e
      have : l.countP (fun y => decide (y < x)) = 0 := by
        rw [List.countP_eq_zero]
        intro y hy
        have := hp.1 y hy
        simp; omega
      simp [List.idxOf_cons, this]
    · have hm : v ∈ l := by simpa [Ne.symm e] using h
      have := idxOf_sorted hp.2 hm
      have := hp.1 v hm
      rw [List.idxOf_cons, List.countP_cons]
      have e' : (x == v) = false := by simpa using e
      simp [e', this]
      omega

theorem sizedCodeGen_std {lo hi : Nat} (h : ¬ (lo = hi ∧ 65536 ≤ hi ∧ hi % 16384 = 0)) (l : List (List Bool)) :
    sizedCodeGen false lo hi l = sizedCodeGen true lo hi l := by
  unfold sizedCodeGen
  rw [if_neg (by simp; omega), if_neg (by simp)]

mutual
theorem code_std : ∀ (t : Ty) (v : Val), Ok t → Conforming t → Valid t v → code false t v = code true t v
  | .int _ _, v, _, _, _ => by cases v <;> simp only [code]
  | .intExt _ _ _, v, _, _, _ => by cases v <;> simp only [code]
  | .bool, v, _, _, _ => by cases v <;> simp only [code]
  | .null, v, _, _, _ => by cases v <;> simp only [code]
  | .enum items valid table, v, hok, hc, h => by
    cases v <;> simp only [code]
    simp only [Valid] at h
    simp only [Ok] at hok
    simp only [Conforming] at hc
    unfold enumCode
    cases table with
    | some _ => simp
    | none =>
      rw [idxOf_sorted (by simpa using hc) (hok.2.2.1 _ h)]
      simp
  | .octets _ _, v, _, hc, _ => by
    cases v <;> simp only [code]
    simp only [Conforming] at hc
    exact sizedCodeGen_std hc _
  | .bits _ _ _ _, v, _, hc, _ => by
    cases v <;> simp only [code]
    simp only [Conforming] at hc
    exact sizedCodeGen_std hc _
  | .str _ _ _, v, _, hc, _ => by
    cases v <;> simp only [code]
    simp only [Conforming] at hc
    exact sizedCodeGen_std hc _
  | .oid, v, _, _, _ => by cases v <;> simp only [code]
  | .relOid, v, _, _, _ => by cases v <;> simp only [code]
  | .real _, _, _, hc, _ => by simp only [Conforming] at hc
  | .seq fs, v, hok, hc, h => by
    cases v <;> simp only [code]
    simp only [Valid] at h
    simp only [Ok] at hok
    simp only [Conforming] at hc
    rw [fieldsCode_std fs _ hok hc h]
  | .seqOf lo hi t, v, hok, hc, h => by
    cases v <;> simp only [code]
    simp only [Valid] at h
    simp only [Ok] at hok
    simp only [Conforming] at hc
    rw [sizedCodeGen_std hc.1]
    congr 1
    exact List.map_congr_left (fun x hx => code_std t x hok.2 hc.2 (h.2.2 x hx))
  | .choice alts, v, hok, hc, h => by
    cases v <;> simp only [code]
    simp only [Valid] at h
    simp only [Ok] at hok
    simp only [Conforming] at hc
    rw [altCode_std alts _ _ hok.2.2 hc h]
  | .ref t, v, hok, hc, h => by
    simp only [Valid] at h
    simp only [Ok] at hok
    simp only [Conforming] at hc
    simp only [code]
    exact code_std t v hok hc h
theorem fieldsCode_std : ∀ (fs : Fields) (vs : List (Bool × Val)), OkFields fs → ConformingFields fs → ValidFields fs vs →
    fieldsCode false fs vs = fieldsCode true fs vs
  | .nil, [], _, _, _ => by simp only [fieldsCode]
  | .nil, _ :: _, _, _, h => by simp [ValidFields] at h
  | .cons _ _ _, [], _, _, h => by simp [ValidFields] at h
  | .cons o t rest, (e, v) :: vs, hok, hc, h => by
    simp only [OkFields] at hok
    simp only [ConformingFields] at hc
    have hrest : ValidFields rest vs := by cases o <;> simp only [ValidFields] at h <;> exact h.2
    simp only [fieldsCode]
    rw [fieldsCode_std rest vs hok.2 hc.2 hrest]
    cases e with
    | false => simp
    | true =>
      have hv : Valid t v := by
        cases o <;> simp only [ValidFields] at h
        · exact h.1.2
        · simpa using h.1
        · simpa using h.1
        · simp at h
        · exact h.1.2
      rw [code_std t v hok.1 hc.1 hv]
theorem altCode_std : ∀ (alts : Alts) (i : Nat) (v : Val), OkAlts alts → ConformingAlts alts → ValidAlt alts i v →
    altCode false alts i v = altCode true alts i v
  | .nil, _, _, _, _, _ => by simp only [altCode]
  | .cons t _, 0, v, hok, hc, h => by
    simp only [ValidAlt] at h
    simp only [OkAlts] at hok
    simp only [ConformingAlts] at hc
    simp only [altCode]
    exact code_std t v hok.1 hc.1 h
  | .cons _ rest, i + 1, v, hok, hc, h => by
    simp only [ValidAlt] at h
    simp only [OkAlts] at hok
    simp only [ConformingAlts] at hc
    simp only [altCode]
    exact altCode_std rest i v hok.2 hc.2 h
end

/-- The code of a multiple of 16384 items ends with a zero length octet. -/
theorem fragmentedCode_ends (l : List (List Bool)) (h : l.length % 16384 = 0) :
    ∃ w, fragmentedCode l = w ++ List.replicate 8 false := by
  rw [fragmentedCode]
  split
  · have : l = [] := List.length_eq_zero_iff.1 (by omega)
    subst this
    exact ⟨[], rfl⟩
  · split
    · omega
    · obtain ⟨w, hw⟩ := fragmentedCode_ends (l.drop (min 4 (l.length / 16384) * 16384)) (by rw [List.length_drop]; omega)
      rw [hw, ← List.append_assoc]
      exact ⟨_, rfl⟩
termination_by l.length
decreasing_by
  simp only [List.length_drop]
  omega

theorem encodeType_appends {t : Ty} {v : Val} (chk : Bool) (hok : Ok t) (hv : Valid t v) :
    Appends (encodeType t v chk) true (code false t v) := by
  unfold encodeType
  rw [valid_isValid t v hv]
  simp only [Bool.not_true, Bool.and_false, Bool.false_eq_true, if_false]
  exact encTy_appends t v hok hv

end Asn1
