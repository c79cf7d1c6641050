import Verif.Spec.RoundTrip
import Verif.Proof.DecRules
/-! From the bit-level lemmas to round trips. -/
namespace Asn1

theorem EncSt.bit_of {s : BitStream} {bs w : List Bool} (h : EncSt s (bs ++ w)) {i : Nat} (hi : i < w.length) :
    bitAt s.buf (bs.length + i) = w[i]?.getD false := by
  have hr := h.room
  rw [List.length_append] at hr
  rw [h.bits _ (by omega), List.getElem?_append_right (by omega)]
  congr 2; omega

theorem roundTrip_of {ε α : Type} {enc : M ε} {e : ε} {dec : M (Bool × α)} {v : α} {w : List Bool}
    (he : Appends enc e w) (hd : Reads dec (true, v) w) : RoundTrip enc e dec v w.length := by
  intro s bs hs hroom
  obtain ⟨s', hr, hs', hf⟩ := he s bs hs hroom
  have hpos : s'.pos = s.pos + w.length := by
    rw [hs'.pos, hs.pos, List.length_append]
  refine ⟨s', hr, hpos, ?_, hf, ?_⟩
  · intro i hi
    rw [hs.pos] at hi
    rw [hs'.bits i (by rw [hf.count]; omega), hs.bits i (by omega), List.getElem?_append_left hi]
  · intro t hwf htp htc hag
    obtain ⟨rest, hrest⟩ := decSt_exists hwf (by omega)
    have hlen := hrest.pos
    have hsplit : rest = w ++ rest.drop w.length := by
      conv => lhs; rw [← List.take_append_drop w.length rest]
      congr 1
      apply List.ext_getElem?
      intro i
      by_cases hi : i < w.length
      · have h1 := hrest.bits i (by omega)
        have h2 := hag (t.pos + i) (by omega) (by omega)
        have h3 := hs'.bit_of (i := i) hi
        rw [h1, htp, hs.pos, h3] at h2
        rw [List.getElem?_take, if_pos hi]
        rw [List.getElem?_eq_getElem (show i < rest.length by omega), List.getElem?_eq_getElem hi] at h2 ⊢
        simpa using h2
      · rw [List.getElem?_eq_none (by simp; omega), List.getElem?_eq_none (by omega)]
    rw [hsplit] at hrest
    obtain ⟨t', h1, h2, h3, h4⟩ := hd t _ hrest
    refine ⟨t', h1, ?_, h3, h4⟩
    have a := h2.pos
    have b := hrest.pos
    rw [List.length_append] at b
    rw [h4] at a
    omega

theorem rejectsTruncated_of {ε α : Type} {enc : M ε} {e : ε} {dec : M (Bool × α)} {w : List Bool}
    (he : Appends enc e w) (hd : Short dec w) : RejectsTruncated enc e dec w.length := by
  intro s bs hs hroom
  obtain ⟨s', hr, hs', hf⟩ := he s bs hs hroom
  refine ⟨s', hr, ?_⟩
  intro t hwf htp hin hend hsl hag
  obtain ⟨rest, hrest⟩ := decSt_exists hwf hin
  have hlen := hrest.pos
  have hpre : rest <+: w := by
    refine ⟨w.drop rest.length, ?_⟩
    have : rest = w.take rest.length := by
      apply List.ext_getElem?
      intro i
      by_cases hi : i < rest.length
      · have h1 := hrest.bits i hi
        have h2 := hag (t.pos + i) (by omega) (by omega)
        have h3 := hs'.bit_of (i := i) (show i < w.length by omega)
        rw [h1, htp, hs.pos, h3] at h2
        rw [List.getElem?_take, if_pos hi]
        rw [List.getElem?_eq_getElem hi, List.getElem?_eq_getElem (show i < w.length by omega)] at h2 ⊢
        simpa using h2
      · rw [List.getElem?_eq_none (by omega), List.getElem?_eq_none (by simp; omega)]
    conv => lhs; lhs; rw [this]
    exact List.take_append_drop _ _
  obtain ⟨a, t', h1, h2, h3⟩ := hd t rest hrest hsl hpre (fun h => by rw [h] at hlen; omega)
  exact ⟨a, t', h1, h2⟩

end Asn1
