import Verif.Spec.AcnSizes
import Verif.Proof.Sizes
import Verif.Proof.AcnGenTop
/-! The announced ACN sizes bound the encodings. -/
namespace Asn1

theorem printLen_le {v k : Nat} (h : v < 10 ^ k) (hk : 1 ≤ k) : printLen v ≤ k := by
  unfold printLen
  split
  · exact hk
  · exact (decLen_le_iff k v).2 h

theorem aintCode_bounds {w : Nat} {r : Rng} {enc : IntEnc} {x : Int} (h : AIntFits w r enc x) :
    aintMin r enc ≤ (aintCode r enc x).length ∧ (aintCode r enc x).length ≤ aintMax r enc := by
  unfold AIntFits at h
  cases enc with
  | uper =>
    rw [if_pos rfl] at h
    simp only [aintCode, aintMin, aintMax]
    exact intCode_bounds h.1 h.2.1 h.2.2
  | const n => simp only [aintCode, aintMin, aintMax, twosCode]; split <;> simp
  | const8 => simp only [aintCode, aintMin, aintMax, twosCode]; split <;> simp
  | big n => simp only [aintCode, aintMin, aintMax, twosCode]; split <;> simp
  | little n => simp only [aintCode, aintMin, aintMax, littleCode_length]; omega
  | bcd n => simp only [aintCode, aintMin, aintMax, bcdCode_length]; omega
  | bcdNull =>
    rw [if_neg (by simp)] at h
    simp only [aintCode, aintMin, aintMax, bcdCode_length, List.length_append, bitsMsb_length, maxDigits]
    obtain ⟨⟨hw, hc⟩, h0⟩ := h
    simp only [IntEnc.holds] at h0
    cases hu : r.unsigned with
    | true =>
      rw [hu, if_pos rfl] at hc
      have : decLen x.toNat ≤ 20 := (decLen_le_iff 20 _).2 (by rcases hw with rfl | rfl | rfl | rfl <;> omega)
      rw [if_pos rfl]
      omega
    | false =>
      rw [hu, if_neg (by simp)] at hc
      have : decLen x.toNat ≤ 19 := (decLen_le_iff 19 _).2 (by rcases hw with rfl | rfl | rfl | rfl <;> omega)
      rw [if_neg (by simp)]
      omega
  | ascii n =>
    rw [if_neg (by simp)] at h
    simp only [IntEnc.holds] at h
    simp only [aintCode, aintMin, aintMax]
    split
    · simp only [bytesBits_length, digitChars_length]; omega
    · rename_i hu
      have := h.2
      rw [if_neg hu] at this
      simp only [bytesBits_length, digitChars_length, List.length_cons]; omega
  | asciiNull nul =>
    rw [if_neg (by simp)] at h
    obtain ⟨⟨hw, hc⟩, h0⟩ := h
    simp only [aintCode, aintMin, aintMax]
    split
    · rename_i hu
      rw [if_pos hu] at hc
      have : printLen x.toNat ≤ 20 := printLen_le (by rcases hw with rfl | rfl | rfl | rfl <;> omega) (by omega)
      simp only [bytesBits_length, digitChars_length, List.length_append, maxDigits, if_true]; omega
    · rename_i hu
      rw [if_neg hu] at hc
      have : printLen x.natAbs ≤ 19 := printLen_le (by rcases hw with rfl | rfl | rfl | rfl <;> omega) (by omega)
      simp only [bytesBits_length, digitChars_length, List.length_append, List.length_cons, maxDigits, Bool.false_eq_true, if_false]; omega

theorem aboolCode_length {e : BoolEnc} (b : Bool) (h : e.ok) : (aboolCode e b).length = aboolSize e := by
  cases e with
  | uper => rfl
  | onePattern _ tp fp n =>
    simp only [BoolEnc.ok] at h
    simp only [aboolCode, aboolSize, List.length_take, bytesBits_length]
    cases b <;> simp <;> omega
  | twoPatterns tp fp n =>
    simp only [BoolEnc.ok] at h
    simp only [aboolCode, aboolSize, List.length_take, bytesBits_length]
    cases b <;> simp <;> omega

theorem lookup_of_mem {x y : Int} : ∀ {l : List (Int × Int)}, (l.map (·.1)).Nodup → (x, y) ∈ l → l.lookup x = some y
  | [], _, h => by simp at h
  | (a, b) :: l, hn, h => by
    rw [List.map_cons, List.nodup_cons] at hn
    rcases List.mem_cons.1 h with h | h
    · cases h; simp [List.lookup]
    · have : x ≠ a := fun e => hn.1 (by rw [← e]; exact List.mem_map_of_mem (f := (·.1)) h)
      rw [List.lookup_cons]
      simp only [beq_eq_false_iff_ne.2 this]
      exact lookup_of_mem hn.2 h

theorem leafCode_bounds {l : ALeaf} {x : Int} (h : LeafFits l x) : leafMin l ≤ (leafCode l x).length ∧ (leafCode l x).length ≤ leafMax l := by
  cases l with
  | int w r enc mf => exact aintCode_bounds h.1
  | bool e =>
    simp only [leafCode, leafMin, leafMax, aboolCode_length _ h.2]
    exact ⟨Nat.le_refl _, Nat.le_refl _⟩
  | enum items valid enc =>
    obtain ⟨y, h1, h2, _, h4, _⟩ := h
    simp only [leafCode, leafMin, leafMax, lookup_of_mem h2 h1]
    exact aintCode_bounds h4

theorem leafValCode_bounds {l : ALeaf} {v : Val} (h : LeafValid l v) :
    leafMin l ≤ (leafValCode l v).length ∧ (leafValCode l v).length ≤ leafMax l := by
  cases l <;> cases v <;> simp only [LeafValid] at h
  · exact leafCode_bounds h.2
  · exact leafCode_bounds h
  · exact leafCode_bounds h.2

theorem padTo_le (a : Align) (p : Nat) : (padTo a.size p).length ≤ alignBits a := by
  simp only [padTo, List.length_replicate]
  cases a <;> simp only [Align.size, alignBits] <;> omega

theorem padOpt_le (a : Option Align) (p : Nat) : (padOpt a p).length ≤ alignOptBits a := by
  cases a with
  | none => simp [padOpt, alignOptBits]
  | some a => exact padTo_le a p

theorem itemsCode_le {c : Val → Nat → List Bool} {k : Nat} : ∀ (vs : List Val) (p : Nat), (∀ v ∈ vs, ∀ p, (c v p).length ≤ k) →
    (itemsCode c vs p).length ≤ vs.length * k
  | [], _, _ => by simp [itemsCode]
  | v :: vs, p, h => by
    simp only [itemsCode, List.length_append, List.length_cons, Nat.succ_mul]
    have h1 := h v List.mem_cons_self p
    have h2 := itemsCode_le vs (p + (c v p).length) (fun u hu => h u (List.mem_cons_of_mem _ hu))
    omega

theorem itemsCode_ge {c : Val → Nat → List Bool} {k : Nat} : ∀ (vs : List Val) (p : Nat), (∀ v ∈ vs, ∀ p, k ≤ (c v p).length) →
    vs.length * k ≤ (itemsCode c vs p).length
  | [], _, _ => by simp [itemsCode]
  | v :: vs, p, h => by
    simp only [itemsCode, List.length_append, List.length_cons, Nat.succ_mul]
    have h1 := h v List.mem_cons_self p
    have h2 := itemsCode_ge vs (p + (c v p).length) (fun u hu => h u (List.mem_cons_of_mem _ hu))
    omega

theorem lenCode_length {lo hi n : Nat} (h : hi < 2 ^ 31) : (constrainedCode lo hi n).length = numBits ((hi : Int) - lo) := by
  rw [constrainedCode_length, numBits_eq (by omega)]

theorem lenCode_fixed {lo hi n : Nat} (h : lo = hi) : (constrainedCode lo hi n).length = 0 := by
  subst h
  rw [constrainedCode_length, show ((lo : Int) - lo).toNat = 0 by omega]
  decide

theorem primMax_eq {t : Ty} (hok : Ok t) (hs : t.simple) (hp : PlainSizes t) : primMax t = maxBits t := by
  cases t <;> simp only [primMax]
  · simp only [Ty.simple] at hs
    simp only [maxBits, sizeableMax, embeddedMax]
    grind
  · simp only [Ty.simple, PlainSizes] at hs hp
    obtain ⟨_, rfl, rfl⟩ := hp
    simp only [maxBits, sizeableMax, embeddedMax]
    grind

theorem primMin_eq {t : Ty} (hok : Ok t) (hs : t.simple) (hp : PlainSizes t) : primMin t = minBits t := by
  cases t <;> simp only [primMin]
  · simp only [Ty.simple] at hs
    simp only [minBits, sizeableMin, embeddedMin]
    grind
  · simp only [Ty.simple, PlainSizes] at hs hp
    obtain ⟨_, rfl, rfl⟩ := hp
    simp only [minBits, sizeableMin, embeddedMin]
    grind

theorem indexCode_length {alphabet : List Byte} (h : alphabet.length < 2 ^ 31) (chars : List Byte) :
    (indexCode alphabet chars).length = chars.length * numBits ((alphabet.length : Int) - 1) := by
  induction chars with
  | nil => simp [indexCode]
  | cons c l ih =>
    simp only [indexCode, List.flatMap_cons, List.length_append, List.length_cons, Nat.succ_mul] at ih ⊢
    rw [ih, constrainedCode_length, numBits_eq (by omega), Int.sub_zero, Nat.add_comm]

theorem packed_take_len {n : Nat} {arr : List Byte} (h : ∃ w : List Bool, w.length = n ∧ Packed w arr) : ((bytesBits arr).take n).length = n := by
  obtain ⟨w, hw, hp⟩ := h
  rw [hp.2, List.take_left' hw, hw]

theorem presACode_length : ∀ (fs : AFields) (rq : List (Nat × Int)) (vs : List (Bool × Val)), AValidFields fs rq vs → (presACode fs vs).length = amaskBits fs
  | .nil, rq, vs, h => by cases vs <;> simp_all [presACode, amaskBits, AValidFields]
  | .asn1 o t rest, rq, vs, h => by
    cases vs with
    | nil => rcases o with _ | ⟨_, _ | _⟩ | _ | _ <;> simp [AValidFields] at h
    | cons p vs =>
      obtain ⟨e, v⟩ := p
      have hr : AValidFields rest rq vs := by
        rcases o with _ | ⟨_, _ | _⟩ | _ | _ <;> (simp only [AValidFields] at h; exact h.2)
      have ih := presACode_length rest rq vs hr
      rcases o with _ | ⟨_ | _, _⟩ | _ | _ <;> simp only [presACode, amaskBits, List.length_cons, ih]
      omega
  | .acn k a l rest, rq, vs, h => by
    simp only [AValidFields] at h
    have ih := presACode_length rest rq vs h.2
    cases vs <;> simp only [presACode, amaskBits, ih]
  | .acnNull pat n rest, rq, vs, h => by
    simp only [AValidFields] at h
    have ih := presACode_length rest rq vs h
    cases vs <;> simp only [presACode, amaskBits, ih]

mutual
theorem acode_le : ∀ (t : ATy) (rq : List (Nat × Int)) (v : Val) (p : Nat), AOk t → APlain t → AValid t rq v → (acode t rq v p).length ≤ acnMaxBits t
  | .prim t, rq, v, p, hok, hp, hv => by
    simp only [AOk, APlain, AValid] at hok hp hv
    simp only [acode, acnMaxBits, primMax_eq hok.1 hok.2 hp]
    exact code_le t v hok.1 hp hv
  | .leaf l, rq, v, p, hok, hp, hv => by
    simp only [AValid] at hv
    simp only [acode, acnMaxBits]
    exact (leafValCode_bounds hv).2
  | .nullPat pat n, rq, v, p, hok, hp, hv => by
    cases v <;> simp only [AValid] at hv
    simp only [acode, acnMaxBits, List.length_take]
    omega
  | .real64 little _, rq, v, p, hok, hp, hv => by
    cases v <;> simp only [AValid] at hv
    simp only [acode, acnMaxBits, bytesBits_length]
    split <;> simp [bigImage_length]
  | .real32 little _, rq, v, p, hok, hp, hv => by
    cases v <;> simp only [AValid] at hv
    simp only [acode, acnMaxBits, bytesBits_length]
    split <;> simp [bigImage_length]
  | .octets lo hi k dmax, rq, v, p, hok, hp, hv => by
    cases v <;> simp only [AValid] at hv
    simp only [acode, acnMaxBits, bytesBits_length]
    omega
  | .bits lo hi k dmax, rq, v, p, hok, hp, hv => by
    cases v <;> simp only [AValid] at hv
    simp only [acode, acnMaxBits, packed_take_len hv.2.2]
    omega
  | .strAscii _ lo hi, rq, v, p, hok, hp, hv => by
    simp only [AOk] at hok
    cases v <;> simp only [AValid, StrValid] at hv
    simp only [acode, acnMaxBits, bytesBits_length, List.length_append, lenCode_length hok.2]
    omega
  | .strNull _ lo hi nul, rq, v, p, hok, hp, hv => by
    cases v <;> simp only [AValid, StrValid] at hv
    simp only [acode, acnMaxBits, bytesBits_length, List.length_append]
    omega
  | .strExt _ lo hi k, rq, v, p, hok, hp, hv => by
    cases v <;> simp only [AValid, StrValid] at hv
    simp only [acode, acnMaxBits, bytesBits_length]
    omega
  | .strIdx alphabet lo hi k, rq, v, p, hok, hp, hv => by
    simp only [AOk] at hok
    cases v <;> simp only [AValid, StrValid] at hv
    simp only [acode, acnMaxBits, indexCode_length hok.2.2.2.1]
    exact Nat.mul_le_mul_right _ hv.2.1
  | .seq fs, rq, v, p, hok, hp, hv => by
    simp only [AOk, APlain] at hok hp
    cases v <;> simp only [AValid] at hv
    simp only [acode, acnMaxBits, followedBy, List.length_append, presACode_length fs rq _ hv]
    have := acodeFields_le fs rq _ (p + amaskBits fs) hok hp hv
    omega
  | .seqOf lo hi k t, rq, v, p, hok, hp, hv => by
    simp only [AOk, APlain] at hok hp
    cases v with
    | seqOf vs =>
      simp only [AValid] at hv
      have hi' : ∀ v ∈ vs, ∀ p, (acode t (required t v) v p).length ≤ acnMaxBits t := fun v hm p => acode_le t _ v p hok.2.2 hp (hv.2.2 v hm)
      cases k with
      | none =>
        simp only [acode, acnMaxBits, followedBy, List.length_append, embeddedMax]
        have h1 := itemsCode_le vs (p + (constrainedCode lo hi vs.length).length) hi'
        have h2 := Nat.mul_le_mul_right (acnMaxBits t) hv.2.1
        rcases Decidable.em (lo = hi) with e | e
        · rw [if_neg (by simp [e]), lenCode_fixed e]
          rw [lenCode_fixed e] at h1
          omega
        · rw [if_pos (by simp [e]), lenCode_length hok.2.1]
          rw [lenCode_length hok.2.1] at h1
          omega
      | some j =>
        simp only [acode, acnMaxBits]
        exact Nat.le_trans (itemsCode_le vs p hi') (Nat.mul_le_mul_right _ hv.2.1)
    | _ => simp only [AValid] at hv
  | .choice byDet alts, rq, v, p, hok, hp, hv => by
    simp only [AOk, APlain] at hok hp
    cases v with
    | choice i v =>
      simp only [AValid] at hv
      simp only [acode, acnMaxBits, followedBy, List.length_append]
      cases byDet with
      | true =>
        have := acodeAlt_le alts i rq v p hok.2.2.2 hp hv
        simpa using this
      | false =>
        have := acodeAlt_le alts i rq v (p + (constrainedCode 0 ((alts.length : Int) - 1) i).length) hok.2.2.2 hp hv
        simp only [Bool.false_eq_true, if_false, choiceBits_eq hok.2.1]
        rw [constrainedCode_length] at this ⊢
        rw [Int.sub_zero] at this ⊢
        omega
    | _ => simp only [AValid] at hv
  | .ref args t, rq, v, p, hok, hp, hv => by
    simp only [AOk, APlain, AValid] at hok hp hv
    simp only [acode, acnMaxBits]
    exact acode_le t _ v p hok.2.2 hp hv
  | .align a t, rq, v, p, hok, hp, hv => by
    simp only [AOk, APlain, AValid] at hok hp hv
    simp only [acode, acnMaxBits, followedBy, List.length_append]
    have h1 := acode_le t rq v (p + (padTo a.size p).length) hok hp hv
    have h2 := padTo_le a p
    omega
theorem acodeFields_le : ∀ (fs : AFields) (rq : List (Nat × Int)) (vs : List (Bool × Val)) (p : Nat), AOkFields fs → APlainFields fs → AValidFields fs rq vs →
    (acodeFields fs rq vs p).length ≤ acnMaxFields fs
  | .nil, rq, vs, p, hok, hp, hv => by cases vs <;> simp [acodeFields]
  | .asn1 o t rest, rq, vs, p, hok, hp, hv => by
    simp only [AOkFields, APlainFields] at hok hp
    cases vs with
    | nil => rcases o with _ | ⟨_, _ | _⟩ | _ | _ <;> simp [AValidFields] at hv
    | cons q vs =>
      obtain ⟨e, v⟩ := q
      have hr : AValidFields rest rq vs := by
        rcases o with _ | ⟨_, _ | _⟩ | _ | _ <;> (simp only [AValidFields] at hv; exact hv.2)
      simp only [acodeFields, followedBy, List.length_append, acnMaxFields]
      cases e with
      | true =>
        have hf : AValid t rq v := by
          rcases o with _ | ⟨_, _ | _⟩ | _ | _ <;> (simp [AValidFields] at hv <;> exact hv.1)
        have h1 := acode_le t rq v p hok.1 hp.1 hf
        have h2 := acodeFields_le rest rq vs (p + (acode t rq v p).length) hok.2 hp.2 hr
        simp only [if_true]
        omega
      | false =>
        have h2 := acodeFields_le rest rq vs p hok.2 hp.2 hr
        simp only [Bool.false_eq_true, if_false, List.length_nil, Nat.add_zero]
        omega
  | .acn k a l rest, rq, vs, p, hok, hp, hv => by
    simp only [AOkFields, APlainFields, AValidFields] at hok hp hv
    obtain ⟨⟨x, hd, hx⟩, hr⟩ := hv
    have e : demanded rq k = x := demanded_eq hd
    have h0 : (acodeFields (.acn k a l rest) rq vs p).length = (padOpt a p).length + (leafCode l x).length +
        (acodeFields rest rq vs (p + ((padOpt a p).length + (leafCode l x).length))).length := by
      cases vs <;> simp only [acodeFields, followedBy, List.length_append, e]
    rw [h0]
    simp only [acnMaxFields]
    have h1 := acodeFields_le rest rq vs (p + ((padOpt a p).length + (leafCode l x).length)) hok hp hr
    have h2 := padOpt_le a p
    have h3 := (leafCode_bounds hx).2
    omega
  | .acnNull pat n rest, rq, vs, p, hok, hp, hv => by
    simp only [AOkFields, APlainFields, AValidFields] at hok hp hv
    have h0 : (acodeFields (.acnNull pat n rest) rq vs p).length = ((bytesBits pat).take n).length +
        (acodeFields rest rq vs (p + ((bytesBits pat).take n).length)).length := by
      cases vs <;> simp only [acodeFields, followedBy, List.length_append]
    rw [h0]
    simp only [acnMaxFields]
    have h1 := acodeFields_le rest rq vs (p + ((bytesBits pat).take n).length) hok.2 hp hv
    have h2 : ((bytesBits pat).take n).length ≤ n := by rw [List.length_take]; omega
    omega
theorem acodeAlt_le : ∀ (alts : AAlts) (i : Nat) (rq : List (Nat × Int)) (v : Val) (p : Nat), AOkAlts alts → APlainAlts alts → AValidAlt alts i rq v →
    (acodeAlt alts i rq v p).length ≤ acnMaxAlts alts
  | .nil, i, rq, v, p, hok, hp, hv => by simp only [AValidAlt] at hv
  | .cons c t rest, 0, rq, v, p, hok, hp, hv => by
    simp only [AOkAlts, APlainAlts, AValidAlt] at hok hp hv
    simp only [acodeAlt, acnMaxAlts]
    have := acode_le t rq v p hok.1 hp.1 hv
    omega
  | .cons c t rest, i + 1, rq, v, p, hok, hp, hv => by
    simp only [AOkAlts, APlainAlts, AValidAlt] at hok hp hv
    simp only [acodeAlt, acnMaxAlts]
    have := acodeAlt_le rest i rq v p hok.2 hp.2 hv
    omega
end

mutual
theorem acode_ge : ∀ (t : ATy) (rq : List (Nat × Int)) (v : Val) (p : Nat), AOk t → APlain t → APlainMin t → AValid t rq v → acnMinBits t ≤ (acode t rq v p).length
  | .prim t, rq, v, p, hok, hp, hm, hv => by
    simp only [AOk, APlain, APlainMin, AValid] at hok hp hm hv
    simp only [acode, acnMinBits, primMin_eq hok.1 hok.2 hp]
    exact code_ge t v hok.1 hp hm hv
  | .leaf l, rq, v, p, hok, hp, hm, hv => by
    simp only [AValid] at hv
    simp only [acode, acnMinBits]
    exact (leafValCode_bounds hv).1
  | .nullPat pat n, rq, v, p, hok, hp, hm, hv => by
    simp only [AOk] at hok
    cases v <;> simp only [AValid] at hv
    simp only [acode, acnMinBits, List.length_take, bytesBits_length]
    omega
  | .real64 little _, rq, v, p, hok, hp, hm, hv => by
    cases v <;> simp only [AValid] at hv
    simp only [acode, acnMinBits, bytesBits_length]
    split <;> simp [bigImage_length]
  | .real32 little _, rq, v, p, hok, hp, hm, hv => by
    cases v <;> simp only [AValid] at hv
    simp only [acode, acnMinBits, bytesBits_length]
    split <;> simp [bigImage_length]
  | .octets lo hi k dmax, rq, v, p, hok, hp, hm, hv => by
    cases v <;> simp only [AValid] at hv
    simp only [acode, acnMinBits, bytesBits_length]
    omega
  | .bits lo hi k dmax, rq, v, p, hok, hp, hm, hv => by
    cases v <;> simp only [AValid] at hv
    simp only [acode, acnMinBits, packed_take_len hv.2.2]
    omega
  | .strAscii _ lo hi, rq, v, p, hok, hp, hm, hv => by
    simp only [AOk] at hok
    cases v <;> simp only [AValid, StrValid] at hv
    simp only [acode, acnMinBits, bytesBits_length, List.length_append, lenCode_length hok.2]
    omega
  | .strNull _ lo hi nul, rq, v, p, hok, hp, hm, hv => by
    cases v <;> simp only [AValid, StrValid] at hv
    simp only [acode, acnMinBits, bytesBits_length, List.length_append]
    omega
  | .strExt _ lo hi k, rq, v, p, hok, hp, hm, hv => by
    cases v <;> simp only [AValid, StrValid] at hv
    simp only [acode, acnMinBits, bytesBits_length]
    omega
  | .strIdx alphabet lo hi k, rq, v, p, hok, hp, hm, hv => by
    simp only [AOk] at hok
    cases v <;> simp only [AValid, StrValid] at hv
    simp only [acode, acnMinBits, indexCode_length hok.2.2.2.1]
    exact Nat.mul_le_mul_right _ hv.1
  | .seq fs, rq, v, p, hok, hp, hm, hv => by
    simp only [AOk, APlain, APlainMin] at hok hp hm
    cases v <;> simp only [AValid] at hv
    simp only [acode, acnMinBits, followedBy, List.length_append, presACode_length fs rq _ hv]
    have := acodeFields_ge fs rq _ (p + amaskBits fs) hok hp hm hv
    omega
  | .seqOf lo hi k t, rq, v, p, hok, hp, hm, hv => by
    simp only [AOk, APlain] at hok hp
    cases v with
    | seqOf vs =>
      simp only [AValid] at hv
      cases k with
      | none =>
        simp only [APlainMin] at hm
        have hi' : ∀ v ∈ vs, ∀ p, acnMinBits t ≤ (acode t (required t v) v p).length := fun v hv' p => acode_ge t _ v p hok.2.2 hp hm.1 (hv.2.2 v hv')
        simp only [acode, acnMinBits, followedBy, List.length_append, embeddedMin]
        have h1 := itemsCode_ge vs (p + (constrainedCode lo hi vs.length).length) hi'
        have h2 := Nat.mul_le_mul_right (acnMinBits t) hv.1
        have h3 : lo * acnMaxBits t = lo * acnMinBits t := by
          rcases hm.2 with h | h
          · simp [h]
          · rw [h]
        rcases Decidable.em (lo = hi) with e | e
        · rw [if_neg (by simp [e]), lenCode_fixed e]
          rw [lenCode_fixed e] at h1
          omega
        · rw [if_pos (by simp [e]), lenCode_length hok.2.1]
          rw [lenCode_length hok.2.1] at h1
          omega
      | some j =>
        simp only [APlainMin] at hm
        have hi' : ∀ v ∈ vs, ∀ p, acnMinBits t ≤ (acode t (required t v) v p).length := fun v hv' p => acode_ge t _ v p hok.2.2 hp hm (hv.2.2 v hv')
        simp only [acode, acnMinBits]
        exact Nat.le_trans (Nat.mul_le_mul_right _ hv.1) (itemsCode_ge vs p hi')
    | _ => simp only [AValid] at hv
  | .choice byDet alts, rq, v, p, hok, hp, hm, hv => by
    simp only [AOk, APlain, APlainMin] at hok hp hm
    cases v with
    | choice i v =>
      simp only [AValid] at hv
      simp only [acode, acnMinBits, followedBy, List.length_append]
      cases byDet with
      | true =>
        have := acodeAlt_ge alts i rq v p hok.2.2.2 hp hm hv
        simpa using this
      | false =>
        have := acodeAlt_ge alts i rq v (p + (constrainedCode 0 ((alts.length : Int) - 1) i).length) hok.2.2.2 hp hm hv
        simp only [Bool.false_eq_true, if_false, choiceBits_eq hok.2.1]
        rw [constrainedCode_length] at this ⊢
        rw [Int.sub_zero] at this ⊢
        omega
    | _ => simp only [AValid] at hv
  | .ref args t, rq, v, p, hok, hp, hm, hv => by
    simp only [AOk, APlain, APlainMin, AValid] at hok hp hm hv
    simp only [acode, acnMinBits]
    exact acode_ge t _ v p hok.2.2 hp hm hv
  | .align a t, rq, v, p, hok, hp, hm, hv => by
    simp only [AOk, APlain, APlainMin, AValid] at hok hp hm hv
    simp only [acode, acnMinBits, followedBy, List.length_append]
    have h1 := acode_ge t rq v (p + (padTo a.size p).length) hok hp hm hv
    omega
theorem acodeFields_ge : ∀ (fs : AFields) (rq : List (Nat × Int)) (vs : List (Bool × Val)) (p : Nat), AOkFields fs → APlainFields fs → APlainMinFields fs →
    AValidFields fs rq vs → acnMinFields fs ≤ (acodeFields fs rq vs p).length
  | .nil, rq, vs, p, hok, hp, hm, hv => by simp [acnMinFields]
  | .asn1 o t rest, rq, vs, p, hok, hp, hm, hv => by
    simp only [AOkFields, APlainFields] at hok hp
    cases vs with
    | nil => rcases o with _ | ⟨_, _ | _⟩ | _ | _ <;> simp [AValidFields] at hv
    | cons q vs =>
      obtain ⟨e, v⟩ := q
      have hr : AValidFields rest rq vs := by
        rcases o with _ | ⟨_, _ | _⟩ | _ | _ <;> (simp only [AValidFields] at hv; exact hv.2)
      have hmr : APlainMinFields rest := by
        rcases o with _ | ⟨_, _ | _⟩ | _ | _ <;> (simp only [APlainMinFields] at hm; exact hm.2)
      simp only [acodeFields, followedBy, List.length_append]
      have h2 := acodeFields_ge rest rq vs (p + (if e = true then acode t rq v p else []).length) hok.2 hp.2 hmr hr
      have h1 : o.always = true → acnMinBits t ≤ (if e = true then acode t rq v p else []).length := by
        intro ha
        have : e = true ∧ AValid t rq v ∧ APlainMin t := by
          rcases o with _ | ⟨_, _ | _⟩ | _ | _ <;> simp [AOpt.always] at ha <;> simp only [AValidFields, APlainMinFields] at hv hm <;> exact ⟨hv.1.1, hv.1.2, hm.1⟩
        rw [if_pos this.1]
        exact acode_ge t rq v p hok.1 hp.1 this.2.2 this.2.1
      rcases o with _ | ⟨_, _ | _⟩ | _ | _
      · have := h1 rfl; simp only [acnMinFields]; omega
      · simp only [acnMinFields]; omega
      · simp only [acnMinFields]; omega
      · simp only [APlainMinFields] at hm; simp only [acnMinFields]; omega
      · have := h1 rfl; simp only [acnMinFields]; omega
  | .acn k a l rest, rq, vs, p, hok, hp, hm, hv => by
    simp only [AOkFields, APlainFields, APlainMinFields, AValidFields] at hok hp hm hv
    obtain ⟨⟨x, hd, hx⟩, hr⟩ := hv
    have e : demanded rq k = x := demanded_eq hd
    have h0 : (acodeFields (.acn k a l rest) rq vs p).length = (padOpt a p).length + (leafCode l x).length +
        (acodeFields rest rq vs (p + ((padOpt a p).length + (leafCode l x).length))).length := by
      cases vs <;> simp only [acodeFields, followedBy, List.length_append, e]
    rw [h0]
    simp only [acnMinFields]
    have h1 := acodeFields_ge rest rq vs (p + ((padOpt a p).length + (leafCode l x).length)) hok hp hm hr
    have h3 := (leafCode_bounds hx).1
    omega
  | .acnNull pat n rest, rq, vs, p, hok, hp, hm, hv => by
    simp only [AOkFields, APlainFields, APlainMinFields, AValidFields] at hok hp hm hv
    have h0 : (acodeFields (.acnNull pat n rest) rq vs p).length = ((bytesBits pat).take n).length +
        (acodeFields rest rq vs (p + ((bytesBits pat).take n).length)).length := by
      cases vs <;> simp only [acodeFields, followedBy, List.length_append]
    rw [h0]
    simp only [acnMinFields]
    have h1 := acodeFields_ge rest rq vs (p + ((bytesBits pat).take n).length) hok.2 hp hm hv
    have h2 : ((bytesBits pat).take n).length = n := by rw [List.length_take, bytesBits_length]; omega
    omega
theorem acodeAlt_ge : ∀ (alts : AAlts) (i : Nat) (rq : List (Nat × Int)) (v : Val) (p : Nat), AOkAlts alts → APlainAlts alts → APlainMinAlts alts →
    AValidAlt alts i rq v → acnMinAlts alts ≤ (acodeAlt alts i rq v p).length
  | .nil, i, rq, v, p, hok, hp, hm, hv => by simp only [AValidAlt] at hv
  | .cons c t rest, 0, rq, v, p, hok, hp, hm, hv => by
    simp only [AOkAlts, APlainAlts, APlainMinAlts, AValidAlt] at hok hp hm hv
    have := acode_ge t rq v p hok.1 hp.1 hm.1 hv
    cases rest <;> simp only [acodeAlt, acnMinAlts] <;> omega
  | .cons c t rest, i + 1, rq, v, p, hok, hp, hm, hv => by
    simp only [AOkAlts, APlainAlts, APlainMinAlts, AValidAlt] at hok hp hm hv
    have := acodeAlt_ge rest i rq v p hok.2 hp.2 hm.2 hv
    cases rest with
    | nil => simp only [AValidAlt] at hv
    | cons _ _ _ => simp only [acodeAlt, acnMinAlts] at this ⊢; omega
end

end Asn1
