import Verif.Proof.ObjectValid
/-!
# C94: what the encoder writes depends only on the value
-/
namespace Asn1

/-- `encBits_appends` without a condition on the bits behind the end. -/
theorem encBits_appends_raw {lo hi : Nat} {arr : List Byte} {w : List Bool} (hp : (bytesBits arr).take w.length = w)
    (h1 : lo ≤ w.length) (h2 : w.length ≤ hi) :
    Appends (encBits lo hi w.length arr) true (sizedCodeGen false lo hi (w.map fun b => [b])) := by
  unfold encBits
  have hlen : w.length ≤ 8 * arr.length := by
    have := congrArg List.length hp
    rw [List.length_take, bytesBits_length] at this; omega
  have hall := (appendBits_appends (arr := arr) (n := w.length) (by omega)).thenTrue
  rw [hp] at hall
  by_cases hs : hi < 65536
  · rw [if_pos hs]
    by_cases e : lo = hi
    · have e1 : lo = w.length := by omega
      rw [if_pos e, ← e, e1, sizedCodeGen_fixed (by omega), flatten_singletons]
      exact hall
    · rw [if_neg e, sizedCodeGen_small hs, List.length_map, flatten_singletons]
      exact (encodeConstraintWholeNumber_appends (by omega) (by omega) (by omega)).bind hall
  · rw [if_neg hs]
    have := fragAnyEncode_appends (l := w.map fun b => [b]) (lo := lo) (hi := hi)
      (blk := fun ret off k => do
        appendBits (arr.drop (off / 8)) k
        pure ret)
      (by simpa using h1) (by simpa using h2) hs
      (fun off n hoff hn => by
        rw [List.length_map] at hn
        rw [← List.map_drop, ← List.map_take, flatten_singletons]
        have := (appendBits_appends (arr := arr.drop (off / 8)) (n := n) (by simp; omega)).thenTrue
        have e : ((bytesBits arr).drop off).take n = (w.drop off).take n := by
          rw [← hp, List.drop_take, List.take_take, Nat.min_eq_left (by omega)]
        rw [bytesBits_drop, show 8 * (off / 8) = off by omega, e] at this
        exact this)
    rwa [List.length_map] at this

theorem encPresence_same : ∀ (fs : CFields) (vs : List (Bool × CVal)) (xs : List (Option AV)), meaningFields fs vs = some xs →
    encPresence (uperFields fs) (objFields fs vs) = encPresence (uperFields fs) (toValFields fs xs)
  | .nil, vs, xs, _ => by simp [uperFields, encPresence]
  | .cons o t rest, [], xs, hm => by simp [meaningFields] at hm
  | .cons o t rest, (e, v) :: vs, xs, hm => by
    cases o <;> cases e <;>
      simp only [meaningFields, Option.bind_eq_bind, Option.bind_eq_some_iff, Option.some.injEq] at hm <;>
      first
        | (obtain ⟨x, hx, ys, hys, rfl⟩ := hm
           have := encPresence_same rest vs ys hys
           simp only [uperFields, toValFields, objFields, encPresence, COpt.toOpt, this]; done)
        | (obtain ⟨ys, hys, rfl⟩ := hm
           have := encPresence_same rest vs ys hys
           simp only [uperFields, toValFields, objFields, encPresence, COpt.toOpt, this]; done)

mutual
theorem encObj_in : ∀ (t : CTy) (sz : Option (Nat × Nat)) (ex : List AC) (v : CVal) (a : AV), meaning t v = some a → ComputedIn sz ex t →
    Ok (uperIn sz ex t) → Valid (uperIn sz ex t) (toVal t a) →
    Appends (encTy (uperIn sz ex t) (objIn sz t v)) true (code false (uperIn sz ex t) (toVal t a))
  | .int cls cons, sz, ex, v, a, hm, hc, hok, hv => by
    cases v <;> simp only [meaning, reduceCtorEq] at hm
    split at hm <;> simp only [reduceCtorEq, Option.some.injEq] at hm
    subst hm
    exact encTy_appends _ _ hok hv
  | .bool _, sz, ex, v, a, hm, hc, hok, hv => by
    cases v <;> simp only [meaning, reduceCtorEq, Option.some.injEq] at hm
    subst hm
    exact encTy_appends _ _ hok hv
  | .null, sz, ex, v, a, hm, hc, hok, hv => by
    cases v <;> simp only [meaning, reduceCtorEq, Option.some.injEq] at hm
    subst hm
    exact encTy_appends _ _ hok hv
  | .enum items cons, sz, ex, v, a, hm, hc, hok, hv => by
    cases v <;> simp only [meaning, reduceCtorEq] at hm
    split at hm <;> simp only [reduceCtorEq, Option.some.injEq] at hm
    subst hm
    exact encTy_appends _ _ hok hv
  | .octets lo hi cons, sz, ex, v, a, hm, hc, hok, hv => by
    cases v <;> simp only [meaning, reduceCtorEq] at hm
    split at hm <;> simp only [reduceCtorEq, Option.map_eq_some_iff] at hm
    rename_i n arr hlen
    obtain ⟨l, hl, rfl⟩ := hm
    simp only [ComputedIn] at hc
    obtain ⟨_, _, _, _, _, hfix⟩ := hc
    have : objIn sz (.octets lo hi cons) (.octets n arr) = toVal (.octets lo hi cons) (.octets l) := by
      simp only [objIn, toVal]
      simp only [uperIn, toVal, Valid] at hv
      by_cases e : lo = hi
      · rw [if_pos e] at hl
        rw [if_pos (hfix.2 e)]
        obtain rfl : arr = l := by simpa using hl
        rw [List.take_of_length_le (by have := hfix.2 e; omega)]
      · rw [if_neg e] at hl; rw [if_neg (mt hfix.1 e), (counted_some hl).2.2]
    rw [this]
    exact encTy_appends _ _ hok hv
  | .bits lo hi cons, sz, ex, v, a, hm, hc, hok, hv => by
    cases v <;> simp only [meaning, reduceCtorEq] at hm
    split at hm <;> simp only [reduceCtorEq, Option.map_eq_some_iff] at hm
    rename_i n arr hlen
    obtain ⟨l, hl, rfl⟩ := hm
    simp only [uperIn, toVal, Valid] at hv
    obtain ⟨h1, h2, _⟩ := hv
    simp only [ComputedIn] at hc
    obtain ⟨_, _, _, _, _, hfix⟩ := hc
    have hn : (if effLo sz lo = effHi sz hi then effHi sz hi else n.toNat) = l.length ∧ (bytesBits arr).take l.length = l := by
      by_cases e : lo = hi
      · rw [if_pos e] at hl
        rw [if_pos (hfix.2 e)]
        have e1 : (bytesBits arr).take hi = l := by simpa using hl
        have := hfix.2 e
        refine ⟨by omega, ?_⟩
        have h3 : l.length = hi := by rw [← e1, List.length_take, bytesBits_length]; omega
        rw [h3, e1]
      · rw [if_neg e] at hl
        rw [if_neg (mt hfix.1 e)]
        obtain ⟨h3, h4, h5⟩ := counted_some hl
        have : n.toNat = l.length := by
          rw [h5, List.length_take, bytesBits_length]; omega
        refine ⟨this, ?_⟩
        rw [← this, h5]
    simp only [uperIn, toVal, objIn, encTy, code, hn.1, packed_take (packed_packBits l)]
    exact encBits_appends_raw hn.2 h1 h2
  | .str lo hi al cons, sz, ex, v, a, hm, hc, hok, hv => by
    cases v <;> simp only [meaning, reduceCtorEq] at hm
    split at hm <;> simp only [reduceCtorEq, Option.map_eq_some_iff] at hm
    rename_i arr hlen
    obtain ⟨l, hl, rfl⟩ := hm
    have : objIn sz (.str lo hi al cons) (.str arr) = toVal (.str lo hi al cons) (.str l) := by
      simp only [objIn, toVal]
      rw [(cString_some hl).1]
    rw [this]
    exact encTy_appends _ _ hok hv
  | .oid rel cons, sz, ex, v, a, hm, hc, hok, hv => by
    cases v <;> simp only [meaning, reduceCtorEq] at hm
    split at hm <;> simp only [reduceCtorEq, Option.some.injEq] at hm
    rename_i o ho
    subst hm
    have hl : (o.values.take o.nCount).length = o.nCount := by rw [List.length_take]; omega
    have ht : (Oid.ofArcs (o.values.take o.nCount)).values.take (Oid.ofArcs (o.values.take o.nCount)).nCount = o.values.take o.nCount := by
      simp [Oid.ofArcs]
    cases rel
    · simp only [uperIn, Bool.false_eq_true, if_false, toVal, objIn, Valid, encTy, code] at hv ⊢
      obtain ⟨x, y, l, he, hx, hy, hl18⟩ := hv
      rw [ht]
      simp only [Oid.holdsComps, Oid.ofArcs, Oid.mk.injEq] at he
      have h2 : 2 ≤ o.nCount := by have := he.1; rw [hl] at this; simp at this; omega
      have he2 : o.values.take o.nCount = x :: y :: l := by
        have h3 := congrArg (List.take o.nCount) he.2
        rw [List.take_append_of_le_length (by omega), List.take_append_of_le_length (by have := he.1; rw [hl] at this; omega)] at h3
        rw [List.take_take, Nat.min_self] at h3
        rw [h3, List.take_of_length_le (by have := he.1; rw [hl] at this; omega)]
      have hg0 : o.values[0]'(by omega) = x := by
        have := congrArg (fun m => m[0]?) he2
        simp only [List.getElem?_take, List.getElem?_cons_zero] at this
        rw [if_pos (by omega), List.getElem?_eq_getElem (by omega)] at this
        simpa using this
      have hg1 : o.values[1]'(by omega) = y := by
        have := congrArg (fun m => m[1]?) he2
        simp only [List.getElem?_take, List.getElem?_cons_succ, List.getElem?_cons_zero] at this
        rw [if_pos (by omega), List.getElem?_eq_getElem (by omega)] at this
        simpa using this
      exact (oidEncode_appends ho.1 h2 ho.2 (by rw [hg0]; exact hx) (by rw [hg1]; exact hy)).thenTrue
    · simp only [uperIn, if_true, toVal, objIn, encTy, code]
      rw [ht]
      exact (relOidEncode_appends ho.1 ho.2).thenTrue
  | .real cons, sz, ex, v, a, hm, hc, hok, hv => by
    cases v <;> simp only [meaning, reduceCtorEq, Option.some.injEq] at hm
    subst hm
    exact encTy_appends _ _ hok hv
  | .seq fs cons, sz, ex, v, a, hm, hc, hok, hv => by
    cases v <;> simp only [meaning, reduceCtorEq] at hm
    simp only [Option.map_eq_some_iff] at hm
    obtain ⟨xs, hx, rfl⟩ := hm
    simp only [uperIn, Ok] at hok
    simp only [uperIn, toVal, Valid] at hv
    simp only [uperIn, toVal, objIn, encTy, code]
    rw [encPresence_same fs _ xs hx]
    simp only [ComputedIn] at hc
    exact (encPresence_appends (uperFields fs) _ hv).bind (g := fun _ => encFields (uperFields fs) _)
      (encObjFields_appends fs _ xs hx hc.2 hok hv)
  | .seqOf lo hi t cons, sz, ex, v, a, hm, hc, hok, hv => by
    cases v with
    | seqOf n arr =>
      obtain ⟨_, _, l, rfl, hf⟩ := elems_some hm
      simp only [uperIn, Ok] at hok
      simp only [uperIn, toVal, Valid] at hv
      simp only [uperIn, toVal, objIn, encTy, code]
      simp only [ComputedIn] at hc
      obtain ⟨⟨_, _, _, _, _, hfix⟩, hc⟩ := hc
      have hsame : arr.take (if effLo sz lo = effHi sz hi then effHi sz hi else n.toNat) = (if lo = hi then arr else arr.take n.toNat) := by
        by_cases e : lo = hi
        · rw [if_pos (hfix.2 e), if_pos e]
          rw [if_pos e] at hf
          have h1 := hf.length_eq
          have h2 := hfix.2 e
          rw [List.length_map] at hv
          rw [List.take_of_length_le (by omega)]
        · rw [if_neg (mt hfix.1 e), if_neg e]
      rw [hsame]
      generalize (if lo = hi then arr else arr.take n.toNat) = m at hf ⊢
      unfold encSeqOf
      have hlen := hf.length_eq
      have := sizedEnc_appends (c := code false (uperIn none [] t)) (xs := l.map (toVal t)) (lo := effLo sz lo) (hi := effHi sz hi) (it := fun _ (i : Nat) => do
        let v ← tblGet (m.map (objIn none t)) i
        encTy (uperIn none [] t) v) (fun i x hx => by
          rw [List.getElem?_map, Option.map_eq_some_iff] at hx
          obtain ⟨y, hy, rfl⟩ := hx
          have hi : i < m.length := by
            rw [hlen]; exact (List.getElem?_eq_some_iff.1 hy).1
          have hg : (m.map (objIn none t))[i]? = some (objIn none t m[i]) := by simp [hi]
          rw [tblGet_ok hg, pure_bind]
          have hmy : meaning t m[i] = some y := by
            have := List.forall₂_iff_get.1 hf
            have h3 := this.2 i hi (by rw [← hlen]; exact hi)
            have h4 := (List.getElem?_eq_some_iff.1 hy).2
            simpa [h4] using h3
          exact encObj_in t none [] m[i] y hmy hc hok.2 (hv.2.2 _ (List.mem_map_of_mem (List.mem_of_getElem? hy)))) hv.1 hv.2.1
      simpa [hlen] using this
    | _ => simp [meaning] at hm
  | .choice alts cons, sz, ex, v, a, hm, hc, hok, hv => by
    cases v <;> simp only [meaning, reduceCtorEq] at hm
    split at hm <;> simp only [reduceCtorEq, Option.map_eq_some_iff] at hm
    obtain ⟨x, hx, rfl⟩ := hm
    simp only [uperIn, Ok] at hok
    simp only [uperIn, toVal, Valid] at hv
    simp only [uperIn, toVal, objIn, encTy, code]
    have := validAlt_lt (uperAlts alts) _ _ hv
    rw [if_pos this]
    simp only [ComputedIn] at hc
    exact (encodeConstraintWholeNumber_appends (by omega) (by omega) (by omega)).bind (encObjAlt_appends alts _ _ x hx hc.2 hok.2.2 hv)
  | .ref t size cons, sz, ex, v, a, hm, hc, hok, hv => by
    simp only [meaning] at hm
    simp only [ComputedIn] at hc
    simp only [uperIn, toVal, objIn] at hok hv ⊢
    split at hok
    · rename_i e
      rw [if_pos e] at hv ⊢
      simp only [Ok] at hok
      simp only [Valid] at hv
      simp only [encTy, code]
      exact encObj_in t _ _ v a hm hc hok hv
    · rename_i e
      rw [if_neg e] at hv ⊢
      exact encObj_in t _ _ v a hm hc hok hv
theorem encObjFields_appends : ∀ (fs : CFields) (vs : List (Bool × CVal)) (xs : List (Option AV)), meaningFields fs vs = some xs →
    ComputedFields fs → OkFields (uperFields fs) → ValidFields (uperFields fs) (toValFields fs xs) →
    Appends (encFields (uperFields fs) (objFields fs vs)) true (fieldsCode false (uperFields fs) (toValFields fs xs))
  | .nil, vs, xs, hm, _, _, _ => by
    simp only [uperFields, encFields, fieldsCode]; exact Appends.pure _
  | .cons o t rest, [], xs, hm, _, _, _ => by simp [meaningFields] at hm
  | .cons o t rest, (e, v) :: vs, xs, hm, hc, hok, hv => by
    simp only [ComputedFields] at hc
    simp only [uperFields, OkFields] at hok
    have here := fun x hx h => encObj_in t none [] v x hx hc.1 hok.1 h
    have hrest := fun ys hys h => encObjFields_appends rest vs ys hys hc.2 hok.2 h
    have fin : ∀ {a b : List Bool} {x : M Bool} {y : M Bool}, Appends x true a → Appends y true b →
        Appends (do let ret ← x; if ret then y else pure false) true (a ++ b) := by
      intro a b x y h1 h2
      refine h1.bind ?_
      rw [if_pos rfl]; exact h2
    cases o <;> cases e <;>
      simp only [meaningFields, Option.bind_eq_bind, Option.bind_eq_some_iff, Option.some.injEq] at hm <;>
      first
        | (obtain ⟨x, hx, ys, hys, rfl⟩ := hm
           simp only [uperFields, toValFields, COpt.toOpt, ValidFields] at hv
           simp only [uperFields, toValFields, objFields, encFields, fieldsCode, COpt.toOpt, if_true]
           first
             | exact fin (here x hx hv.1.2) (hrest ys hys hv.2)
             | exact fin (here x hx (by simpa using hv.1)) (hrest ys hys hv.2)
             | (exfalso; simp at hv; done))
        | (obtain ⟨ys, hys, rfl⟩ := hm
           simp only [uperFields, toValFields, COpt.toOpt, ValidFields] at hv
           simp only [uperFields, toValFields, objFields, encFields, fieldsCode, COpt.toOpt, Bool.false_eq_true, if_false]
           first
             | (exfalso; simp at hv; done)
             | exact fin (Appends.pure true) (hrest ys hys hv.2))
theorem encObjAlt_appends : ∀ (alts : CAlts) (i : Nat) (v : CVal) (x : AV), meaningAlt alts i v = some x →
    ComputedAlts alts → OkAlts (uperAlts alts) → ValidAlt (uperAlts alts) i (toValAlt alts i x) →
    Appends (encAlt (uperAlts alts) i (objAlt alts i v)) true (altCode false (uperAlts alts) i (toValAlt alts i x))
  | .nil, _, _, _, hm, _, _, _ => by simp [meaningAlt] at hm
  | .cons t _, 0, v, x, hm, hc, hok, hv => by
    simp only [ComputedAlts] at hc
    simp only [meaningAlt] at hm
    simp only [uperAlts, OkAlts] at hok
    simp only [uperAlts, toValAlt, ValidAlt] at hv
    simp only [uperAlts, toValAlt, objAlt, encAlt, altCode]
    exact encObj_in t none [] v x hm hc.1 hok.1 hv
  | .cons _ rest, i + 1, v, x, hm, hc, hok, hv => by
    simp only [ComputedAlts] at hc
    simp only [meaningAlt] at hm
    simp only [uperAlts, OkAlts] at hok
    simp only [uperAlts, toValAlt, ValidAlt] at hv
    simp only [uperAlts, toValAlt, objAlt, encAlt, altCode]
    exact encObjAlt_appends rest i v x hm hc.2 hok.2 hv
end

theorem encObj_appends (t : CTy) (v : CVal) (a : AV) (hm : meaning t v = some a) (hc : Computed t) (hok : Ok (uperTy t))
    (hv : Valid (uperTy t) (toVal t a)) : Appends (encTy (uperTy t) (objVal t v)) true (code false (uperTy t) (toVal t a)) :=
  encObj_in t none [] v a hm hc hok hv

end Asn1
