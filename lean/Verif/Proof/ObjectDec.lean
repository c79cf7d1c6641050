import Verif.Proof.ObjectEnc
/-!
# C94: what a decoder leaves in an object
-/
namespace Asn1

theorem takeWhile_before {l r : List Byte} (h : ∀ c ∈ l, c ≠ 0#8) : (l ++ 0#8 :: r).takeWhile (· ≠ 0#8) = l := by
  induction l with
  | nil => simp
  | cons a t ih =>
    rw [List.cons_append, List.takeWhile_cons, if_pos (by simpa using h a List.mem_cons_self),
      ih fun c hc => h c (List.mem_cons_of_mem _ hc)]

theorem forall₂_take {α β : Type} {R : α → β → Prop} {arr : List α} {l : List β} (h : l.length ≤ arr.length)
    (hr : ∀ (i : Nat) (x : α) (y : β), arr[i]? = some x → l[i]? = some y → R x y) : List.Forall₂ R (arr.take l.length) l := by
  rw [List.forall₂_iff_get]
  refine ⟨by rw [List.length_take]; omega, fun i h1 h2 => ?_⟩
  rw [List.length_take] at h1
  simp only [List.get_eq_getElem, List.getElem_take]
  exact hr i _ _ (List.getElem?_eq_getElem (by omega)) (List.getElem?_eq_getElem h2)

mutual
theorem stored_in : ∀ (t : CTy) (sz : Option (Nat × Nat)) (ex : List AC) (v c : CVal) (a : AV), meaning t v = some a → ComputedIn sz ex t →
    Valid (uperIn sz ex t) (toVal t a) → StoredIn sz t (toVal t a) c → meaning t c = some a
  | .int cls cons, sz, ex, v, c, a, hm, hc, _, hs => by
    cases v <;> simp only [meaning, reduceCtorEq] at hm
    split at hm <;> simp only [reduceCtorEq, Option.some.injEq] at hm
    rename_i h
    subst hm
    cases c <;> simp only [toVal, StoredIn] at hs
    subst hs
    simp only [meaning, if_pos h]
  | .bool _, sz, ex, v, c, a, hm, hc, _, hs => by
    cases v <;> simp only [meaning, reduceCtorEq, Option.some.injEq] at hm
    subst hm
    cases c <;> simp only [toVal, StoredIn] at hs
    subst hs
    simp only [meaning]
  | .null, sz, ex, v, c, a, hm, hc, _, hs => by
    cases v <;> simp only [meaning, reduceCtorEq, Option.some.injEq] at hm
    subst hm
    cases c <;> simp only [toVal, StoredIn] at hs
    simp only [meaning]
  | .enum items cons, sz, ex, v, c, a, hm, hc, _, hs => by
    cases v <;> simp only [meaning, reduceCtorEq] at hm
    split at hm <;> simp only [reduceCtorEq, Option.some.injEq] at hm
    rename_i h
    subst hm
    cases c <;> simp only [toVal, StoredIn] at hs
    subst hs
    simp only [meaning, if_pos h]
  | .octets lo hi cons, sz, ex, v, c, a, hm, hc, hv, hs => by
    cases v <;> simp only [meaning, reduceCtorEq] at hm
    split at hm <;> simp only [reduceCtorEq, Option.map_eq_some_iff] at hm
    obtain ⟨l, hl, rfl⟩ := hm
    simp only [uperIn, toVal, Valid] at hv
    simp only [ComputedIn] at hc
    obtain ⟨_, _, _, _, _, hfix⟩ := hc
    cases c <;> simp only [toVal, StoredIn] at hs
    rename_i n arr
    obtain ⟨h1, h2, h3⟩ := hs
    simp only [meaning, if_pos h1, Option.map_eq_some_iff, AV.octets.injEq]
    refine ⟨l, ?_, rfl⟩
    by_cases e : lo = hi
    · rw [if_pos e] at hl ⊢
      obtain rfl := Option.some.inj hl
      rw [h2.eq_of_length (by omega)]
    · rw [if_neg e] at hl ⊢
      have := counted_some hl
      rw [h3 (mt hfix.1 e), counted, if_pos (by rw [this.2.2, List.length_take]; omega), Int.toNat_natCast, ← List.prefix_iff_eq_take.1 h2]
  | .bits lo hi cons, sz, ex, v, c, a, hm, hc, hv, hs => by
    cases v <;> simp only [meaning, reduceCtorEq] at hm
    split at hm <;> simp only [reduceCtorEq, Option.map_eq_some_iff] at hm
    obtain ⟨l, hl, rfl⟩ := hm
    simp only [uperIn, toVal, Valid] at hv
    simp only [ComputedIn] at hc
    obtain ⟨_, _, _, _, _, hfix⟩ := hc
    cases c <;> simp only [toVal, StoredIn] at hs
    rename_i n arr
    obtain ⟨h1, ⟨r, h2⟩, h3⟩ := hs
    have hb : (bytesBits arr).take l.length = l := by
      have hp := packBits_spec l
      rw [← h2, bytesBits_append, List.take_append_of_le_length (by rw [bytesBits_length]; exact hp.1), hp.2]
    simp only [meaning, if_pos h1, Option.map_eq_some_iff, AV.bits.injEq]
    refine ⟨l, ?_, rfl⟩
    by_cases e : lo = hi
    · rw [if_pos e] at hl ⊢
      have e1 := Option.some.inj hl
      have e2 : l.length = hi := by rw [← e1, List.length_take, bytesBits_length]; omega
      rw [← e2, hb]
    · rw [if_neg e] at hl ⊢
      have := counted_some hl
      rw [h3 (mt hfix.1 e), counted, if_pos (by rw [this.2.2, List.length_take]; omega), Int.toNat_natCast, hb]
  | .str lo hi al cons, sz, ex, v, c, a, hm, hc, hv, hs => by
    cases v <;> simp only [meaning, reduceCtorEq] at hm
    split at hm <;> simp only [reduceCtorEq, Option.map_eq_some_iff] at hm
    obtain ⟨l, hl, rfl⟩ := hm
    obtain ⟨_, h128, hz⟩ := cString_some hl
    cases c <;> simp only [toVal, StoredIn] at hs
    obtain ⟨h1, ⟨r, h2⟩⟩ := hs
    simp only [meaning, if_pos h1, Option.map_eq_some_iff, AV.str.injEq]
    refine ⟨l, ?_, rfl⟩
    rw [List.append_assoc, List.singleton_append] at h2
    rw [← h2, cString, takeWhile_before hz, if_pos ⟨by simp, h128⟩]
  | .oid rel cons, sz, ex, v, c, a, hm, hc, hv, hs => by
    cases v <;> simp only [meaning, reduceCtorEq] at hm
    split at hm <;> simp only [reduceCtorEq, Option.some.injEq] at hm
    rename_i o ho
    subst hm
    cases c <;> simp only [toVal, StoredIn] at hs
    rename_i x
    obtain ⟨h1, h2, h3⟩ := hs
    have hl : (o.values.take o.nCount).length = o.nCount := by rw [List.length_take]; omega
    simp only [Oid.ofArcs, hl] at h2 h3
    rw [List.take_append_of_le_length (by omega), List.take_take, Nat.min_self] at h3
    simp only [meaning]
    rw [if_pos ⟨h1, by omega⟩, h2]
    have := List.prefix_iff_eq_take.1 h3
    rw [hl] at this
    rw [← this]
  | .real cons, sz, ex, v, c, a, hm, hc, _, hs => by
    cases v <;> simp only [meaning, reduceCtorEq, Option.some.injEq] at hm
    subst hm
    cases c <;> simp only [toVal, StoredIn] at hs
    subst hs
    simp only [meaning]
  | .seq fs cons, sz, ex, v, c, a, hm, hc, hv, hs => by
    cases v <;> simp only [meaning, reduceCtorEq] at hm
    simp only [Option.map_eq_some_iff] at hm
    obtain ⟨xs, hx, rfl⟩ := hm
    simp only [uperIn, toVal, Valid] at hv
    cases c <;> simp only [toVal, StoredIn] at hs
    simp only [ComputedIn] at hc
    simp only [meaning, stored_fields fs _ _ xs hx hc.2 hv hs, Option.map_some]
  | .seqOf lo hi t cons, sz, ex, v, c, a, hm, hc, hv, hs => by
    cases v with
    | seqOf n arr =>
      obtain ⟨hm1, _, l, rfl, hf⟩ := elems_some hm
      simp only [uperIn, toVal, Valid, List.length_map] at hv
      cases c <;> simp only [toVal, StoredIn] at hs
      rename_i n' arr'
      obtain ⟨h1, h2, h3, h4⟩ := hs
      simp only [ComputedIn] at hc
      obtain ⟨⟨_, _, _, _, _, hfix⟩, hc⟩ := hc
      rw [List.length_map] at h2 h3
      have key : List.Forall₂ (fun v x => meaning t v = some x) (arr'.take l.length) l := by
        refine forall₂_take (by omega) fun i x y hx hy => ?_
        obtain ⟨w, _, hw⟩ := forall₂_right hf y (List.mem_of_getElem? hy)
        exact stored_in t none [] w x y hw hc (hv.2.2 _ (List.mem_map_of_mem (List.mem_of_getElem? hy)))
          (h4 i (toVal t y) x (by rw [List.getElem?_map, hy]; rfl) hx)
      simp only [meaning, if_pos h1, Option.map_eq_some_iff, Option.bind_eq_some_iff, AV.seqOf.injEq]
      refine ⟨l, ⟨arr'.take l.length, ?_, mapM_some_iff.2 key⟩, rfl⟩
      by_cases e : lo = hi
      · rw [if_pos e] at hf
        have := hf.length_eq
        rw [if_pos e, List.take_of_length_le (by omega)]
      · rw [if_neg e, h2 (mt hfix.1 e), counted, if_pos (by omega), Int.toNat_natCast]
    | _ => simp [meaning] at hm
  | .choice alts cons, sz, ex, v, c, a, hm, hc, hv, hs => by
    cases v <;> simp only [meaning, reduceCtorEq] at hm
    split at hm <;> simp only [reduceCtorEq, Option.map_eq_some_iff] at hm
    obtain ⟨x, hx, rfl⟩ := hm
    simp only [uperIn, toVal, Valid] at hv
    cases c <;> simp only [toVal, StoredIn] at hs
    obtain ⟨rfl, hs⟩ := hs
    simp only [ComputedIn] at hc
    simp only [meaning]
    rw [if_pos (by omega), show ∀ n : Nat, ((n : Int) + 1).toNat - 1 = n from fun n => by omega,
      stored_alt alts _ _ _ x hx hc.2 hv hs]
    rfl
  | .ref t size cons, sz, ex, v, c, a, hm, hc, hv, hs => by
    simp only [meaning] at hm
    simp only [ComputedIn] at hc
    simp only [toVal, StoredIn] at hs
    simp only [uperIn, toVal] at hv
    simp only [meaning]
    refine stored_in t (sz.or size) (cons ++ ex) v c a hm hc ?_ hs
    split at hv
    · simpa only [Valid] using hv
    · exact hv
theorem stored_fields : ∀ (fs : CFields) (vs cs : List (Bool × CVal)) (xs : List (Option AV)), meaningFields fs vs = some xs →
    ComputedFields fs → ValidFields (uperFields fs) (toValFields fs xs) → StoredFields fs (toValFields fs xs) cs → meaningFields fs cs = some xs
  | .nil, vs, cs, xs, hm, _, _, hs => by
    cases vs <;> simp only [meaningFields, reduceCtorEq, Option.some.injEq] at hm
    subst hm
    cases cs <;> simp only [toValFields, StoredFields] at hs
    simp only [meaningFields]
  | .cons o t rest, [], cs, xs, hm, _, _, _ => by simp [meaningFields] at hm
  | .cons o t rest, (e, v) :: vs, [], xs, hm, _, hv, hs => by
    cases o <;> rcases xs with _ | ⟨_ | x, xs⟩ <;> simp [toValFields, StoredFields] at hs
  | .cons o t rest, (e, v) :: vs, (b, c) :: cs, xs, hm, hc, hv, hs => by
    simp only [ComputedFields] at hc
    have here := fun x hx h1 h2 => stored_in t none [] v c x hx hc.1 h1 h2
    have hrest := fun ys hys h1 h2 => stored_fields rest vs cs ys hys hc.2 h1 h2
    cases o <;> cases e <;>
      simp only [meaningFields, Option.bind_eq_bind, Option.bind_eq_some_iff, Option.some.injEq] at hm <;>
      first
        | (obtain ⟨x, hx, ys, hys, rfl⟩ := hm
           simp only [uperFields, toValFields, COpt.toOpt, ValidFields] at hv
           simp only [toValFields, StoredFields] at hs
           simp_all [meaningFields]; done)
        | (obtain ⟨ys, hys, rfl⟩ := hm
           simp only [uperFields, toValFields, COpt.toOpt, ValidFields] at hv
           simp only [toValFields, StoredFields] at hs
           simp_all [meaningFields]; done)
theorem stored_alt : ∀ (alts : CAlts) (i : Nat) (v c : CVal) (x : AV), meaningAlt alts i v = some x →
    ComputedAlts alts → ValidAlt (uperAlts alts) i (toValAlt alts i x) → StoredAlt alts i (toValAlt alts i x) c → meaningAlt alts i c = some x
  | .nil, _, _, _, _, hm, _, _, _ => by simp [meaningAlt] at hm
  | .cons t _, 0, v, c, x, hm, hc, hv, hs => by
    simp only [ComputedAlts] at hc
    simp only [meaningAlt] at hm
    simp only [uperAlts, toValAlt, ValidAlt] at hv
    simp only [toValAlt, StoredAlt] at hs
    simp only [meaningAlt]
    exact stored_in t none [] v c x hm hc.1 hv hs
  | .cons _ rest, i + 1, v, c, x, hm, hc, hv, hs => by
    simp only [ComputedAlts] at hc
    simp only [meaningAlt] at hm
    simp only [uperAlts, toValAlt, ValidAlt] at hv
    simp only [toValAlt, StoredAlt] at hs
    simp only [meaningAlt]
    exact stored_alt rest i v c x hm hc.2 hv hs
end

theorem stored_meaning (t : CTy) (v c : CVal) (a : AV) (hm : meaning t v = some a) (hc : Computed t) (hv : Valid (uperTy t) (toVal t a))
    (hs : Stored t (toVal t a) c) : meaning t c = some a :=
  stored_in t none [] v c a hm hc hv hs

theorem mapToVal_inj {t : CTy} (h : ∀ (v w : CVal) (a b : AV), meaning t v = some a → meaning t w = some b → toVal t a = toVal t b → a = b) :
    ∀ (vs ws : List CVal) (l m : List AV), List.Forall₂ (fun v x => meaning t v = some x) vs l →
      List.Forall₂ (fun v x => meaning t v = some x) ws m → l.map (toVal t) = m.map (toVal t) → l = m
  | _, _, [], [], _, _, _ => rfl
  | _, _, [], _ :: _, _, _, e => by simp at e
  | _, _, _ :: _, [], _, _, e => by simp at e
  | _ :: vs, _ :: ws, a :: l, b :: m, .cons h1 h2, .cons h3 h4, e => by
    simp only [List.map_cons, List.cons.injEq] at e
    rw [h _ _ a b h1 h3 e.1, mapToVal_inj h vs ws l m h2 h4 e.2]

mutual
theorem toVal_inj : ∀ (t : CTy) (v w : CVal) (a b : AV), meaning t v = some a → meaning t w = some b → toVal t a = toVal t b → a = b
  | .int _ _, v, w, a, b, ha, hb, e => by
    cases v <;> simp only [meaning, reduceCtorEq] at ha
    cases w <;> simp only [meaning, reduceCtorEq] at hb
    split at ha <;> simp only [reduceCtorEq, Option.some.injEq] at ha
    split at hb <;> simp only [reduceCtorEq, Option.some.injEq] at hb
    subst ha hb
    simpa [toVal] using e
  | .bool _, v, w, a, b, ha, hb, e => by
    cases v <;> simp only [meaning, reduceCtorEq, Option.some.injEq] at ha
    cases w <;> simp only [meaning, reduceCtorEq, Option.some.injEq] at hb
    subst ha hb
    simpa [toVal] using e
  | .null, v, w, a, b, ha, hb, _ => by
    cases v <;> simp only [meaning, reduceCtorEq, Option.some.injEq] at ha
    cases w <;> simp only [meaning, reduceCtorEq, Option.some.injEq] at hb
    subst ha hb
    rfl
  | .enum _ _, v, w, a, b, ha, hb, e => by
    cases v <;> simp only [meaning, reduceCtorEq] at ha
    cases w <;> simp only [meaning, reduceCtorEq] at hb
    split at ha <;> simp only [reduceCtorEq, Option.some.injEq] at ha
    split at hb <;> simp only [reduceCtorEq, Option.some.injEq] at hb
    subst ha hb
    simpa [toVal] using e
  | .octets _ _ _, v, w, a, b, ha, hb, e => by
    cases v <;> simp only [meaning, reduceCtorEq] at ha
    cases w <;> simp only [meaning, reduceCtorEq] at hb
    split at ha <;> simp only [reduceCtorEq, Option.map_eq_some_iff] at ha
    split at hb <;> simp only [reduceCtorEq, Option.map_eq_some_iff] at hb
    obtain ⟨l, _, rfl⟩ := ha
    obtain ⟨m, _, rfl⟩ := hb
    simpa [toVal] using e
  | .bits _ _ _, v, w, a, b, ha, hb, e => by
    cases v <;> simp only [meaning, reduceCtorEq] at ha
    cases w <;> simp only [meaning, reduceCtorEq] at hb
    split at ha <;> simp only [reduceCtorEq, Option.map_eq_some_iff] at ha
    split at hb <;> simp only [reduceCtorEq, Option.map_eq_some_iff] at hb
    obtain ⟨l, _, rfl⟩ := ha
    obtain ⟨m, _, rfl⟩ := hb
    simp only [toVal, Val.bits.injEq] at e
    rw [← (packBits_spec l).2, ← (packBits_spec m).2, e.2, e.1]
  | .str _ _ _ _, v, w, a, b, ha, hb, e => by
    cases v <;> simp only [meaning, reduceCtorEq] at ha
    cases w <;> simp only [meaning, reduceCtorEq] at hb
    split at ha <;> simp only [reduceCtorEq, Option.map_eq_some_iff] at ha
    split at hb <;> simp only [reduceCtorEq, Option.map_eq_some_iff] at hb
    obtain ⟨l, _, rfl⟩ := ha
    obtain ⟨m, _, rfl⟩ := hb
    simpa [toVal] using e
  | .oid _ _, v, w, a, b, ha, hb, e => by
    cases v <;> simp only [meaning, reduceCtorEq] at ha
    cases w <;> simp only [meaning, reduceCtorEq] at hb
    split at ha <;> simp only [reduceCtorEq, Option.some.injEq] at ha
    split at hb <;> simp only [reduceCtorEq, Option.some.injEq] at hb
    subst ha hb
    simp only [toVal, Val.oid.injEq, Oid.ofArcs, Oid.mk.injEq] at e
    rw [List.append_inj_left e.2 e.1]
  | .real _, v, w, a, b, ha, hb, e => by
    cases v <;> simp only [meaning, reduceCtorEq, Option.some.injEq] at ha
    cases w <;> simp only [meaning, reduceCtorEq, Option.some.injEq] at hb
    subst ha hb
    simpa [toVal] using e
  | .seq fs _, v, w, a, b, ha, hb, e => by
    cases v <;> simp only [meaning, reduceCtorEq, Option.map_eq_some_iff] at ha
    cases w <;> simp only [meaning, reduceCtorEq, Option.map_eq_some_iff] at hb
    obtain ⟨l, hl, rfl⟩ := ha
    obtain ⟨m, hm, rfl⟩ := hb
    simp only [toVal, Val.seq.injEq] at e
    rw [toValFields_inj fs _ _ l m hl hm e]
  | .seqOf _ _ t _, .seqOf _ _, .seqOf _ _, a, b, ha, hb, e => by
    obtain ⟨_, _, l, rfl, hl⟩ := elems_some ha
    obtain ⟨_, _, m, rfl, hm⟩ := elems_some hb
    simp only [toVal, Val.seqOf.injEq] at e
    rw [mapToVal_inj (toVal_inj t) _ _ l m hl hm e]
  | .choice alts _, v, w, a, b, ha, hb, e => by
    cases v <;> simp only [meaning, reduceCtorEq] at ha
    cases w <;> simp only [meaning, reduceCtorEq] at hb
    split at ha <;> simp only [reduceCtorEq, Option.map_eq_some_iff] at ha
    split at hb <;> simp only [reduceCtorEq, Option.map_eq_some_iff] at hb
    obtain ⟨x, hx, rfl⟩ := ha
    obtain ⟨y, hy, rfl⟩ := hb
    simp only [toVal, Val.choice.injEq] at e
    obtain ⟨e1, e2⟩ := e
    rw [e1] at e2 hx
    rw [e1, toValAlt_inj alts _ _ _ x y hx hy e2]
  | .ref t _ _, v, w, a, b, ha, hb, e => by
    simp only [meaning] at ha hb
    simp only [toVal] at e
    exact toVal_inj t v w a b ha hb e
theorem toValFields_inj : ∀ (fs : CFields) (vs ws : List (Bool × CVal)) (l m : List (Option AV)), meaningFields fs vs = some l →
    meaningFields fs ws = some m → toValFields fs l = toValFields fs m → l = m
  | .nil, vs, ws, l, m, hl, hm, _ => by
    cases vs <;> simp only [meaningFields, reduceCtorEq, Option.some.injEq] at hl
    cases ws <;> simp only [meaningFields, reduceCtorEq, Option.some.injEq] at hm
    subst hl hm
    rfl
  | .cons o t rest, [], ws, l, m, hl, _, _ => by simp [meaningFields] at hl
  | .cons o t rest, _ :: _, [], l, m, _, hm, _ => by simp [meaningFields] at hm
  | .cons o t rest, (e, v) :: vs, (f, w) :: ws, l, m, hl, hm, h => by
    have here := fun a b h1 h2 h3 => toVal_inj t v w a b h1 h2 h3
    have hrest := fun a b h1 h2 h3 => toValFields_inj rest vs ws a b h1 h2 h3
    cases o <;> cases e <;> cases f <;>
      simp only [meaningFields, Option.bind_eq_bind, Option.bind_eq_some_iff, Option.some.injEq] at hl hm <;>
      first
        | (obtain ⟨x, hx, ys, hys, rfl⟩ := hl
           obtain ⟨x', hx', ys', hys', rfl⟩ := hm
           simp only [toValFields, List.cons.injEq, Prod.mk.injEq, true_and, reduceCtorEq] at h
           rw [here x x' hx hx' h.1, hrest ys ys' hys hys' h.2]; done)
        | (obtain ⟨ys, hys, rfl⟩ := hl
           obtain ⟨ys', hys', rfl⟩ := hm
           simp only [toValFields, List.cons.injEq, Prod.mk.injEq, true_and, reduceCtorEq] at h
           rw [hrest ys ys' hys hys' h]; done)
        | (obtain ⟨x, hx, ys, hys, rfl⟩ := hl
           obtain ⟨ys', hys', rfl⟩ := hm
           simp [toValFields] at h; done)
        | (obtain ⟨ys, hys, rfl⟩ := hl
           obtain ⟨x', hx', ys', hys', rfl⟩ := hm
           simp [toValFields] at h; done)
theorem toValAlt_inj : ∀ (alts : CAlts) (i : Nat) (v w : CVal) (a b : AV), meaningAlt alts i v = some a → meaningAlt alts i w = some b →
    toValAlt alts i a = toValAlt alts i b → a = b
  | .nil, _, _, _, _, _, ha, _, _ => by simp [meaningAlt] at ha
  | .cons t _, 0, v, w, a, b, ha, hb, e => by
    simp only [meaningAlt] at ha hb
    simp only [toValAlt] at e
    exact toVal_inj t v w a b ha hb e
  | .cons _ rest, i + 1, v, w, a, b, ha, hb, e => by
    simp only [meaningAlt] at ha hb
    simp only [toValAlt] at e
    exact toValAlt_inj rest i v w a b ha hb e
end

end Asn1
