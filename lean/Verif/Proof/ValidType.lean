import Verif.Proof.ValidDen
import Verif.Props.Oid
/-! `<type>_IsConstraintValid` as a whole. -/
namespace Asn1

/-- What a check tells: whether `P` holds; the error code is 0 or as before when it does, and one of those in `bad` when it
does not. -/
def Tells (p : List Nat) (m : M (Bool × ErrCode)) (err : ErrCode) (P : Prop) (bad : List Nat → Prop) : Prop :=
  ∃ b err', m = pure (b, err') ∧ (b = true ↔ P) ∧ (b = true → err' = err ∨ err' = none) ∧
    (b = false → ∃ q, err' = some (p ++ q) ∧ bad q)

theorem denList_map {t : CTy} {v : CVal} {a : AV} (hm : meaning t v = some a) : ∀ (cons : List AC), (∀ c ∈ cons, c.Fits t) →
    DenList v (cons.map (acVC t)) (∀ c ∈ cons, c.Sat a)
  | [], _ => .nil (by simp)
  | c :: cs, h => .cons (den_acVC t c v a hm (h c (by simp))) (denList_map hm cs fun d hd => h d (by simp [hd])) (by simp)

theorem checkCons_tells {vc : VC} {v : CVal} {P : Prop} (p : List Nat) (err : ErrCode) (h : vc.Den v P) :
    Tells p (checkCons p vc v err) err P (fun q => q = [] ∧ ¬ P) := by
  have hgen : vc ≠ .tt → checkCons p vc v err = (vc.run v true >>= fun r => pure (r, if r then none else some p)) := by
    intro hne; cases vc <;> first | rfl | exact absurd rfl hne
  by_cases e : vc = .tt
  · subst e
    exact ⟨true, err, rfl, by simpa [VC.Den] using h, fun _ => .inl rfl, fun h => by cases h⟩
  · obtain ⟨b, h1, h2⟩ := run_den h
    refine ⟨b, if b then none else some p, by rw [hgen e, h1]; rfl, h2, ?_, ?_⟩
    · rintro rfl; exact .inr rfl
    · rintro rfl
      exact ⟨[], by simp, rfl, by rw [← h2]; simp⟩

theorem then_tells {c d : Check} {v : CVal} {err : ErrCode} {p : List Nat} {P Q : Prop} {bad : List Nat → Prop}
    (h1 : Tells p (c v err) err P bad) (h2 : ∀ e, (e = err ∨ e = none) → Tells p (d v e) e Q bad) :
    Tells p ((c.then d) v err) err (P ∧ Q) bad := by
  obtain ⟨b, e1, a1, a2, a3, a4⟩ := h1
  show Tells p (do let r ← c v err; if r.1 then d v r.2 else pure r) _ _ _
  rw [a1, Mpure_bind]
  cases b
  · exact ⟨false, e1, rfl, by rw [← a2]; simp, fun h => (by cases h), a4⟩
  · obtain ⟨b', e2, b1, b2, b3, b4⟩ := h2 e1 (a3 rfl)
    refine ⟨b', e2, b1, by rw [b2, ← a2]; simp, fun h => ?_, b4⟩
    rcases b3 h with rfl | h
    · exact a3 rfl
    · exact .inr h

theorem Tells.mono {p : List Nat} {m : M (Bool × ErrCode)} {err : ErrCode} {P Q : Prop} {bad bad' : List Nat → Prop}
    (h : Tells p m err P bad) (e : P ↔ Q) (hb : ∀ q, bad q → bad' q) : Tells p m err Q bad' := by
  obtain ⟨b, e1, a1, a2, a3, a4⟩ := h
  exact ⟨b, e1, a1, a2.trans e, a3, fun h => by obtain ⟨q, h1, h2⟩ := a4 h; exact ⟨q, h1, hb q h2⟩⟩

theorem Tells.shift {p : List Nat} {i : Nat} {m : M (Bool × ErrCode)} {err : ErrCode} {P : Prop} {bad bad' : List Nat → Prop}
    (h : Tells (p ++ [i]) m err P bad) (hb : ∀ q, bad q → bad' (i :: q)) : Tells p m err P bad' := by
  obtain ⟨b, e1, a1, a2, a3, a4⟩ := h
  exact ⟨b, e1, a1, a2, a3, fun h => by
    obtain ⟨q, h1, h2⟩ := a4 h
    exact ⟨i :: q, by rw [h1]; simp, hb q h2⟩⟩

theorem consCheck_tells {t : CTy} {v : CVal} {a : AV} (hm : meaning t v = some a) (cons : List AC) (hf : ∀ c ∈ cons, c.Fits t)
    (ho : t.ownCons = cons) (p : List Nat) (err : ErrCode) :
    Tells p (checkCons p (consVC t cons) v err) err (∀ c ∈ cons, c.Sat a) (t.BadAt a) :=
  (checkCons_tells p err (den_multiAnd (denList_map hm cons hf))).mono Iff.rfl (by
    rintro q ⟨rfl, h⟩
    refine .here (.inl ?_)
    rw [ho]
    simpa using h)

theorem oidBasic_den {rel : Bool} {o : Oid} (h : o.values.length = 20) (hn : o.nCount ≤ 20) :
    (VC.expr (oidBasicTest rel)).Den (.oid o) (∃ l, AV.oid (o.values.take o.nCount) = .oid l ∧ OidArcsOk rel l) := by
  have hiff : (∃ l, AV.oid (o.values.take o.nCount) = .oid l ∧ OidArcsOk rel l) ↔ OidArcsOk rel (o.values.take o.nCount) :=
    ⟨fun ⟨l, e, h⟩ => by cases e; exact h, fun h => ⟨_, rfl, h⟩⟩
  rw [propext hiff]
  cases rel
  · refine ⟨decide (2 ≤ o.nCount ∧ o.values[0].toNat ≤ 2 ∧ o.values[1].toNat ≤ 39), ?_, ?_⟩
    · funext s; simp only [oidBasicTest, Bool.false_eq_true, if_false]; exact C18_isValid o h s
    · simp only [OidArcsOk, Bool.false_eq_true, if_false, decide_eq_true_eq]
      obtain ⟨n, vs⟩ := o
      simp only at *
      match vs, h with
      | a :: b :: rest, h =>
        simp only [List.getElem_cons_zero, List.getElem_cons_succ]
        constructor
        · rintro ⟨h2, ha, hb⟩
          obtain ⟨k, rfl⟩ : ∃ k, n = k + 2 := ⟨n - 2, by omega⟩
          exact ⟨a, b, rest.take k, rfl, ha, hb⟩
        · rintro ⟨a', b', r', e, ha, hb⟩
          match n, e with
          | k + 2, e =>
            simp only [List.take_succ_cons, List.cons.injEq] at e
            obtain ⟨rfl, rfl, _⟩ := e
            exact ⟨by omega, ha, hb⟩
  · refine ⟨decide (o.nCount > 0), by simp only [oidBasicTest, if_true]; rfl, ?_⟩
    simp only [OidArcsOk, if_true, decide_eq_true_eq]
    obtain ⟨n, vs⟩ := o
    simp only at *
    match vs, h with
    | a :: rest, h =>
      cases n with
      | zero => simp
      | succ n => simp

theorem checkLoop_tells {body : Check} {t : CTy} {p : List Nat} {arr : List CVal} {bad : AV → List Nat → Prop} {P : AV → Prop}
    (hb : ∀ w x err, meaning t w = some x → Tells p (body w err) err (P x) (bad x)) :
    ∀ (n i : Nat) (xs : List AV) (err : ErrCode), i + n ≤ arr.length →
      List.Forall₂ (fun w x => meaning t w = some x) ((arr.drop i).take n) xs →
      Tells p (checkLoop body arr n i err) err (∀ x ∈ xs, P x) (fun q => ∃ x ∈ xs, bad x q)
  | 0, i, xs, err, _, h => by
    simp only [List.take_zero] at h
    cases h
    exact ⟨true, err, rfl, by simp, fun _ => .inl rfl, fun h => by cases h⟩
  | n + 1, i, xs, err, hl, h => by
    have hi : i < arr.length := by omega
    rw [List.drop_eq_getElem_cons hi, List.take_succ_cons] at h
    cases h with
    | cons h1 h2 =>
      rename_i x xs
      obtain ⟨b, e1, a1, a2, a3, a4⟩ := hb _ _ err h1
      rw [checkLoop, tblGet_pure hi, Mpure_bind, a1, Mpure_bind]
      cases b
      · refine ⟨false, e1, rfl, ?_, fun h => (by cases h), fun _ => ?_⟩
        · simp only [Bool.false_eq_true, List.mem_cons, forall_eq_or_imp, false_iff, not_and]
          intro hP; simp [hP] at a2
        · obtain ⟨q, hq, hbad⟩ := a4 rfl
          exact ⟨q, hq, x, by simp, hbad⟩
      · obtain ⟨b', e2, b1, b2, b3, b4⟩ := checkLoop_tells hb n (i + 1) xs e1 (by omega) h2
        refine ⟨b', e2, b1, ?_, fun h => ?_, fun h => ?_⟩
        · rw [b2]
          simp only [List.mem_cons, forall_eq_or_imp]
          exact ⟨fun h => ⟨a2.1 rfl, h⟩, fun h => h.2⟩
        · rcases b3 h with rfl | h
          · exact a3 rfl
          · exact .inr h
        · obtain ⟨q, hq, y, hy, hbad⟩ := b4 h
          exact ⟨q, hq, y, by simp [hy], hbad⟩

mutual
theorem validT_tells : ∀ (t : CTy) (p : List Nat) (v : CVal) (a : AV) (err : ErrCode), meaning t v = some a → t.Fits →
    Tells p (validT p t v err) err (t.Sat a) (t.BadAt a)
  | .int cls cons, p, v, a, err, hm, hf => by
    simp only [validT, CTy.Sat, CTy.Fits] at *; exact consCheck_tells hm cons hf rfl p err
  | .bool cons, p, v, a, err, hm, hf => by
    simp only [validT, CTy.Sat, CTy.Fits] at *; exact consCheck_tells hm cons hf rfl p err
  | .null, p, v, a, err, hm, hf => by
    simp only [validT, CTy.Sat]; exact ⟨true, err, rfl, by simp, fun _ => .inl rfl, fun h => by cases h⟩
  | .enum items cons, p, v, a, err, hm, hf => by
    simp only [validT, CTy.Sat, CTy.Fits] at *; exact consCheck_tells hm cons hf rfl p err
  | .octets lo hi cons, p, v, a, err, hm, hf => by
    simp only [validT, CTy.Sat, CTy.Fits] at *; exact consCheck_tells hm cons hf rfl p err
  | .bits lo hi cons, p, v, a, err, hm, hf => by
    simp only [validT, CTy.Sat, CTy.Fits] at *; exact consCheck_tells hm cons hf rfl p err
  | .str lo hi al cons, p, v, a, err, hm, hf => by
    simp only [validT, CTy.Sat, CTy.Fits] at *; exact consCheck_tells hm cons hf rfl p err
  | .real cons, p, v, a, err, hm, hf => by
    simp only [validT, CTy.Sat, CTy.Fits] at *; exact consCheck_tells hm cons hf rfl p err
  | .oid rel cons, p, v, a, err, hm, hf => by
    simp only [validT, CTy.Sat, CTy.Fits] at *
    obtain ⟨o, rfl, rfl, h1, h2⟩ := meaning_oid hm rfl
    refine (checkCons_tells p err (den_multiAnd (.cons (oidBasic_den h1 h2) (denList_map hm cons hf) Iff.rfl))).mono Iff.rfl ?_
    rintro q ⟨rfl, h⟩
    refine .here ?_
    by_cases hl : ∃ l, AV.oid (o.values.take o.nCount) = .oid l ∧ OidArcsOk rel l
    · refine .inl ?_
      have : ¬ ∀ c ∈ cons, c.Sat (AV.oid (o.values.take o.nCount)) := fun hh => h ⟨hl, hh⟩
      simpa [CTy.ownCons] using this
    · exact .inr ⟨rel, cons, _, rfl, rfl, fun hh => hl ⟨_, rfl, hh⟩⟩
  | .seq fs cons, p, v, a, err, hm, hf => by
    have hm0 := hm
    simp only [validT, CTy.Sat, CTy.Fits] at *
    obtain ⟨l, xs, rfl, rfl, hx⟩ := meaning_seq hm rfl
    have hfields := validFields_tells fs p 0 l xs err (by simpa using hx) hf.1
    refine (then_tells (hfields.mono (Q := ∃ l, AV.seq xs = .seq l ∧ fs.Sat l) ?_ ?_)
      (fun e _ => consCheck_tells hm0 cons hf.2 rfl p e)).mono Iff.rfl (fun q h => h)
    · exact ⟨fun h => ⟨xs, rfl, h⟩, fun ⟨l, e, h⟩ => by cases e; exact h⟩
    · rintro q ⟨j, o, t, x, q', rfl, hg, hx, hb⟩
      rw [Nat.zero_add]
      exact .comp hg hx hb
  | .seqOf lo hi t cons, p, v, a, err, hm, hf => by
    have hm0 := hm
    simp only [validT, CTy.Sat, CTy.Fits] at *
    obtain ⟨n, arr, k, xs, rfl, rfl, hlen, hk, h1, h2, hxs⟩ := meaning_seqOf hm rfl
    refine (then_tells (consCheck_tells hm0 cons hf.2 rfl p err) (Q := ∃ l, AV.seqOf xs = .seqOf l ∧ ∀ x ∈ l, t.Sat x) ?_).mono
      Iff.rfl (fun q h => h)
    intro e _
    have hn : (if lo = hi then lo else n.toNat) = k := by
      by_cases e : lo = hi
      · have := h1 e
        rw [if_pos e]; omega
      · rw [if_neg e, h2 e]; simp
    simp only [checkElements, hn]
    have hl := checkLoop_tells (body := validT (p ++ [0]) t) (p := p ++ [0]) (arr := arr)
      (fun w x err hw => validT_tells t (p ++ [0]) w x err hw hf.1) k 0 xs e (by omega) (by simpa using hxs)
    refine (hl.shift (bad' := CTy.BadAt (.seqOf lo hi t cons) (.seqOf xs)) ?_).mono ?_ (fun q h => h)
    · rintro q ⟨x, hx, hb⟩; exact .elem hx hb
    · exact ⟨fun h => ⟨xs, rfl, h⟩, fun ⟨l, e, h⟩ => by cases e; exact h⟩
  | .choice alts cons, p, v, a, err, hm, hf => by
    have hm0 := hm
    simp only [validT, CTy.Sat, CTy.Fits] at *
    obtain ⟨k, u, x, rfl, rfl, hx⟩ := meaning_choice hm rfl
    refine (then_tells (consCheck_tells hm0 cons hf.2 rfl p err)
      (Q := ∃ i v, AV.choice k x = .choice i v ∧ alts.Sat i v) ?_).mono Iff.rfl (fun q h => h)
    intro e _
    dsimp only
    rw [if_pos (by omega), show ((k : Int) + 1).toNat - 1 = k by omega]
    refine (validAlt_tells alts p 0 k u x e hx hf.1).mono ?_ ?_
    · exact ⟨fun h => ⟨k, x, rfl, h⟩, fun ⟨i, v, e, h⟩ => by cases e; exact h⟩
    · rintro q ⟨t, q', rfl, hg, hb⟩
      rw [Nat.zero_add]
      exact .alt hg hb
  | .ref t sz cons, p, v, a, err, hm, hf => by
    have hm0 := hm
    simp only [validT, CTy.Sat, CTy.Fits] at *
    simp only [meaning] at hm
    refine then_tells ((validT_tells t (p ++ [0]) v a err hm hf.1).shift (fun q hb => .target hb)) ?_
    exact fun e _ => consCheck_tells hm0 cons hf.2 rfl p e
theorem validFields_tells : ∀ (fs : CFields) (p : List Nat) (i : Nat) (l : List (Bool × CVal)) (xs : List (Option AV)) (err : ErrCode),
    meaningFields fs (l.drop i) = some xs → fs.Fits →
    Tells p (validFieldsC p i fs (.seq l) err) err (fs.Sat xs)
      (fun q => ∃ j o t x q', q = (i + j) :: q' ∧ fs.get j = some (o, t) ∧ xs[j]? = some (some x) ∧ t.BadAt x q')
  | .nil, p, i, l, xs, err, hm, hf => by
    simp only [validFieldsC, CFields.Sat]; exact ⟨true, err, rfl, by simp, fun _ => .inl rfl, fun h => by cases h⟩
  | .cons o t rest, p, i, l, xs, err, hm, hf => by
    simp only [CFields.Fits] at hf
    have hi : i < l.length := by
      rcases Nat.lt_or_ge i l.length with h | h
      · exact h
      · rw [List.drop_eq_nil_of_le h] at hm; simp [meaningFields] at hm
    have hm1 := hm
    rw [List.drop_eq_getElem_cons hi] at hm
    obtain ⟨e, v, hl, h1, h2⟩ := meaningFields_get (i := 0) (o := o) (t := t) hm1 rfl
    rw [List.getElem?_drop, Nat.add_zero] at hl
    have hev : l[i] = (e, v) := (List.getElem?_eq_some_iff.1 hl).2
    rw [hev] at hm
    simp only [validFieldsC]
    have hstep : ∃ x0 ys, xs = x0 :: ys ∧ meaningFields rest (l.drop (i + 1)) = some ys := by
      cases o <;> cases e <;>
        simp only [meaningFields, Option.bind_eq_bind, Option.bind_eq_some_iff, Option.some.injEq] at hm <;>
        first
        | (obtain ⟨x0, hx0, xs, hxs, rfl⟩ := hm; exact ⟨_, _, rfl, hxs⟩)
        | (obtain ⟨xs, hxs, rfl⟩ := hm; exact ⟨_, _, rfl, hxs⟩)
    obtain ⟨x0, ys, rfl, hys⟩ := hstep
    have ih := fun e => (validFields_tells rest p (i + 1) l ys e hys hf.2).mono (Q := rest.Sat ys) Iff.rfl
      (bad' := fun q => ∃ j o' t' x q', q = (i + j) :: q' ∧ (CFields.cons o t rest).get j = some (o', t') ∧
        (x0 :: ys)[j]? = some (some x) ∧ t'.BadAt x q') (by
        rintro q ⟨j, o', t', x, q', rfl, hg, hx, hb⟩
        exact ⟨j + 1, o', t', x, q', by congr 1; omega, hg, by simpa using hx, hb⟩)
    by_cases hpres : o.hasBit = false ∨ e = true
    · obtain ⟨x, hx, hv⟩ := h1 hpres
      simp only [List.getElem?_cons_zero, Option.some.injEq] at hx
      subst hx
      simp only [CFields.Sat]
      refine then_tells ?_ (fun e _ => ih e)
      have hcond : (if o.hasBit = true then getExist i (.seq l) else pure true) = (pure true : M Bool) := by
        rcases hpres with h | rfl
        · simp [h]
        · rw [getExist_pure hl]; simp
      rw [hcond, Mpure_bind, if_pos rfl, getComp_pure hl, Mpure_bind]
      exact (validT_tells t (p ++ [i]) v x err hv hf.1).shift (fun q hb => ⟨0, o, t, x, q, by simp, rfl, by simp, hb⟩)
    · have hb : o.hasBit = true := by
        cases h : o.hasBit
        · exact absurd (.inl h) hpres
        · rfl
      have he : e = false := by
        cases e
        · rfl
        · exact absurd (.inr rfl) hpres
      have hx := h2 hb he
      simp only [List.getElem?_cons_zero, Option.some.injEq] at hx
      subst hx
      simp only [CFields.Sat]
      have hthis : Tells p ((fun v err => do
        let e ← (if o.hasBit = true then getExist i v else pure true)
        if e = true then validT (p ++ [i]) t (← getComp i v) err else pure (true, err) : Check) (.seq l) err) err True
        (fun q => ∃ j o' t' x q', q = (i + j) :: q' ∧ (CFields.cons o t rest).get j = some (o', t') ∧
        (none :: ys)[j]? = some (some x) ∧ t'.BadAt x q') := by
        dsimp only
        rw [if_pos hb, getExist_pure hl, he, Mpure_bind]
        exact ⟨true, err, rfl, by simp, fun _ => .inl rfl, fun h => by cases h⟩
      exact (then_tells hthis (fun e _ => ih e)).mono (by simp) (fun q h => h)
theorem validAlt_tells : ∀ (alts : CAlts) (p : List Nat) (i k : Nat) (u : CVal) (x : AV) (err : ErrCode), meaningAlt alts k u = some x →
    alts.Fits → Tells p (validAltC p i alts k u err) err (alts.Sat k x)
      (fun q => ∃ t q', q = (i + k) :: q' ∧ alts.get k = some t ∧ t.BadAt x q')
  | .nil, p, i, k, u, x, err, hm, _ => by simp [meaningAlt] at hm
  | .cons t rest, p, i, 0, u, x, err, hm, hf => by
    simp only [meaningAlt] at hm
    simp only [CAlts.Fits] at hf
    simp only [validAltC, CAlts.Sat]
    exact (validT_tells t (p ++ [i]) u x err hm hf.1).shift (fun q hb => ⟨t, q, rfl, rfl, hb⟩)
  | .cons t rest, p, i, k + 1, u, x, err, hm, hf => by
    simp only [meaningAlt] at hm
    simp only [CAlts.Fits] at hf
    simp only [validAltC, CAlts.Sat]
    refine (validAlt_tells rest p (i + 1) k u x err hm hf.2).mono Iff.rfl ?_
    rintro q ⟨t', q', rfl, hg, hb⟩
    exact ⟨t', q', by congr 1; omega, hg, hb⟩
end

end Asn1
